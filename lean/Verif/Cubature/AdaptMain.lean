import Verif.Cubature.AdaptProps
import Mathlib.Topology.Algebra.MvPolynomial

/-! The results of the adaptive integration; C86, C88. -/
namespace Verif.Cubature

noncomputable section

open Finset MeasureTheory

variable {d m : ℕ}

/-- The centre of the integration volume -/
def mid (lo hi : Vec d) : Vec d := fun i => 0.5 * (lo i + hi i)
/-- Its half-widths -/
def half (lo hi : Vec d) : Vec d := fun i => 0.5 * (hi i - lo i)

theorem mid_sub_half (lo hi : Vec d) : mid lo hi - half lo hi = lo := by funext i; simp only [Pi.sub_apply, mid, half]; ring
theorem mid_add_half (lo hi : Vec d) : mid lo hi + half lo hi = hi := by funext i; simp only [Pi.add_apply, mid, half]; ring

/-- Inside the integration volume, and not at its boundaries (except for dimensions of zero size) -/
def Inside (lo hi x : Vec d) : Prop := ∀ i, lo i ≤ x i ∧ x i ≤ hi i ∧ (lo i < hi i → lo i < x i ∧ x i < hi i)

theorem inside_points {r : Rule d} (hr : RuleOK r) {lo hi : Vec d} (hle : ∀ i, lo i ≤ hi i) {c h : Vec d} (hin : ∀ i, 0 ≤ h i ∧ |c i - mid lo hi i| + h i ≤ half lo hi i)
    (hk : ∀ i, ∃ k : ℕ, h i = half lo hi i * 0.5 ^ k) : ∀ x ∈ r.points c h, Inside lo hi x := by
  intro x hx i
  have h1 := abs_le.1 (hr.inside c h (fun i => (hin i).1) x hx i)
  obtain ⟨h0, h2⟩ := hin i
  have h3 := abs_le.1 (le_refl |c i - mid lo hi i|)
  obtain ⟨k, hk⟩ := hk i
  have h4 : 0 < half lo hi i → 0 < h i := fun hp => by rw [hk]; positivity
  have h5 := hle i
  simp only [mid, half] at h2 h3 h4
  refine ⟨by linarith, by linarith, fun hlt => ?_⟩
  have := h4 (by linarith)
  constructor <;> linarith

theorem Inv.inside_region [NeZero d] {r : Rule d} {f : Integrand d m} {c h : Vec d} {s : St d m} (hs : Inv r f c h s) {R : Region d m} (hR : R ∈ s.heap.content) :
    ∀ i, 0 ≤ R.h i ∧ |R.c i - c i| + R.h i ≤ h i := hs.tiling.1 (R.c, R.h) (Multiset.mem_map_of_mem _ hR)

theorem Inv.inside_cut [NeZero d] {r : Rule d} (hr : RuleOK r) {f : Integrand d m} {lo hi : Vec d} (hle : ∀ i, lo i ≤ hi i) {s : St d m} (hs : Inv r f (mid lo hi) (half lo hi) s) {R : Region d m}
    (hR : R ∈ s.heap.content) : ∀ x ∈ r.points (cut R).1.c (cut R).1.h ++ r.points (cut R).2.c (cut R).2.h, Inside lo hi x := by
  have hin := cut_inside R _ _ (hs.inside_region hR)
  intro x hx
  rcases List.mem_append.1 hx with hx | hx
  · exact inside_points hr hle hin.1 (half_pow (hs.halves R hR) fun i => (cut_h R i).1) x hx
  · exact inside_points hr hle hin.2 (half_pow (hs.halves R hR) fun i => (cut_h R i).2) x hx

/-- The outcome of the loop -/
theorem loop_main [NeZero d] (r : Rule d) (hr : RuleOK r) (f : Integrand d m) (lo hi : Vec d) (hle : ∀ i, lo i ≤ hi i) (maxEval : ℕ) (absTol relTol : ℝ) (fuel : ℕ) (s : St d m)
    (hs : Inv r f (mid lo hi) (half lo hi) s) (hn : s.numEval ≤ r.num ∨ s.numEval < maxEval + 2 * r.num ∨ maxEval = 0) :
    match loop r f maxEval absTol relTol fuel s with
    | none => maxEval = 0 ∨ fuel ≤ maxEval - s.numEval
    | some .abort => False
    | some .failure => ∃ x, Inside lo hi x ∧ f x = none
    | some (.done s') => Inv r f (mid lo hi) (half lo hi) s' ∧ finished r maxEval absTol relTol s' ∧ (s'.numEval ≤ r.num ∨ s'.numEval < maxEval + 2 * r.num ∨ maxEval = 0) := by
  induction fuel generalizing s with
  | zero => simp [loop]
  | succ fuel ih =>
    rw [loop]
    split_ifs with hf
    · exact ⟨hs, hf, hn⟩
    · obtain ⟨R, heap', hc, -, hcase⟩ := refine1_spec r hr f _ _ s hs
      have hR : R ∈ s.heap.content := by rw [hc]; exact Multiset.mem_cons_self _ _
      have hnum : s.numEval < maxEval ∨ maxEval = 0 := by
        by_contra hcon
        exact hf (Or.inl hcon)
      rcases hcase with ⟨⟨x, hx, hfx⟩, he⟩ | ⟨A, B, s', -, -, he, -, hne, hi'⟩
      · rw [he]
        exact ⟨x, hs.inside_cut hr hle hR x hx, hfx⟩
      · rw [he]
        have hpos := hr.pos
        have := ih s' hi' (by omega)
        dsimp only
        split at this
        next e => omega
        next e => exact this
        next e => exact this
        next e => exact this

theorem sum_items (s : St d m) (g : Region d m → ℝ) : ∑ i ∈ range s.heap.n, g (s.heap.items i) = (s.heap.content.map g).sum := by
  rw [Heap.content, Multiset.map_map]; rfl

/-- The outcome of the integration for a given rule -/
theorem rule_main [NeZero d] (r : Rule d) (hr : RuleOK r) (f : Integrand d m) (lo hi : Vec d) (hle : ∀ i, lo i ≤ hi i) (maxEval : ℕ) (absTol relTol : ℝ) (garbage : ℕ → Region d m) (fuel : ℕ) :
    match rulecubature r f lo hi maxEval absTol relTol garbage fuel with
    | none => maxEval = 0 ∨ fuel ≤ maxEval - r.num
    | some .abort => False
    | some .exception => ∃ x, Inside lo hi x ∧ f x = none
    | some (.ok res) => ∃ s, Inv r f (mid lo hi) (half lo hi) s ∧ res = resum s ∧ finished r maxEval absTol relTol s ∧
        (s.numEval ≤ r.num ∨ s.numEval < maxEval + 2 * r.num ∨ maxEval = 0) := by
  unfold rulecubature
  cases hst : start r f lo hi garbage with
  | none =>
    dsimp only
    rw [start, Option.map_eq_none_iff, evalRegion, Option.map_eq_none_iff] at hst
    obtain ⟨x, hx, hf⟩ := mapM_none f _ hst
    refine ⟨x, inside_points hr hle (fun i => ?_) (fun i => ⟨0, ?_⟩) x hx, hf⟩
    · simp only [initRegion, mid, half, sub_self, abs_zero, zero_add, le_refl, and_true]
      linarith [hle i]
    · simp [initRegion, half]
  | some s =>
    obtain ⟨h1, h2, -⟩ := start_spec r hr f lo hi hle garbage s hst
    have := loop_main r hr f lo hi hle maxEval absTol relTol fuel s h1 (by omega)
    dsimp only
    split at this
    next e => rw [e, ← h2]; exact this
    next e => exact this.elim
    next e => rw [e]; exact this
    next s' e => rw [e]; exact ⟨s', this.1, rfl, this.2.1, this.2.2⟩

/-! ## C88 -/

theorem integrate_ok {f : Integrand d m} {lo hi : Vec d} {relTol : ℝ} {maxEval : ℕ} {garbage : ℕ → Region d m} {fuel : ℕ} (hm : m ≠ 0) {res : Result m}
    (h : integrateNdim d m f lo hi relTol maxEval garbage fuel = some (.ok res)) : ∃ _ : NeZero d, rulecubature (cubRule d) f lo hi maxEval 0 relTol garbage fuel = some (.ok res) := by
  unfold integrateNdim at h
  by_cases h0 : d = 0
  · rw [dif_pos h0] at h; simp at h
  rw [dif_neg h0] at h
  by_cases h10 : d > 10
  · rw [if_pos h10] at h; simp at h
  rw [if_neg h10, if_neg hm] at h
  exact ⟨⟨h0⟩, h⟩

/-- C88: the result. When integrateNdim returns a result, there is a subdivision of the integration volume into non-overlapping boxes (so that the integral of any integrable function
is the sum of integrals over boxes), such that the returned integrals and errors are the sums of estimates given by the rule for these boxes. The number of boxes is related
to the reported number of function evaluations. Either the limit on the number of evaluations is reached, or the error of each component satisfies the requested tolerance
(a tolerance of 1e-12 if the volume was not subdivided). -/
theorem C88_result (f : Integrand d m) (lo hi : Vec d) (hle : ∀ i, lo i ≤ hi i) (relTol : ℝ) (hrel : 0 ≤ relTol) (maxEval : ℕ) (garbage : ℕ → Region d m) (fuel : ℕ) (hm : m ≠ 0)
    (res : Result m) (h : integrateNdim d m f lo hi relTol maxEval garbage fuel = some (.ok res)) :
    ∃ M : Multiset (Vec d × Vec d), Tiling (mid lo hi) (half lo hi) M ∧ 0 < Multiset.card M ∧
      (∀ g, IntegrableOn g (Set.Icc lo hi) → sumInt M g = ∫ x in Set.Icc lo hi, g x) ∧
      (∀ j, res.val j = (M.map fun p => estimate (cubRule d) (fun x => (f x).getD 0 j) p.1 p.2).sum) ∧
      (∀ j, res.err j = (M.map fun p => estError (cubRule d) (fun x => (f x).getD 0 j) p.1 p.2).sum) ∧
      res.numEval = (cubRule d).num * (2 * Multiset.card M - 1) ∧
      (maxEval ≠ 0 ∧ maxEval ≤ res.numEval ∨ ∀ j, res.err j ≤ |res.val j| * if Multiset.card M = 1 then 1e-12 else relTol) := by
  obtain ⟨h0, h⟩ := integrate_ok hm h
  have hr := cub_ok d
  have hmain := rule_main (cubRule d) hr f lo hi hle maxEval 0 relTol garbage fuel
  rw [h] at hmain
  obtain ⟨s, hs, rfl, hfin, -⟩ := hmain
  have hM : ∀ (g : Vec d → Vec d → ℝ), ((boxes s.heap.content).map fun p => g p.1 p.2).sum = (s.heap.content.map fun R => g R.c R.h).sum := by
    intro g; rw [boxes, Multiset.map_map]; rfl
  have hcard : Multiset.card (boxes s.heap.content) = Multiset.card s.heap.content := by rw [boxes, Multiset.card_map]
  have hval : ∀ j, (resum s).val j = s.tval j := fun j => by rw [hs.tval j]; exact sum_items s fun R => R.val j
  have herr : ∀ j, (resum s).err j = s.terr j := fun j => by rw [hs.terr j]; exact sum_items s fun R => R.err j
  have hcount : s.numEval = (cubRule d).num * (2 * Multiset.card s.heap.content - 1) := by
    have := hs.count
    rw [Nat.mul_sub, mul_one]; omega
  refine ⟨boxes s.heap.content, hs.tiling, by rw [hcard]; exact hs.pos, fun g hg => ?_, fun j => ?_, fun j => ?_, ?_, ?_⟩
  · have := hs.ints g
    rw [mid_sub_half, mid_add_half] at this
    exact this hg
  · rw [hval, hs.tval, hM]
    congr 1
    exact Multiset.map_congr rfl fun R hR => (hs.filled R hR).val j
  · rw [herr, hs.terr, hM]
    congr 1
    exact Multiset.map_congr rfl fun R hR => (hs.filled R hR).err j
  · rw [hcard, ← hcount]; exact hs.calls
  · rcases hfin with hb | hconv
    · left
      have : (resum s).numEval = s.numEval := hs.calls
      rw [this]; omega
    · right
      intro j
      have hj := hconv j
      rw [hval, herr, hcard]
      have hiff : s.numEval > (cubRule d).num ↔ ¬ Multiset.card s.heap.content = 1 := by
        have hp := hr.pos
        have hc := hs.pos
        rw [hcount]
        generalize Multiset.card s.heap.content = n at hc
        constructor
        · rintro h1 rfl; omega
        · intro h1
          have : 2 ≤ 2 * n - 1 := by omega
          calc (cubRule d).num < (cubRule d).num * 2 := by omega
            _ ≤ _ := Nat.mul_le_mul_left _ this
      have htol : (if s.numEval > (cubRule d).num then relTol else 1e-12) = if Multiset.card s.heap.content = 1 then 1e-12 else relTol := by
        by_cases h1 : Multiset.card s.heap.content = 1
        · rw [if_neg (fun h2 => hiff.1 h2 h1), if_pos h1]
        · rw [if_pos (hiff.2 h1), if_neg h1]
      rw [htol] at hj
      have hnn : 0 ≤ |s.tval j| * if Multiset.card s.heap.content = 1 then 1e-12 else relTol := mul_nonneg (abs_nonneg _) (by split_ifs <;> linarith)
      by_contra hcon
      rw [not_le] at hcon
      exact hj ⟨lt_of_le_of_lt hnn hcon, hcon⟩

/-- C88: termination. If the limit on the number of evaluations is set, the procedure ends; it never aborts the program, and an exception is thrown only if the dimension is out of range or
the integrand throws at some point inside the integration volume (not at its boundary). -/
theorem C88_outcome (f : Integrand d m) (lo hi : Vec d) (hle : ∀ i, lo i ≤ hi i) (relTol : ℝ) (maxEval : ℕ) (garbage : ℕ → Region d m) (fuel : ℕ) :
    (maxEval ≠ 0 → maxEval ≤ fuel → integrateNdim d m f lo hi relTol maxEval garbage fuel ≠ none) ∧
    integrateNdim d m f lo hi relTol maxEval garbage fuel ≠ some .abort ∧
    (integrateNdim d m f lo hi relTol maxEval garbage fuel = some .exception → d = 0 ∨ 10 < d ∨ ∃ x, Inside lo hi x ∧ f x = none) := by
  unfold integrateNdim
  split_ifs with h0 h10 hm
  · exact ⟨by simp, by simp, fun _ => Or.inl h0⟩
  · exact ⟨by simp, by simp, fun _ => Or.inr (Or.inl h10)⟩
  · exact ⟨by simp, by simp, by simp⟩
  · have : NeZero d := ⟨h0⟩
    have hr := cub_ok d
    have hmain := rule_main (cubRule d) hr f lo hi hle maxEval 0 relTol garbage fuel
    have hp := hr.pos
    refine ⟨fun h1 h2 h3 => ?_, fun h3 => ?_, fun h3 => ?_⟩
    · rw [h3] at hmain
      dsimp only at hmain
      omega
    · rw [h3] at hmain; exact hmain
    · rw [h3] at hmain; exact Or.inr (Or.inr hmain)

/-- C88: the number of evaluations. The first evaluation of the entire volume is always made; after that the limit may be exceeded by less than two evaluations of the rule. -/
theorem C88_numEval (f : Integrand d m) (lo hi : Vec d) (hle : ∀ i, lo i ≤ hi i) (relTol : ℝ) (maxEval : ℕ) (hmax : maxEval ≠ 0) (garbage : ℕ → Region d m) (fuel : ℕ) (hm : m ≠ 0)
    (res : Result m) (h : integrateNdim d m f lo hi relTol maxEval garbage fuel = some (.ok res)) :
    (cubRule d).num ≤ res.numEval ∧ (res.numEval = (cubRule d).num ∨ res.numEval < maxEval + 2 * (cubRule d).num) := by
  obtain ⟨h0, h⟩ := integrate_ok hm h
  have hr := cub_ok d
  have hmain := rule_main (cubRule d) hr f lo hi hle maxEval 0 relTol garbage fuel
  rw [h] at hmain
  obtain ⟨s, hs, rfl, -, hn⟩ := hmain
  have e : (resum s).numEval = s.numEval := hs.calls
  have hc := hs.count
  have hp := hs.pos
  rw [e]
  have : (cubRule d).num * 2 ≤ (cubRule d).num * (2 * Multiset.card s.heap.content) := Nat.mul_le_mul_left _ (by omega)
  omega

/-- C88, refuted: maxNumEval is not an upper limit on the number of evaluations. With the limit of 1, at least 15 evaluations are made. -/
theorem C88_refuted_limit (hd : 1 ≤ d) (f : Integrand d m) (lo hi : Vec d) (hle : ∀ i, lo i ≤ hi i) (relTol : ℝ) (garbage : ℕ → Region d m) (fuel : ℕ) (hm : m ≠ 0)
    (res : Result m) (h : integrateNdim d m f lo hi relTol 1 garbage fuel = some (.ok res)) : 15 ≤ res.numEval := by
  refine le_trans ?_ (C88_numEval f lo hi hle relTol 1 one_ne_zero garbage fuel hm res h).1
  by_cases h1 : d = 1
  · subst h1; exact le_rfl
  · rw [cubRule_ne h1]
    show 15 ≤ gmNum d
    have h2 : 2 ≤ d := by omega
    have h4 : 2 ^ 2 ≤ 2 ^ d := Nat.pow_le_pow_right (by norm_num) h2
    rw [gmNum, numRR, numRR0, Nat.one_shiftLeft]
    have : 2 * d * 1 ≤ 2 * d * (d - 1) := Nat.mul_le_mul_left _ (by omega)
    omega

theorem errMax_spec (err : Fin m → ℝ) : (∀ j, err j ≤ errMax err) ∧ 0 ≤ errMax err ∧ (errMax err = 0 ∨ ∃ j, errMax err = err j) := by
  have : ∀ (l : List (Fin m)) (a : ℝ), 0 ≤ a → let e := l.foldl (fun e k => if err k > e then err k else e) a
      a ≤ e ∧ (∀ j ∈ l, err j ≤ e) ∧ (e = a ∨ ∃ j, e = err j) := by
    intro l
    induction l with
    | nil => intro a _; simp
    | cons k l ih =>
      intro a ha
      simp only [List.foldl_cons]
      by_cases hk : err k > a
      · rw [if_pos hk]
        obtain ⟨h1, h2, h3⟩ := ih (err k) (ha.trans hk.le)
        refine ⟨hk.le.trans h1, fun j hj => ?_, ?_⟩
        · rcases List.mem_cons.1 hj with rfl | hj
          · exact h1
          · exact h2 j hj
        · rcases h3 with h3 | h3
          · exact Or.inr ⟨k, h3⟩
          · exact Or.inr h3
      · rw [if_neg hk]
        obtain ⟨h1, h2, h3⟩ := ih a ha
        refine ⟨h1, fun j hj => ?_, h3⟩
        rcases List.mem_cons.1 hj with rfl | hj
        · exact (not_lt.1 hk).trans h1
        · exact h2 j hj
  obtain ⟨h1, h2, h3⟩ := this (List.finRange m) 0 le_rfl
  exact ⟨fun j => h2 j (List.mem_finRange j), h1, h3⟩

theorem splitOf_spec [NeZero d] (diff : Fin d → ℝ) (hn : ∀ i, 0 ≤ diff i) : ∀ i, diff i ≤ diff (splitOf diff) := by
  have : ∀ (l : List (Fin d)) (s : ℝ × Fin d), s.1 ≤ diff s.2 → let e := l.foldl (fun (s : ℝ × Fin d) i => if diff i > s.1 then (diff i, i) else s) s
      s.1 ≤ e.1 ∧ e.1 ≤ diff e.2 ∧ ∀ i ∈ l, diff i ≤ e.1 := by
    intro l
    induction l with
    | nil => intro s hs; exact ⟨le_rfl, hs, by simp⟩
    | cons k l ih =>
      intro s hs
      simp only [List.foldl_cons]
      by_cases hk : diff k > s.1
      · rw [if_pos hk]
        obtain ⟨h1, h2, h3⟩ := ih (diff k, k) le_rfl
        refine ⟨hk.le.trans h1, h2, fun i hi => ?_⟩
        rcases List.mem_cons.1 hi with rfl | hi
        · exact h1
        · exact h3 i hi
      · rw [if_neg hk]
        obtain ⟨h1, h2, h3⟩ := ih s hs
        refine ⟨h1, h2, fun i hi => ?_⟩
        rcases List.mem_cons.1 hi with rfl | hi
        · exact (not_lt.1 hk).trans h1
        · exact h3 i hi
  obtain ⟨-, h2, h3⟩ := this (List.finRange d) (0, 0) (hn 0)
  exact fun i => (h3 i (List.mem_finRange i)).trans h2

/-- The fourth difference of a function along the dimension i at the centre of a box, used as the measure of its variation: f(c±λ2 h) and f(c±λ4 h), combined so that it is zero for a
function quadratic in this coordinate -/
def fourthDiff (g : Vec d → ℝ) (c h : Vec d) (i : Fin d) : ℝ :=
  let D := fun l : ℝ => g (Function.update c i (c i + h i * l)) + g (Function.update c i (c i - h i * l)) - 2 * g c
  |D codeLambdas.l2 - codeLambdas.l2 ^ 2 / codeLambdas.l4 ^ 2 * D codeLambdas.l4|

theorem gmDiff_eq (g : Vec d → ℝ) (c h : Vec d) (i : Fin d) : gmDiff codeLambdas (gmValues codeLambdas c h g) i = fourthDiff g c h i := by
  have h0 : gmValues codeLambdas c h g 0 = g c := by
    rw [gmValues, gmPoints_eq]; rfl
  have hk : ∀ q : ℕ, q < 4 → gmValues codeLambdas c h g (1 + 4 * i + q) =
      ((axis4 c (fun i => h i * codeLambdas.l2) (fun i => h i * codeLambdas.l4) i).map g).getD q 0 := by
    intro q hq
    rw [gmValues, gmPoints_eq, List.map_cons, show 1 + 4 * (i : ℕ) + q = (4 * (i : ℕ) + q) + 1 by omega, List.getD_cons_succ, List.map_append]
    have hlen : ∀ l : List (Fin d), ((l.flatMap (axis4 c (fun i => h i * codeLambdas.l2) (fun i => h i * codeLambdas.l4))).map g).length = 4 * l.length := by
      intro l
      rw [List.length_map, List.length_flatMap]
      simp [axis4, mul_comm]
    have hget : ∀ (l : List (Fin d)) (n : ℕ) (hn : n < l.length), ((l.flatMap (axis4 c (fun i => h i * codeLambdas.l2) (fun i => h i * codeLambdas.l4))).map g).getD (4 * n + q) 0 =
        ((axis4 c (fun i => h i * codeLambdas.l2) (fun i => h i * codeLambdas.l4) l[n]).map g).getD q 0 := by
      intro l
      induction l with
      | nil => intro n hn; simp at hn
      | cons a l ih =>
        intro n hn
        rw [List.flatMap_cons, List.map_append]
        cases n with
        | zero =>
          rw [List.getD_append _ _ _ _ (by simpa [axis4] using hq)]
          simp
        | succ n =>
          have hl4 : ((axis4 c (fun i => h i * codeLambdas.l2) (fun i => h i * codeLambdas.l4) a).map g).length = 4 := by simp [axis4]
          rw [List.getD_append_right _ _ _ _ (by rw [hl4]; omega), hl4, show 4 * (n + 1) + q - 4 = 4 * n + q by omega, ih n (by simpa using hn)]
          simp
    have hi : (i : ℕ) < (List.finRange d).length := by simp
    rw [List.getD_append _ _ _ _ (by rw [hlen, List.length_finRange]; have := i.2; omega), hget (List.finRange d) i hi]
    simp
  have a0 := hk 0 (by norm_num)
  have a1 := hk 1 (by norm_num)
  have a2 := hk 2 (by norm_num)
  have a3 := hk 3 (by norm_num)
  rw [add_zero] at a0
  rw [gmDiff, a0, a1, a2, a3, h0, fourthDiff]
  simp only [axis4, List.map_cons, List.map_nil, List.getD_cons_zero, List.getD_cons_succ]
  congr 1
  ring

/-- The largest of estimated errors of components for a box -/
def worst (r : Rule d) (F : Vec d → Fin m → ℝ) (c h : Vec d) : ℝ := errMax fun j => estError r (fun x => F x j) c h

/-- C88: refinement. The box chosen for subdivision has the largest error among all boxes: no other box has a component with an error larger than the largest error of this one. It is
replaced by two halves along the dimension with the largest variation of the integrand (the sum of fourth differences of all components). -/
theorem C88_worst_first [NeZero d] (f : Integrand d m) (c h : Vec d) (s s' : St d m) (hs : Inv (cubRule d) f c h s) (hstep : refine1 (cubRule d) f s = .done s') :
    ∃ (p : Vec d × Vec d) (M : Multiset (Vec d × Vec d)) (k : Fin d), boxes s.heap.content = p ::ₘ M ∧
      (∀ q ∈ M, ∀ j, estError (cubRule d) (fun x => (f x).getD 0 j) q.1 q.2 ≤ worst (cubRule d) (fun x => (f x).getD 0) p.1 p.2) ∧
      (∀ i, ∑ j, fourthDiff (fun x => (f x).getD 0 j) p.1 p.2 i ≤ ∑ j, fourthDiff (fun x => (f x).getD 0 j) p.1 p.2 k) ∧
      boxes s'.heap.content = (Function.update p.1 k (p.1 k + p.2 k / 2), Function.update p.2 k (p.2 k / 2)) ::ₘ
        (Function.update p.1 k (p.1 k - p.2 k / 2), Function.update p.2 k (p.2 k / 2)) ::ₘ M := by
  obtain ⟨R, heap', hc, hmax, hcase⟩ := refine1_spec (cubRule d) (cub_ok d) f c h s hs
  have hR : R ∈ s.heap.content := by rw [hc]; exact Multiset.mem_cons_self _ _
  rcases hcase with ⟨-, he⟩ | ⟨A, B, s'', hA, hB, he, hc', -, -⟩
  · rw [he] at hstep; cases hstep
  rw [he] at hstep
  injection hstep with hstep
  subst hstep
  have hvol := cut_vol R (hs.filled R hR).vol
  obtain ⟨a1, a2, -⟩ := evalRegion_spec _ f _ A hvol.1 hA
  obtain ⟨b1, b2, -⟩ := evalRegion_spec _ f _ B hvol.2 hB
  refine ⟨(R.c, R.h), boxes heap'.content, R.splitDim, by rw [hc, boxes, Multiset.map_cons]; rfl, fun q hq j => ?_, fun i => ?_, ?_⟩
  · rw [boxes, Multiset.mem_map] at hq
    obtain ⟨Q, hQ, rfl⟩ := hq
    have hQs : Q ∈ s.heap.content := by rw [hc]; exact Multiset.mem_cons_of_mem hQ
    have h1 := hmax Q hQs
    have fQ := hs.filled Q hQs
    have fR := hs.filled R hR
    rw [fQ.errmax, fR.errmax] at h1
    rw [← fQ.err j]
    refine ((errMax_spec Q.err).1 j).trans (h1.trans (le_of_eq ?_))
    rw [worst]
    congr 1
    funext j
    exact fR.err j
  · by_cases h1 : d = 1
    · subst h1
      rw [Subsingleton.elim i R.splitDim]
    · have e : ∀ i, ∑ j, (cubRule d).diff (samples (cubRule d) (fun x => (f x).getD 0 j) R.c R.h) i = ∑ j, fourthDiff (fun x => (f x).getD 0 j) R.c R.h i := by
        intro i
        refine Finset.sum_congr rfl fun j _ => ?_
        rw [← gmDiff_eq, cubRule_ne h1]; rfl
      have hsp := (hs.filled R hR).split
      simp only [e] at hsp
      dsimp only
      rw [hsp]
      exact splitOf_spec (fun i => ∑ j, fourthDiff (fun x => (f x).getD 0 j) R.c R.h i) (fun i => Finset.sum_nonneg fun j _ => abs_nonneg _) i
  · have e1 : ∀ x : ℝ, x * 0.5 = x / 2 := fun x => by norm_num [div_eq_mul_inv]
    have e2 : (cut R).1.h = Function.update R.h R.splitDim (R.h R.splitDim / 2) := by rw [← e1]; rfl
    have e3 : (cut R).2.h = Function.update R.h R.splitDim (R.h R.splitDim / 2) := by rw [← e1]; rfl
    have e4 : (cut R).1.c = Function.update R.c R.splitDim (R.c R.splitDim - R.h R.splitDim / 2) := by simp [cut, e1]
    have e5 : (cut R).2.c = Function.update R.c R.splitDim (R.c R.splitDim + R.h R.splitDim / 2) := by simp [cut, e1]
    rw [hc', boxes, Multiset.map_cons, Multiset.map_cons, b1, b2, a1, a2, e2, e3, e4, e5]
    rfl

/-! ## Polynomials -/

theorem estimate_poly (c h : Vec d) (hh : ∀ i, 0 ≤ h i) (P : MvPolynomial (Fin d) ℝ) :
    (d ≠ 1 → P.totalDegree ≤ 7 → |estimate (cubRule d) (fun x => MvPolynomial.eval x P) c h - ∫ x in Set.Icc (c - h) (c + h), MvPolynomial.eval x P| ≤ 1e-38 * (∏ i, 2 * h i) * size P c h) ∧
    (d = 1 → P.totalDegree ≤ 23 → |estimate (cubRule d) (fun x => MvPolynomial.eval x P) c h - ∫ x in Set.Icc (c - h) (c + h), MvPolynomial.eval x P| ≤ 1e-33 * (∏ i, 2 * h i) * size P c h) := by
  constructor
  · intro h1 hP
    rw [cubRule_ne h1]
    exact (result_bound codeLambdas 1e-38 good_code c h hh P).1 hP
  · intro h1 hP
    subst h1
    exact (gk_bound c h hh P).1 hP

/-- The degree of polynomials integrated by the rule -/
def degree (d : ℕ) : ℕ := if d = 1 then 23 else 7
/-- The accuracy of its constants -/
def accuracy (d : ℕ) : ℝ := if d = 1 then 1e-33 else 1e-38

/-- C86: the rule applied to a box integrates polynomials up to the degree 7 (in one dimension, 23) exactly, apart from the accuracy of its constants. -/
theorem C86_rule (c h : Vec d) (hh : ∀ i, 0 ≤ h i) (P : MvPolynomial (Fin d) ℝ) (hP : P.totalDegree ≤ degree d) :
    |estimate (cubRule d) (fun x => MvPolynomial.eval x P) c h - ∫ x in Set.Icc (c - h) (c + h), MvPolynomial.eval x P| ≤ accuracy d * (∏ i, 2 * h i) * size P c h := by
  unfold degree at hP
  unfold accuracy
  split_ifs at hP ⊢ with h1
  · exact (estimate_poly c h hh P).2 h1 hP
  · exact (estimate_poly c h hh P).1 h1 hP

/-- C86: with exact values of constants (square roots), the rule in d≥2 dimensions and its embedded rule are exact for polynomials up to the degrees 7 and 5. -/
theorem C86_exact (c h : Vec d) (hh : ∀ i, 0 ≤ h i) (P : MvPolynomial (Fin d) ℝ) :
    let r := gmRule ⟨√(9 / 70), √(9 / 10), √(9 / 19)⟩ d
    (P.totalDegree ≤ 7 → estimate r (fun x => MvPolynomial.eval x P) c h = ∫ x in Set.Icc (c - h) (c + h), MvPolynomial.eval x P) ∧
    (P.totalDegree ≤ 5 → estError r (fun x => MvPolynomial.eval x P) c h = 0) := by
  intro r
  have hb := result_bound _ 0 good_exact c h hh P
  simp only [zero_mul, abs_nonpos_iff, sub_eq_zero] at hb
  refine ⟨fun h7 => hb.1 h7, fun h5 => ?_⟩
  show |gmRes5th d (∏ i, 2 * h i) _ - gmResult d (∏ i, 2 * h i) _| = 0
  rw [abs_eq_zero, sub_eq_zero]
  exact (hb.2 h5).trans (hb.1 (by omega)).symm

/-- C86: the estimated errors are never negative, and in d≥2 dimensions the estimate of the error of a polynomial up to the degree 5 is at the level of accuracy of constants. -/
theorem C86_error (c h : Vec d) (hh : ∀ i, 0 ≤ h i) :
    (∀ g : Vec d → ℝ, 0 ≤ estError (cubRule d) g c h) ∧
    (d ≠ 1 → ∀ P : MvPolynomial (Fin d) ℝ, P.totalDegree ≤ 5 → estError (cubRule d) (fun x => MvPolynomial.eval x P) c h ≤ 2e-38 * (∏ i, 2 * h i) * size P c h) := by
  constructor
  · intro g
    by_cases h1 : d = 1
    · subst h1
      exact gkError_nonneg (h 0) (hh 0) _
    · rw [cubRule_ne h1]
      exact abs_nonneg _
  · intro h1 P hP
    rw [cubRule_ne h1]
    have hb := result_bound codeLambdas 1e-38 good_code c h hh P
    have b1 := abs_le.1 (hb.1 (by omega))
    have b2 := abs_le.1 (hb.2 hP)
    show |gmRes5th d (∏ i, 2 * h i) (gmValues codeLambdas c h fun x => MvPolynomial.eval x P) - gmResult d (∏ i, 2 * h i) (gmValues codeLambdas c h fun x => MvPolynomial.eval x P)| ≤ _
    have e : (2e-38 : ℝ) * (∏ i, 2 * h i) * size P c h = 2 * (1e-38 * (∏ i, 2 * h i) * size P c h) := by ring
    rw [e, abs_le]
    constructor
    · linarith [b1.2, b2.1]
    · linarith [b1.1, b2.2]

theorem size_mono (P : MvPolynomial (Fin d) ℝ) {c h c' h' : Vec d} (hin : ∀ i, 0 ≤ h' i ∧ |c' i - c i| + h' i ≤ h i) : size P c' h' ≤ size P c h := by
  unfold size
  refine Finset.sum_le_sum fun α _ => mul_le_mul_of_nonneg_left (Finset.prod_le_prod (fun i _ => by positivity) fun i _ => ?_) (abs_nonneg _)
  obtain ⟨h1, h2⟩ := hin i
  refine pow_le_pow_left₀ (by positivity) ?_ _
  have h3 : |c' i| ≤ |c i| + |c' i - c i| := by
    have := abs_add_le (c i) (c' i - c i)
    rwa [add_sub_cancel] at this
  have h4 : 0 ≤ h i := by linarith [abs_nonneg (c' i - c i)]
  rw [abs_of_nonneg h1, abs_of_nonneg h4]
  linarith

theorem size_nonneg (P : MvPolynomial (Fin d) ℝ) (c h : Vec d) : 0 ≤ size P c h :=
  Finset.sum_nonneg fun α _ => mul_nonneg (abs_nonneg _) (Finset.prod_nonneg fun i _ => by positivity)

theorem vol_eq (lo hi : Vec d) (hle : ∀ i, lo i ≤ hi i) : ∫ _x in Set.Icc lo hi, (1 : ℝ) = ∏ i, (hi i - lo i) := by
  rw [setIntegral_const, smul_eq_mul, mul_one, measureReal_def, Real.volume_Icc_pi_toReal hle]

/-- C86, C88: the integral of a polynomial up to the degree 7 (in one dimension, 23) is always returned exactly, apart from the accuracy of constants, whatever tolerance and limit of
evaluations are given, and however the volume has been subdivided because of other components of the integrand. `size` is the sum of absolute values of terms of the polynomial, each
taken at the largest coordinates. -/
theorem C88_polynomial (f : Integrand d m) (lo hi : Vec d) (hle : ∀ i, lo i ≤ hi i) (relTol : ℝ) (hrel : 0 ≤ relTol) (maxEval : ℕ) (garbage : ℕ → Region d m) (fuel : ℕ) (hm : m ≠ 0)
    (res : Result m) (h : integrateNdim d m f lo hi relTol maxEval garbage fuel = some (.ok res)) (j : Fin m) (P : MvPolynomial (Fin d) ℝ) (hP : P.totalDegree ≤ degree d)
    (hf : ∀ x, (f x).getD 0 j = MvPolynomial.eval x P) :
    |res.val j - ∫ x in Set.Icc lo hi, MvPolynomial.eval x P| ≤ accuracy d * (∏ i, (hi i - lo i)) * size P (mid lo hi) (half lo hi) := by
  obtain ⟨M, ⟨ht, -⟩, -, hint, hval, -⟩ := C88_result f lo hi hle relTol hrel maxEval garbage fuel hm res h
  have hacc : 0 ≤ accuracy d := by unfold accuracy; split_ifs <;> norm_num
  have hv := hint (fun _ => 1) (continuous_const.continuousOn.integrableOn_compact isCompact_Icc)
  rw [vol_eq lo hi hle] at hv
  have hP' := hint (fun x => MvPolynomial.eval x P) ((MvPolynomial.continuous_eval P).continuousOn.integrableOn_compact isCompact_Icc)
  have hvp : ∀ p ∈ M, ∫ _x in Set.Icc (p.1 - p.2) (p.1 + p.2), (1 : ℝ) = ∏ i, 2 * p.2 i := by
    intro p hp
    rw [vol_eq _ _ fun i => by have := (ht p hp i).1; simp only [Pi.sub_apply, Pi.add_apply]; linarith]
    exact Finset.prod_congr rfl fun i _ => by simp only [Pi.sub_apply, Pi.add_apply]; ring
  rw [hval j, ← hP', ← hv]
  simp only [hf]
  unfold sumInt
  clear hint hval hv hP' h
  induction M using Multiset.induction_on with
  | empty => simp
  | cons p M ih =>
    simp only [Multiset.map_cons, Multiset.sum_cons]
    have h1 := C86_rule p.1 p.2 (fun i => (ht p (Multiset.mem_cons_self _ _) i).1) P hP
    have h2 := ih (fun q hq => ht q (Multiset.mem_cons_of_mem hq)) (fun q hq => hvp q (Multiset.mem_cons_of_mem hq))
    rw [hvp p (Multiset.mem_cons_self _ _)]
    have h3 : 0 ≤ ∏ i, 2 * p.2 i := Finset.prod_nonneg fun i _ => by linarith [(ht p (Multiset.mem_cons_self _ _) i).1]
    have h4 : accuracy d * (∏ i, 2 * p.2 i) * size P p.1 p.2 ≤ accuracy d * (∏ i, 2 * p.2 i) * size P (mid lo hi) (half lo hi) :=
      mul_le_mul_of_nonneg_left (size_mono P (ht p (Multiset.mem_cons_self _ _))) (mul_nonneg hacc h3)
    have h5 := abs_add_le (estimate (cubRule d) (fun x => MvPolynomial.eval x P) p.1 p.2 - ∫ x in Set.Icc (p.1 - p.2) (p.1 + p.2), MvPolynomial.eval x P)
      ((M.map fun p => estimate (cubRule d) (fun x => MvPolynomial.eval x P) p.1 p.2).sum - (M.map fun p => ∫ x in Set.Icc (p.1 - p.2) (p.1 + p.2), MvPolynomial.eval x P).sum)
    rw [mul_add, add_mul, add_sub_add_comm]
    linarith

end

end Verif.Cubature
