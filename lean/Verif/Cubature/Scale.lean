import Verif.Cubature.AdaptMain

/-! Invariance of the adaptive integration with respect to the magnitude of the integrand, its values outside the integration volume, and the order of integration limits; C88. -/
namespace Verif.Cubature

noncomputable section

open Finset MeasureTheory

variable {d m : ℕ}

/-! ## The integrand is not evaluated outside -/

theorem evalRegion_congr [NeZero d] (r : Rule d) (f f' : Integrand d m) (R : Region d m) (h : ∀ x ∈ r.points R.c R.h, f x = f' x) : evalRegion r f R = evalRegion r f' R := by
  rw [evalRegion, evalRegion, mapM_congr f f' _ h]

theorem refine1_congr [NeZero d] (r : Rule d) (hr : RuleOK r) (f f' : Integrand d m) (lo hi : Vec d) (hle : ∀ i, lo i ≤ hi i) (hf : ∀ x, Inside lo hi x → f x = f' x) (s : St d m)
    (hs : Inv r f (mid lo hi) (half lo hi) s) : refine1 r f s = refine1 r f' s := by
  unfold refine1
  have hp := pop_spec Region.errmax s.heap hs.valid
  cases hpop : s.heap.pop Region.errmax with
  | none => rfl
  | some p =>
    rw [hpop] at hp
    have hR : p.1 ∈ s.heap.content := by rw [hp.2.1]; exact Multiset.mem_cons_self _ _
    have hin := hs.inside_cut hr hle hR
    dsimp only
    rw [evalRegion_congr r f f' (cut p.1).1 fun x hx => hf x (hin x (List.mem_append_left _ hx)),
      evalRegion_congr r f f' (cut p.1).2 fun x hx => hf x (hin x (List.mem_append_right _ hx))]

theorem loop_congr [NeZero d] (r : Rule d) (hr : RuleOK r) (f f' : Integrand d m) (lo hi : Vec d) (hle : ∀ i, lo i ≤ hi i) (hf : ∀ x, Inside lo hi x → f x = f' x) (maxEval : ℕ)
    (absTol relTol : ℝ) (fuel : ℕ) (s : St d m) (hs : Inv r f (mid lo hi) (half lo hi) s) : loop r f maxEval absTol relTol fuel s = loop r f' maxEval absTol relTol fuel s := by
  induction fuel generalizing s with
  | zero => rfl
  | succ fuel ih =>
    rw [loop, loop, ← refine1_congr r hr f f' lo hi hle hf s hs]
    split_ifs with hfin
    · rfl
    · obtain ⟨R, heap', -, -, hcase⟩ := refine1_spec r hr f _ _ s hs
      rcases hcase with ⟨-, he⟩ | ⟨A, B, s', -, -, he, -, -, hi'⟩
      · rw [he]
      · rw [he]; exact ih s' hi'

/-- C88: the integrand is evaluated only inside the integration volume and not at its boundary: the outcome does not depend on its values elsewhere. -/
theorem C88_inside (f f' : Integrand d m) (lo hi : Vec d) (hle : ∀ i, lo i ≤ hi i) (hf : ∀ x, Inside lo hi x → f x = f' x) (relTol : ℝ) (maxEval : ℕ) (garbage : ℕ → Region d m) (fuel : ℕ) :
    integrateNdim d m f lo hi relTol maxEval garbage fuel = integrateNdim d m f' lo hi relTol maxEval garbage fuel := by
  unfold integrateNdim
  split_ifs with h0 h10 hm
  · rfl
  · rfl
  · rfl
  have : NeZero d := ⟨h0⟩
  have hr := cub_ok d
  unfold rulecubature
  have e : start (cubRule d) f lo hi garbage = start (cubRule d) f' lo hi garbage := by
    rw [start, start, evalRegion_congr (cubRule d) f f' (initRegion lo hi)]
    intro x hx
    refine hf x (inside_points hr hle (fun i => ?_) (fun i => ⟨0, ?_⟩) x hx)
    · simp only [initRegion, mid, half, sub_self, abs_zero, zero_add, le_refl, and_true]
      linarith [hle i]
    · simp [initRegion, half]
  rw [← e]
  cases hst : start (cubRule d) f lo hi garbage with
  | none => rfl
  | some s =>
    dsimp only
    rw [loop_congr (cubRule d) hr f f' lo hi hle hf maxEval 0 relTol fuel s (start_spec (cubRule d) hr f lo hi hle garbage s hst).1]

/-! ## Two related heaps -/

section rel

variable {α : Type*} (key : α → ℝ) (ρ : α → α → Prop) (t : ℝ)

/-- Keys of related items differ by a positive factor -/
def KeyRel : Prop := 0 < t ∧ ∀ x y, ρ x y → key y = t * key x

variable {key ρ t}

theorem KeyRel.le (h : KeyRel key ρ t) {x y x' y' : α} (hx : ρ x x') (hy : ρ y y') : key x' ≤ key y' ↔ key x ≤ key y := by
  rw [h.2 _ _ hx, h.2 _ _ hy]; exact mul_le_mul_iff_right₀ h.1

theorem KeyRel.lt (h : KeyRel key ρ t) {x y x' y' : α} (hx : ρ x x') (hy : ρ y y') : key x' < key y' ↔ key x < key y := by
  rw [h.2 _ _ hx, h.2 _ _ hy]; exact mul_lt_mul_iff_right₀ h.1

theorem siftUp_rel (hk : KeyRel key ρ t) (N : ℕ) {x x' : α} (hx : ρ x x') (k : ℕ) (hN : k < N) (A A' : ℕ → α) (hA : ∀ i < N, i ≠ k → ρ (A i) (A' i)) :
    ∀ i < N, ρ (siftUp key A x k i) (siftUp key A' x' k i) := by
  induction k using Nat.strong_induction_on generalizing A A' with
  | _ k ih =>
    have base : ∀ i < N, ρ (Function.update A k x i) (Function.update A' k x' i) := by
      intro i hi
      by_cases hik : i = k
      · subst hik; simpa using hx
      · rw [Function.update_of_ne hik, Function.update_of_ne hik]; exact hA i hi hik
    rw [siftUp.eq_1 key A x k, siftUp.eq_1 key A' x' k]
    by_cases h0 : k = 0
    · rw [dif_pos h0, dif_pos h0]; exact base
    rw [dif_neg h0, dif_neg h0]
    have hp : (k - 1) / 2 < k := by omega
    have hpr := hA ((k - 1) / 2) (by omega) (by omega)
    by_cases hle : key x ≤ key (A ((k - 1) / 2))
    · rw [if_pos hle, if_pos ((hk.le hx hpr).2 hle)]; exact base
    · rw [if_neg hle, if_neg fun h => hle ((hk.le hx hpr).1 h)]
      refine ih _ hp (by omega) _ _ fun i hi hne => ?_
      by_cases hik : i = k
      · subst hik; simpa using hpr
      · rw [Function.update_of_ne hik, Function.update_of_ne hik]; exact hA i hi hik

theorem largest_rel (hk : KeyRel key ρ t) (n i : ℕ) (h : i * 2 + 1 < n) (A A' : ℕ → α) (hA : ∀ i < n, ρ (A i) (A' i)) : largest key A' n i = largest key A n i := by
  unfold largest
  dsimp only
  have h1 := hk.le (hA (i * 2 + 1) h) (hA i (by omega))
  by_cases hle : key (A (i * 2 + 1)) ≤ key (A i)
  · rw [if_pos hle, if_pos (h1.2 hle)]
    by_cases hc : i * 2 + 1 + 1 < n
    · have h2 := hk.lt (hA i (by omega)) (hA (i * 2 + 1 + 1) hc)
      simp only [hc, true_and, h2]
    · simp only [hc, false_and, if_false]
  · rw [if_neg hle, if_neg fun h => hle (h1.1 h)]
    by_cases hc : i * 2 + 1 + 1 < n
    · have h2 := hk.lt (hA (i * 2 + 1) h) (hA (i * 2 + 1 + 1) hc)
      simp only [hc, true_and, h2]
    · simp only [hc, false_and, if_false]

theorem siftDown_rel (hk : KeyRel key ρ t) (n k : ℕ) (A A' : ℕ → α) (hA : ∀ i < n, ρ (A i) (A' i)) : ∀ i < n, ρ (siftDown key A n k i) (siftDown key A' n k i) := by
  induction hm : n - k using Nat.strong_induction_on generalizing k A A' with
  | _ w ih =>
    rw [siftDown.eq_1 key A n k, siftDown.eq_1 key A' n k]
    by_cases h1 : k * 2 + 1 < n
    · rw [dif_pos h1, dif_pos h1, largest_rel hk n k h1 A A' hA]
      by_cases h2 : largest key A n k = k
      · rw [dif_pos h2, dif_pos h2]; exact hA
      · rw [dif_neg h2, dif_neg h2]
        have h3 := largest_cases key A n k h1
        have h4 : largest key A n k < n ∧ k < largest key A n k := by omega
        refine ih (n - largest key A n k) (by omega) _ _ _ (fun i hi => ?_) rfl
        by_cases hil : i = largest key A n k
        · rw [hil, Function.update_self, Function.update_self]; exact hA k (by omega)
        · rw [Function.update_of_ne hil, Function.update_of_ne hil]
          by_cases hik : i = k
          · rw [hik, Function.update_self, Function.update_self]; exact hA _ h4.1
          · rw [Function.update_of_ne hik, Function.update_of_ne hik]; exact hA i hi
    · rw [dif_neg h1, dif_neg h1]; exact hA

/-- Two heaps with related items -/
def HeapRel (ρ : α → α → Prop) (h h' : Heap α) : Prop := h'.n = h.n ∧ ∀ i < h.n, ρ (h.items i) (h'.items i)

theorem push_rel (hk : KeyRel key ρ t) {h h' : Heap α} (hh : HeapRel ρ h h') {x x' : α} (hx : ρ x x') : HeapRel ρ (h.push key x) (h'.push key x') := by
  refine ⟨by simp [Heap.push, hh.1], ?_⟩
  simp only [Heap.push, hh.1]
  exact siftUp_rel hk (h.n + 1) hx h.n (by omega) _ _ fun i hi hne => hh.2 i (by omega)

theorem pop_rel (hk : KeyRel key ρ t) {h h' : Heap α} (hh : HeapRel ρ h h') :
    match h.pop key, h'.pop key with
    | none, none => True
    | some p, some p' => ρ p.1 p'.1 ∧ HeapRel ρ p.2 p'.2
    | _, _ => False := by
  unfold Heap.pop
  by_cases h0 : h.n = 0
  · rw [if_pos h0, if_pos (by rw [hh.1]; exact h0)]; trivial
  · rw [if_neg h0, if_neg (by rw [hh.1]; exact h0)]
    dsimp only
    rw [hh.1]
    refine ⟨hh.2 0 (by omega), rfl, ?_⟩
    dsimp only
    refine siftDown_rel hk _ _ _ _ fun i hi => ?_
    by_cases hi0 : i = 0
    · rw [hi0, Function.update_self, Function.update_self]; exact hh.2 _ (by omega)
    · rw [Function.update_of_ne hi0, Function.update_of_ne hi0]; exact hh.2 i (by omega)

end rel

/-! ## Scaling -/

/-- The region for the integrand multiplied by `a` -/
structure RRel (a : ℝ) (R R' : Region d m) : Prop where
  c : R'.c = R.c
  h : R'.h = R.h
  vol : R'.vol = R.vol
  split : R'.splitDim = R.splitDim
  val : ∀ j, R'.val j = a * R.val j
  err : ∀ j, R'.err j = |a| * R.err j
  errmax : R'.errmax = |a| * R.errmax

/-- Homogeneous rules -/
structure Homog (r : Rule d) (a : ℝ) : Prop where
  val : ∀ h vol v, r.val h vol (fun k => a * v k) = a * r.val h vol v
  err : ∀ h vol v, r.err h vol (fun k => a * v k) = |a| * r.err h vol v
  diff : ∀ v i, r.diff (fun k => a * v k) i = |a| * r.diff v i

theorem gm_homog (L : Lambdas) (d : ℕ) (a : ℝ) : Homog (gmRule L d) a := by
  have h7 : ∀ vol v, gmResult d vol (fun k => a * v k) = a * gmResult d vol v := by
    intro vol v
    simp only [gmResult, gm7, gmSums, ← mul_add, ← Finset.mul_sum]; ring
  have h5 : ∀ vol v, gmRes5th d vol (fun k => a * v k) = a * gmRes5th d vol v := by
    intro vol v
    simp only [gmRes5th, gm5, gmSums, ← mul_add, ← Finset.mul_sum]; ring
  refine ⟨fun _ vol v => h7 vol v, fun _ vol v => ?_, fun v i => ?_⟩
  · show |gmRes5th d vol (fun k => a * v k) - gmResult d vol (fun k => a * v k)| = |a| * |gmRes5th d vol v - gmResult d vol v|
    rw [h5, h7, ← mul_sub, abs_mul]
  · show gmDiff L (fun k => a * v k) i = |a| * gmDiff L v i
    rw [gmDiff, gmDiff, ← abs_mul]
    congr 1; ring

theorem errMax_scale {t : ℝ} (ht : 0 < t) (err : Fin m → ℝ) : errMax (fun j => t * err j) = t * errMax err := by
  have : ∀ (l : List (Fin m)) (a : ℝ), l.foldl (fun e k => if t * err k > e then t * err k else e) (t * a) = t * l.foldl (fun e k => if err k > e then err k else e) a := by
    intro l
    induction l with
    | nil => intro a; rfl
    | cons k l ih =>
      intro a
      rw [List.foldl_cons, List.foldl_cons]
      by_cases hk : err k > a
      · rw [if_pos (mul_lt_mul_of_pos_left hk ht), if_pos hk, ih]
      · rw [if_neg fun h => hk (lt_of_mul_lt_mul_left h ht.le), if_neg hk, ih]
  have h := this (List.finRange m) 0
  rw [mul_zero] at h
  exact h

theorem splitOf_scale [NeZero d] {t : ℝ} (ht : 0 < t) (diff : Fin d → ℝ) : splitOf (fun i => t * diff i) = splitOf diff := by
  have : ∀ (l : List (Fin d)) (s : ℝ × Fin d), (l.foldl (fun (s : ℝ × Fin d) i => if t * diff i > s.1 then (t * diff i, i) else s) (t * s.1, s.2)) =
      (t * (l.foldl (fun (s : ℝ × Fin d) i => if diff i > s.1 then (diff i, i) else s) s).1, (l.foldl (fun (s : ℝ × Fin d) i => if diff i > s.1 then (diff i, i) else s) s).2) := by
    intro l
    induction l with
    | nil => intro s; rfl
    | cons k l ih =>
      intro s
      rw [List.foldl_cons, List.foldl_cons]
      by_cases hk : diff k > s.1
      · rw [if_pos (mul_lt_mul_of_pos_left hk ht), if_pos hk]
        exact ih (diff k, k)
      · rw [if_neg fun h => hk (lt_of_mul_lt_mul_left h ht.le), if_neg hk, ih]
  have h := this (List.finRange d) (0, 0)
  simp only [mul_zero] at h
  rw [splitOf, h]; rfl

/-- The integrand multiplied by a number -/
def scaled (a : ℝ) (f : Integrand d m) : Integrand d m := fun x => (f x).map fun y j => a * y j

theorem mapM_scaled (a : ℝ) (f : Integrand d m) (l : List (Vec d)) : l.mapM (scaled a f) = (l.mapM f).map (List.map fun y j => a * y j) := by
  induction l with
  | nil => rfl
  | cons p l ih =>
    rw [List.mapM_cons, List.mapM_cons, ih, scaled]
    cases f p with
    | none => rfl
    | some y =>
      cases l.mapM f with
      | none => rfl
      | some ys => rfl

theorem fill_rel [NeZero d] {r : Rule d} {a : ℝ} (ha : a ≠ 0) (hr : Homog r a) {R R' : Region d m} (hc : R'.c = R.c) (hh : R'.h = R.h) (hv : R'.vol = R.vol) (vals : List (Fin m → ℝ)) :
    RRel a (fill r R vals) (fill r R' (vals.map fun y j => a * y j)) := by
  have hpos : 0 < |a| := abs_pos.2 ha
  have hv' : ∀ (j : Fin m), (fun k => (((vals.map fun y j => a * y j).map fun x => x j).getD k 0 : ℝ)) = fun k => a * (vals.map fun x => x j).getD k 0 := by
    intro j; funext k
    rw [List.map_map]
    have : ((fun x : Fin m → ℝ => x j) ∘ fun (y : Fin m → ℝ) j => a * y j) = (fun z => a * z) ∘ fun x : Fin m → ℝ => x j := rfl
    rw [this, ← List.map_map]
    by_cases hk : k < (vals.map fun x => x j).length
    · rw [List.getD_eq_getElem _ _ (by simpa using hk), List.getD_eq_getElem _ _ hk, List.getElem_map]
    · rw [List.getD_eq_default _ _ (by simpa using hk), List.getD_eq_default _ _ (by simpa using hk), mul_zero]
  have herr : ∀ j, (fill r R' (vals.map fun y j => a * y j)).err j = |a| * (fill r R vals).err j := by
    intro j
    simp only [fill, hh, hv]
    rw [hv' j, hr.err]
  refine ⟨hc, hh, hv, ?_, fun j => ?_, herr, ?_⟩
  · simp only [fill]
    simp only [hv', hr.diff, ← Finset.mul_sum]
    exact splitOf_scale hpos _
  · simp only [fill, hh, hv]
    rw [hv' j, hr.val]
  · show errMax (fill r R' (vals.map fun y j => a * y j)).err = |a| * errMax (fill r R vals).err
    rw [← errMax_scale hpos]
    congr 1
    funext j
    exact herr j

theorem evalRegion_rel [NeZero d] {r : Rule d} {a : ℝ} (ha : a ≠ 0) (hr : Homog r a) (f : Integrand d m) {R R' : Region d m} (hc : R'.c = R.c) (hh : R'.h = R.h) (hv : R'.vol = R.vol) :
    match evalRegion r f R, evalRegion r (scaled a f) R' with
    | none, none => True
    | some A, some A' => RRel a A A'
    | _, _ => False := by
  rw [evalRegion, evalRegion, hc, hh, mapM_scaled]
  cases (r.points R.c R.h).mapM f with
  | none => trivial
  | some vals => exact fill_rel ha hr hc hh hv vals

/-- Related states -/
structure SRel (a : ℝ) (s s' : St d m) : Prop where
  heap : HeapRel (RRel a) s.heap s'.heap
  tval : ∀ j, s'.tval j = a * s.tval j
  terr : ∀ j, s'.terr j = |a| * s.terr j
  numEval : s'.numEval = s.numEval
  calls : s'.calls = s.calls

theorem keyRel {a : ℝ} (ha : a ≠ 0) : KeyRel (Region.errmax : Region d m → ℝ) (RRel a) |a| := ⟨abs_pos.2 ha, fun _ _ h => h.errmax⟩

theorem stpush_rel {a : ℝ} (ha : a ≠ 0) {s s' : St d m} (hs : SRel a s s') {R R' : Region d m} (hR : RRel a R R') : SRel a (s.push R) (s'.push R') := by
  refine ⟨push_rel (keyRel ha) hs.heap hR, fun j => ?_, fun j => ?_, hs.numEval, hs.calls⟩
  · simp only [St.push, hs.tval, hR.val]; ring
  · simp only [St.push, hs.terr, hR.err]; ring

theorem cut_rel {a : ℝ} {R R' : Region d m} (h : RRel a R R') : ((cut R').1.c = (cut R).1.c ∧ (cut R').1.h = (cut R).1.h ∧ (cut R').1.vol = (cut R).1.vol) ∧
    ((cut R').2.c = (cut R).2.c ∧ (cut R').2.h = (cut R).2.h ∧ (cut R').2.vol = (cut R).2.vol) := by
  simp only [cut, h.c, h.h, h.vol, h.split]
  simp

theorem refine1_rel [NeZero d] {r : Rule d} {a : ℝ} (ha : a ≠ 0) (hr : Homog r a) (f : Integrand d m) {s s' : St d m} (hs : SRel a s s') :
    match refine1 r f s, refine1 r (scaled a f) s' with
    | .failure, .failure => True
    | .abort, .abort => True
    | .done u, .done u' => SRel a u u'
    | _, _ => False := by
  have hp := pop_rel (keyRel ha) hs.heap
  unfold refine1
  cases h1 : s.heap.pop Region.errmax with
  | none =>
    cases h2 : s'.heap.pop Region.errmax with
    | none => trivial
    | some p' => rw [h1, h2] at hp; exact hp.elim
  | some p =>
    cases h2 : s'.heap.pop Region.errmax with
    | none => rw [h1, h2] at hp; exact hp.elim
    | some p' =>
      rw [h1, h2] at hp
      obtain ⟨hR, hheap⟩ := hp
      obtain ⟨⟨c1, c2, c3⟩, c4, c5, c6⟩ := cut_rel hR
      have e1 := evalRegion_rel ha hr f c1 c2 c3
      have e2 := evalRegion_rel ha hr f c4 c5 c6
      dsimp only
      cases hA : evalRegion r f (cut p.1).1 with
      | none =>
        cases hA' : evalRegion r (scaled a f) (cut p'.1).1 with
        | none => trivial
        | some A' => rw [hA, hA'] at e1; exact e1.elim
      | some A =>
        cases hA' : evalRegion r (scaled a f) (cut p'.1).1 with
        | none => rw [hA, hA'] at e1; exact e1.elim
        | some A' =>
          rw [hA, hA'] at e1
          cases hB : evalRegion r f (cut p.1).2 with
          | none =>
            cases hB' : evalRegion r (scaled a f) (cut p'.1).2 with
            | none => trivial
            | some B' => rw [hB, hB'] at e2; exact e2.elim
          | some B =>
            cases hB' : evalRegion r (scaled a f) (cut p'.1).2 with
            | none => rw [hB, hB'] at e2; exact e2.elim
            | some B' =>
              rw [hB, hB'] at e2
              dsimp only
              have h0 : SRel a ({ s with heap := p.2, tval := fun j => s.tval j - p.1.val j, terr := fun j => s.terr j - p.1.err j } : St d m)
                  { s' with heap := p'.2, tval := fun j => s'.tval j - p'.1.val j, terr := fun j => s'.terr j - p'.1.err j } := by
                refine ⟨hheap, fun j => ?_, fun j => ?_, hs.numEval, hs.calls⟩
                · simp only [hs.tval, hR.val]; ring
                · simp only [hs.terr, hR.err]; ring
              have h3 := stpush_rel ha (stpush_rel ha h0 e1) e2
              exact ⟨h3.heap, h3.tval, h3.terr, by simp only [St.push, hs.numEval], by simp only [St.push, hs.calls, c1, c2, c4, c5]⟩

theorem finished_rel {r : Rule d} {a : ℝ} (ha : a ≠ 0) {s s' : St d m} (hs : SRel a s s') (maxEval : ℕ) (relTol : ℝ) :
    finished r maxEval 0 relTol s' ↔ finished r maxEval 0 relTol s := by
  unfold finished converged
  rw [hs.numEval]
  generalize (if s.numEval > r.num then relTol else 1e-12) = tol
  have hpos : 0 < |a| := abs_pos.2 ha
  refine or_congr Iff.rfl (forall_congr' fun j => not_congr ?_)
  rw [hs.tval, hs.terr, abs_mul, mul_assoc]
  exact and_congr (mul_pos_iff_of_pos_left hpos) (mul_lt_mul_iff_right₀ hpos)

theorem loop_rel [NeZero d] {r : Rule d} {a : ℝ} (ha : a ≠ 0) (hr : Homog r a) (f : Integrand d m) (maxEval : ℕ) (relTol : ℝ) (fuel : ℕ) {s s' : St d m} (hs : SRel a s s') :
    match loop r f maxEval 0 relTol fuel s, loop r (scaled a f) maxEval 0 relTol fuel s' with
    | none, none => True
    | some .failure, some .failure => True
    | some .abort, some .abort => True
    | some (.done u), some (.done u') => SRel a u u'
    | _, _ => False := by
  induction fuel generalizing s s' with
  | zero => trivial
  | succ fuel ih =>
    rw [loop, loop]
    by_cases hf : finished r maxEval 0 relTol s
    · rw [if_pos hf, if_pos ((finished_rel ha hs maxEval relTol).2 hf)]; exact hs
    · rw [if_neg hf, if_neg fun h => hf ((finished_rel ha hs maxEval relTol).1 h)]
      have h1 := refine1_rel ha hr f hs
      cases hA : refine1 r f s with
      | failure =>
        cases hB : refine1 r (scaled a f) s' with
        | failure => trivial
        | abort => rw [hA, hB] at h1; exact h1.elim
        | done u => rw [hA, hB] at h1; exact h1.elim
      | abort =>
        cases hB : refine1 r (scaled a f) s' with
        | failure => rw [hA, hB] at h1; exact h1.elim
        | abort => trivial
        | done u => rw [hA, hB] at h1; exact h1.elim
      | done u =>
        cases hB : refine1 r (scaled a f) s' with
        | failure => rw [hA, hB] at h1; exact h1.elim
        | abort => rw [hA, hB] at h1; exact h1.elim
        | done u' => rw [hA, hB] at h1; exact ih h1

/-- The result multiplied by a number -/
def Ret.scale (a : ℝ) : Ret m → Ret m
  | .exception => .exception
  | .abort => .abort
  | .ok r => .ok ⟨fun j => a * r.val j, fun j => |a| * r.err j, r.numEval⟩

/-- C88: in two or more dimensions the procedure is invariant with respect to the magnitude of the integrand: when it is multiplied by any nonzero number, so are the results and their errors,
and the number of evaluations is the same. The result does not depend on the initial content of memory. -/
theorem C88_scale (hd : d ≠ 1) (a : ℝ) (ha : a ≠ 0) (f : Integrand d m) (lo hi : Vec d) (relTol : ℝ) (maxEval : ℕ) (garbage garbage' : ℕ → Region d m) (fuel : ℕ) :
    integrateNdim d m (scaled a f) lo hi relTol maxEval garbage' fuel = (integrateNdim d m f lo hi relTol maxEval garbage fuel).map (Ret.scale a) := by
  unfold integrateNdim
  split_ifs with h0 h10 hm
  · rfl
  · rfl
  · subst hm
    simp only [Option.map_some, Ret.scale]
    congr 3 <;> exact Subsingleton.elim _ _
  have : NeZero d := ⟨h0⟩
  rw [cubRule_ne hd]
  have hr := gm_homog codeLambdas d a
  unfold rulecubature
  have e := evalRegion_rel ha hr f (R := (initRegion lo hi : Region d m)) (R' := initRegion lo hi) rfl rfl rfl
  cases hA : evalRegion (gmRule codeLambdas d) f (initRegion lo hi) with
  | none =>
    cases hB : evalRegion (gmRule codeLambdas d) (scaled a f) (initRegion lo hi) with
    | none => simp only [start, hA, hB, Option.map_none, Option.map_some, Ret.scale]
    | some B => rw [hA, hB] at e; exact e.elim
  | some A =>
    cases hB : evalRegion (gmRule codeLambdas d) (scaled a f) (initRegion lo hi) with
    | none => rw [hA, hB] at e; exact e.elim
    | some B =>
      rw [hA, hB] at e
      simp only [start, hA, hB, Option.map_some]
      have h1 : SRel a (⟨Heap.empty garbage, 0, 0, 0, 0⟩ : St d m) ⟨Heap.empty garbage', 0, 0, 0, 0⟩ :=
        ⟨⟨rfl, fun i hi => absurd hi (Nat.not_lt_zero i)⟩, fun j => by simp, fun j => by simp, rfl, rfl⟩
      have h2 := stpush_rel ha h1 e
      have h3 := loop_rel ha hr f maxEval relTol fuel (s := { (⟨Heap.empty garbage, 0, 0, 0, 0⟩ : St d m).push A with
          numEval := (gmRule codeLambdas d).num, calls := ((gmRule codeLambdas d).points (initRegion lo hi : Region d m).c (initRegion lo hi : Region d m).h).length })
        (s' := { (⟨Heap.empty garbage', 0, 0, 0, 0⟩ : St d m).push B with
          numEval := (gmRule codeLambdas d).num, calls := ((gmRule codeLambdas d).points (initRegion lo hi : Region d m).c (initRegion lo hi : Region d m).h).length })
        ⟨h2.heap, h2.tval, h2.terr, rfl, rfl⟩
      split at h3
      next e1 e2 => rw [e1, e2]; rfl
      next e1 e2 => rw [e1, e2]; rfl
      next e1 e2 => rw [e1, e2]; rfl
      next u u' e1 e2 =>
        rw [e1, e2]
        simp only [Option.map_some, Ret.scale, resum, Option.some.injEq, Ret.ok.injEq, Result.mk.injEq]
        refine ⟨funext fun j => ?_, funext fun j => ?_, h3.calls⟩
        · rw [h3.heap.1, Finset.mul_sum]
          exact Finset.sum_congr rfl fun i hi => (h3.heap.2 i (Finset.mem_range.1 hi)).val j
        · rw [h3.heap.1, Finset.mul_sum]
          exact Finset.sum_congr rfl fun i hi => (h3.heap.2 i (Finset.mem_range.1 hi)).err j
      next => exact h3.elim

/-! ## Reversed limits -/

/-- C88, refuted: in one dimension, with the upper limit below the lower one, the error estimate is never positive, thus the procedure always ends after the first evaluation of the rule,
and the requested accuracy is not attained unless by chance. -/
theorem C88_refuted_reversed (f : Integrand 1 m) (hm : m ≠ 0) (hf : ∀ x, f x ≠ none) (lo hi : Vec 1) (hrev : hi 0 ≤ lo 0) (relTol : ℝ) (maxEval : ℕ) (garbage : ℕ → Region 1 m) (fuel : ℕ) :
    ∃ res, integrateNdim 1 m f lo hi relTol maxEval garbage (fuel + 1) = some (.ok res) ∧ res.numEval = 15 ∧ ∀ j, res.err j ≤ 0 := by
  unfold integrateNdim
  rw [dif_neg one_ne_zero, if_neg (by norm_num), if_neg hm]
  unfold rulecubature
  cases hA : evalRegion (cubRule 1) f (initRegion lo hi) with
  | none =>
    rw [evalRegion, Option.map_eq_none_iff] at hA
    obtain ⟨x, -, hx⟩ := mapM_none f _ hA
    exact absurd hx (hf x)
  | some A =>
    obtain ⟨-, a2, a3⟩ := evalRegion_spec (cubRule 1) f (initRegion lo hi) A (computeVol_eq _) hA
    have herr : ∀ j, A.err j ≤ 0 := by
      intro j
      rw [a3.err j, a2]
      exact gkError_reversed _ (by simp only [initRegion]; linarith) _
    simp only [start, hA, Option.map_some]
    rw [loop, if_pos]
    · refine ⟨_, rfl, ?_, fun j => ?_⟩
      · exact gkPoints_length _ _
      · simp only [resum, St.push, Heap.push, Heap.empty]
        rw [Finset.sum_range_succ, siftUp]
        simpa using herr j
    · right
      intro j hj
      have : (0 : ℝ) + A.err j ≤ 0 := by linarith [herr j]
      exact absurd hj.1 (not_lt.2 this)

/-! ## Success -/

/-- C88: if the integrand does not throw exceptions inside the volume, the number of dimensions is from 1 to 10, and the limit on the number of evaluations is set, a result is returned. -/
theorem C88_success (hd : 1 ≤ d) (hd' : d ≤ 10) (f : Integrand d m) (lo hi : Vec d) (hle : ∀ i, lo i ≤ hi i) (hf : ∀ x, Inside lo hi x → f x ≠ none) (relTol : ℝ) (maxEval : ℕ)
    (hmax : maxEval ≠ 0) (garbage : ℕ → Region d m) : ∃ res, integrateNdim d m f lo hi relTol maxEval garbage maxEval = some (.ok res) := by
  obtain ⟨h1, h2, h3⟩ := C88_outcome f lo hi hle relTol maxEval garbage maxEval
  match hr : integrateNdim d m f lo hi relTol maxEval garbage maxEval with
  | none => exact absurd hr (h1 hmax le_rfl)
  | some .abort => exact absurd hr h2
  | some .exception =>
    rcases h3 hr with h | h | ⟨x, hx, hfx⟩
    · omega
    · omega
    · exact absurd hfx (hf x hx)
  | some (.ok res) => exact ⟨res, rfl⟩

/-- The integral of x^3 y^4 + 1 over the square [0,1]x[0,1], with the limit of 1000 evaluations: a result is returned, and it equals the exact integral to 37 digits. -/
example (garbage : ℕ → Region 2 1) : ∃ res, integrateNdim 2 1 (fun x => some fun _ => x 0 ^ 3 * x 1 ^ 4 + 1) 0 1 1e-3 1000 garbage 1000 = some (.ok res) ∧
    |res.val 0 - ∫ x in Set.Icc (0 : Vec 2) 1, (x 0 ^ 3 * x 1 ^ 4 + 1)| ≤ 1e-37 := by
  obtain ⟨res, h⟩ := C88_success (d := 2) (m := 1) (by norm_num) (by norm_num) (fun x => some fun _ => x 0 ^ 3 * x 1 ^ 4 + 1) 0 1 (fun i => by simp) (fun x _ => by simp) 1e-3 1000 (by norm_num) garbage
  refine ⟨res, h, ?_⟩
  set P : MvPolynomial (Fin 2) ℝ := MvPolynomial.monomial (Finsupp.single 0 3 + Finsupp.single 1 4) 1 + MvPolynomial.monomial 0 1 with hP
  have e : ∀ x : Vec 2, MvPolynomial.eval x P = x 0 ^ 3 * x 1 ^ 4 + 1 := by
    intro x
    rw [hP, map_add, MvPolynomial.eval_monomial, MvPolynomial.eval_monomial, Finsupp.prod_fintype _ _ (fun i => pow_zero _), Finsupp.prod_fintype _ _ (fun i => pow_zero _)]
    simp
  have hdeg : P.totalDegree ≤ 7 := by
    refine (MvPolynomial.totalDegree_add _ _).trans (max_le ?_ ?_)
    · refine (MvPolynomial.totalDegree_monomial_le _ _).trans ?_
      rw [Finsupp.sum_fintype _ _ (fun i => rfl)]
      simp
    · refine (MvPolynomial.totalDegree_monomial_le _ _).trans ?_
      simp
  have hb := C88_polynomial (fun x => some fun _ => x 0 ^ 3 * x 1 ^ 4 + 1) (0 : Vec 2) 1 (fun i => by simp) 1e-3 (by norm_num) 1000 garbage 1000 (by norm_num) res h 0 P hdeg
    (fun x => by rw [e]; rfl)
  simp only [e] at hb
  refine hb.trans ?_
  have hs : size P (mid (0 : Vec 2) 1) (half 0 1) ≤ 2 := by
    have hone : ∀ i : Fin 2, |mid (0 : Vec 2) 1 i| + |half (0 : Vec 2) 1 i| = 1 := by intro i; norm_num [mid, half, abs_of_pos]
    unfold size
    simp only [hone, one_pow, Finset.prod_const_one, mul_one]
    have hsub : P.support ⊆ {Finsupp.single 0 3 + Finsupp.single 1 4, 0} := by
      refine MvPolynomial.support_add.trans (Finset.union_subset ?_ ?_)
      · exact MvPolynomial.support_monomial_subset.trans (by simp)
      · exact MvPolynomial.support_monomial_subset.trans (by simp)
    refine (Finset.sum_le_sum_of_subset_of_nonneg hsub fun _ _ _ => abs_nonneg _).trans ?_
    have hne : (Finsupp.single 0 3 + Finsupp.single 1 4 : Fin 2 →₀ ℕ) ≠ 0 := by
      intro h0
      have := DFunLike.congr_fun h0 0
      simp at this
    rw [Finset.sum_pair hne, hP]
    simp only [MvPolynomial.coeff_add, MvPolynomial.coeff_monomial, if_true, if_neg hne, if_neg hne.symm]
    norm_num
  have hv : ∏ i : Fin 2, ((1 : Vec 2) i - (0 : Vec 2) i) = 1 := by simp
  rw [hv]
  norm_num [accuracy]
  linarith

end

end Verif.Cubature
