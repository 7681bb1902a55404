import Verif.Cubature.Adapt

/-! Properties of the adaptive integration; C86, C88. -/
namespace Verif.Cubature

noncomputable section

open Finset MeasureTheory

variable {d m : ℕ}

/-! ## Rules -/

/-- The basic properties of rules -/
structure RuleOK (r : Rule d) : Prop where
  len : ∀ c h, (r.points c h).length = r.num
  pos : 0 < r.num
  inside : ∀ c h : Vec d, (∀ i, 0 ≤ h i) → ∀ p ∈ r.points c h, ∀ i, |p i - c i| ≤ 0.9915 * h i

theorem update_inside {c h p : Vec d} (hp : ∀ i, |p i - c i| ≤ 0.9915 * h i) (k : Fin d) {x : ℝ} (hx : |x - c k| ≤ 0.9915 * h k) :
    ∀ i, |Function.update p k x i - c i| ≤ 0.9915 * h i := by
  intro i
  by_cases hi : i = k
  · subst hi; simpa using hx
  · rw [Function.update_of_ne hi]; exact hp i

theorem code_l2 : 0 ≤ codeLambdas.l2 ∧ codeLambdas.l2 ≤ 0.9915 := by norm_num [codeLambdas]
theorem code_l4 : 0 ≤ codeLambdas.l4 ∧ codeLambdas.l4 ≤ 0.9915 := by norm_num [codeLambdas]
theorem code_l5 : 0 ≤ codeLambdas.l5 ∧ codeLambdas.l5 ≤ 0.9915 := by norm_num [codeLambdas]

theorem abs_step {c h l : ℝ} (hh : 0 ≤ h) (hl : 0 ≤ l ∧ l ≤ 0.9915) : |c - h * l - c| ≤ 0.9915 * h ∧ |c + h * l - c| ≤ 0.9915 * h := by
  have h1 : 0 ≤ h * l := mul_nonneg hh hl.1
  have h2 : h * l ≤ 0.9915 * h := by rw [mul_comm 0.9915]; exact mul_le_mul_of_nonneg_left hl.2 hh
  constructor <;> rw [abs_le] <;> constructor <;> linarith

theorem gm_ok (d : ℕ) : RuleOK (gmRule codeLambdas d) := by
  refine ⟨gmPoints_length _, by simp [gmRule, gmNum], fun c h hh p hp => ?_⟩
  have hc : ∀ i, |c i - c i| ≤ 0.9915 * h i := fun i => by rw [sub_self, abs_zero]; exact mul_nonneg (by norm_num) (hh i)
  change p ∈ gmPoints codeLambdas c h at hp
  rw [gmPoints_eq] at hp
  simp only [List.mem_cons, List.mem_append, List.mem_flatMap, List.mem_map, List.mem_finRange, List.mem_filter, true_and, List.mem_range, axis4, plane4, List.not_mem_nil, or_false] at hp
  have s2 := fun i => abs_step (c := c i) (hh i) code_l2
  have s4 := fun i => abs_step (c := c i) (hh i) code_l4
  have s5 := fun i => abs_step (c := c i) (hh i) code_l5
  rcases hp with rfl | ⟨i, rfl | rfl | rfl | rfl⟩ | ⟨i, j, hij, rfl | rfl | rfl | rfl⟩ | ⟨n, hn, rfl⟩
  · exact hc
  · exact update_inside hc i (s2 i).1
  · exact update_inside hc i (s2 i).2
  · exact update_inside hc i (s4 i).1
  · exact update_inside hc i (s4 i).2
  · exact update_inside (update_inside hc i (s4 i).1) j (s4 j).1
  · exact update_inside (update_inside hc i (s4 i).2) j (s4 j).1
  · exact update_inside (update_inside hc i (s4 i).2) j (s4 j).2
  · exact update_inside (update_inside hc i (s4 i).1) j (s4 j).2
  · intro i
    rw [signPoint]
    split_ifs
    · exact (s5 i).1
    · exact (s5 i).2

theorem xgk_range (i : ℕ) : 0 ≤ xgk i ∧ xgk i ≤ 0.9915 := by unfold xgk; split <;> norm_num

theorem gk_ok : RuleOK gkRule := by
  refine ⟨gkPoints_length, by simp [gkRule], fun c h hh p hp => ?_⟩
  have hc : ∀ i, |c i - c i| ≤ 0.9915 * h i := fun i => by rw [sub_self, abs_zero]; exact mul_nonneg (by norm_num) (hh i)
  change p ∈ gkPoints c h at hp
  simp only [gkPoints, List.mem_cons, List.mem_append, List.mem_flatMap, List.mem_range, List.not_mem_nil, or_false] at hp
  have e : ∀ (x : ℝ), |x - c 0| ≤ 0.9915 * h 0 → ∀ i : Fin 1, |(fun _ : Fin 1 => x) i - c i| ≤ 0.9915 * h i := by
    intro x hx i; rw [Subsingleton.elim i 0]; exact hx
  rcases hp with (rfl | ⟨j, hj, rfl | rfl⟩) | ⟨j, hj, rfl | rfl⟩
  · exact hc
  · exact e _ (abs_step (hh 0) (xgk_range _)).1
  · exact e _ (abs_step (hh 0) (xgk_range _)).2
  · exact e _ (abs_step (hh 0) (xgk_range _)).1
  · exact e _ (abs_step (hh 0) (xgk_range _)).2

theorem cubRule_ne {d : ℕ} (h : d ≠ 1) : cubRule d = gmRule codeLambdas d := by
  match d with
  | 0 => rfl
  | 1 => exact absurd rfl h
  | _ + 2 => rfl

theorem cub_ok (d : ℕ) : RuleOK (cubRule d) := by
  by_cases h : d = 1
  · subst h; exact gk_ok
  · rw [cubRule_ne h]; exact gm_ok d

/-! ## Estimates for a region -/

theorem computeVol_eq (h : Vec d) : computeVol h = ∏ i, 2 * h i := by
  have : ∀ (l : List (Fin d)) (a : ℝ), l.foldl (fun vol i => vol * (2 * h i)) a = a * (l.map fun i => 2 * h i).prod := by
    intro l
    induction l with
    | nil => intro a; simp
    | cons i l ih => intro a; rw [List.foldl_cons, ih, List.map_cons, List.prod_cons, mul_assoc]
  rw [computeVol, this, one_mul, ← List.ofFn_eq_map, List.prod_ofFn]

/-- The values of a function at the points of a region -/
def samples (r : Rule d) (g : Vec d → ℝ) (c h : Vec d) : ℕ → ℝ := fun k => ((r.points c h).map g).getD k 0
/-- The estimate of the integral of a function over the box given by the rule -/
def estimate (r : Rule d) (g : Vec d → ℝ) (c h : Vec d) : ℝ := r.val h (∏ i, 2 * h i) (samples r g c h)
/-- The estimate of its error -/
def estError (r : Rule d) (g : Vec d → ℝ) (c h : Vec d) : ℝ := r.err h (∏ i, 2 * h i) (samples r g c h)

theorem mapM_eq (f : Integrand d m) (F : Vec d → Fin m → ℝ) (l : List (Vec d)) (h : ∀ x ∈ l, f x = some (F x)) : l.mapM f = some (l.map F) := by
  induction l with
  | nil => rfl
  | cons a l ih =>
    rw [List.mapM_cons, h a (by simp), ih fun x hx => h x (by simp [hx])]
    rfl

theorem mapM_some (f : Integrand d m) (l : List (Vec d)) (vals : List (Fin m → ℝ)) (h : l.mapM f = some vals) : ∀ x ∈ l, f x = some ((f x).getD 0) := by
  induction l generalizing vals with
  | nil => intro x hx; simp at hx
  | cons a l ih =>
    rw [List.mapM_cons] at h
    cases ha : f a with
    | none => rw [ha] at h; simp at h
    | some y =>
      rw [ha] at h
      cases hl : l.mapM f with
      | none => rw [hl] at h; simp at h
      | some ys =>
        intro x hx
        rcases List.mem_cons.1 hx with rfl | hx
        · rw [ha]; rfl
        · exact ih ys hl x hx

theorem mapM_none (f : Integrand d m) (l : List (Vec d)) (h : l.mapM f = none) : ∃ x ∈ l, f x = none := by
  by_contra hcon
  push Not at hcon
  rw [mapM_eq f (fun x => (f x).getD 0) l fun x hx => by
    cases hf : f x with
    | none => exact absurd hf (hcon x hx)
    | some y => rfl] at h
  simp at h

theorem mapM_congr (f f' : Integrand d m) (l : List (Vec d)) (h : ∀ x ∈ l, f x = f' x) : l.mapM f = l.mapM f' := by
  induction l with
  | nil => rfl
  | cons a l ih => rw [List.mapM_cons, List.mapM_cons, h a (by simp), ih fun x hx => h x (by simp [hx])]

/-- The content of an evaluated region -/
structure Filled [NeZero d] (r : Rule d) (F : Vec d → Fin m → ℝ) (R : Region d m) : Prop where
  vol : R.vol = ∏ i, 2 * R.h i
  val : ∀ j, R.val j = estimate r (fun x => F x j) R.c R.h
  err : ∀ j, R.err j = estError r (fun x => F x j) R.c R.h
  errmax : R.errmax = errMax R.err
  split : R.splitDim = splitOf fun i => ∑ j, r.diff (samples r (fun x => F x j) R.c R.h) i

theorem evalRegion_spec [NeZero d] (r : Rule d) (f : Integrand d m) (R A : Region d m) (hv : R.vol = ∏ i, 2 * R.h i) (h : evalRegion r f R = some A) :
    A.c = R.c ∧ A.h = R.h ∧ Filled r (fun x => (f x).getD 0) A := by
  rw [evalRegion, Option.map_eq_some_iff] at h
  obtain ⟨vals, h1, rfl⟩ := h
  have h2 : vals = (r.points R.c R.h).map fun x => (f x).getD 0 := by
    have := mapM_eq f (fun x => (f x).getD 0) _ (mapM_some f _ _ h1)
    rw [h1] at this; exact Option.some.inj this
  subst h2
  refine ⟨rfl, rfl, hv, fun j => ?_, fun j => ?_, rfl, ?_⟩
  · simp only [fill, estimate, hv, List.map_map]; rfl
  · simp only [fill, estError, hv, List.map_map]; rfl
  · simp only [fill, List.map_map]; rfl

/-! ## Tilings -/

theorem Box_eq (c h : Vec d) : Box c h = Set.pi Set.univ fun i => Set.Ico (c i - h i) (c i + h i) := by
  ext x; simp [Box, Set.mem_pi]

theorem Box_ae (c h : Vec d) : Box c h =ᵐ[volume] Set.Icc (c - h) (c + h) := by
  rw [Box_eq, volume_pi]; exact Measure.univ_pi_Ico_ae_eq_Icc

theorem Box_measurable (c h : Vec d) : MeasurableSet (Box c h) := by
  rw [Box_eq]; exact MeasurableSet.univ_pi fun i => measurableSet_Ico

theorem cut_h (R : Region d m) (i : Fin d) : (cut R).1.h i = (if i = R.splitDim then R.h i * 0.5 else R.h i) ∧ (cut R).2.h i = (if i = R.splitDim then R.h i * 0.5 else R.h i) := by
  simp only [cut, Function.update_apply]
  constructor <;> split_ifs with h <;> simp [h]

theorem cut_c (R : Region d m) (i : Fin d) : (cut R).1.c i = (if i = R.splitDim then R.c i - R.h i * 0.5 else R.c i) ∧
    (cut R).2.c i = (if i = R.splitDim then R.c i + R.h i * 0.5 else R.c i) := by
  simp only [cut, Function.update_apply, if_true]
  constructor <;> split_ifs with h <;> simp [h]

theorem cut_vol (R : Region d m) (hv : R.vol = ∏ i, 2 * R.h i) : (cut R).1.vol = ∏ i, 2 * (cut R).1.h i ∧ (cut R).2.vol = ∏ i, 2 * (cut R).2.h i := by
  refine ⟨?_, by simp only [cut, computeVol_eq]⟩
  have e : ∀ i, 2 * (cut R).1.h i = 2 * R.h i * (if i = R.splitDim then 0.5 else 1) := by
    intro i; rw [(cut_h R i).1]; split_ifs <;> ring
  rw [Finset.prod_congr rfl fun i _ => e i, Finset.prod_mul_distrib, ← hv, Finset.prod_ite_eq' univ R.splitDim (fun _ => (0.5 : ℝ))]
  simp [cut]

theorem cut_box (R : Region d m) (hh : ∀ i, 0 ≤ R.h i) : Box R.c R.h = Box (cut R).1.c (cut R).1.h ∪ Box (cut R).2.c (cut R).2.h ∧
    Disjoint (Box (cut R).1.c (cut R).1.h) (Box (cut R).2.c (cut R).2.h) := by
  constructor
  · ext x
    simp only [Box, Set.mem_union, Set.mem_ofPred_eq, cut_h, cut_c]
    constructor
    · intro hx
      by_cases hk : x R.splitDim < R.c R.splitDim
      · left
        intro i
        have := hx i; have := hh i
        by_cases hi : i = R.splitDim
        · rw [if_pos hi, if_pos hi]; subst hi; constructor <;> linarith
        · rw [if_neg hi, if_neg hi]; exact hx i
      · right
        intro i
        have := hx i; have := hh i
        by_cases hi : i = R.splitDim
        · rw [if_pos hi, if_pos hi]; subst hi; constructor <;> linarith
        · rw [if_neg hi, if_neg hi]; exact hx i
    · rintro (hx | hx) i <;> have h1 := hx i <;> have h2 := hh i <;> split_ifs at h1 <;> constructor <;> linarith
  · rw [Set.disjoint_left]
    intro x h1 h2
    have a := (h1 R.splitDim).2
    have b := (h2 R.splitDim).1
    rw [(cut_h _ _).1, (cut_c _ _).1, if_pos rfl, if_pos rfl] at a
    rw [(cut_h _ _).2, (cut_c _ _).2, if_pos rfl, if_pos rfl] at b
    linarith

theorem cut_inside (R : Region d m) (c h : Vec d) (hR : ∀ i, 0 ≤ R.h i ∧ |R.c i - c i| + R.h i ≤ h i) :
    (∀ i, 0 ≤ (cut R).1.h i ∧ |(cut R).1.c i - c i| + (cut R).1.h i ≤ h i) ∧ ∀ i, 0 ≤ (cut R).2.h i ∧ |(cut R).2.c i - c i| + (cut R).2.h i ≤ h i := by
  constructor <;> intro i <;> obtain ⟨h1, h2⟩ := hR i
  · rw [(cut_h R i).1, (cut_c R i).1]
    split_ifs
    · refine ⟨by linarith, ?_⟩
      have := abs_sub_abs_le_abs_sub (R.c i - R.h i * 0.5 - c i) (R.c i - c i)
      have e : R.c i - R.h i * 0.5 - c i - (R.c i - c i) = -(R.h i * 0.5) := by ring
      rw [e, abs_neg, abs_of_nonneg (by linarith : 0 ≤ R.h i * 0.5)] at this
      linarith
    · exact ⟨h1, h2⟩
  · rw [(cut_h R i).2, (cut_c R i).2]
    split_ifs
    · refine ⟨by linarith, ?_⟩
      have := abs_sub_abs_le_abs_sub (R.c i + R.h i * 0.5 - c i) (R.c i - c i)
      have e : R.c i + R.h i * 0.5 - c i - (R.c i - c i) = R.h i * 0.5 := by ring
      rw [e, abs_of_nonneg (by linarith : 0 ≤ R.h i * 0.5)] at this
      linarith
    · exact ⟨h1, h2⟩

theorem inside_subset {c h c' h' : Vec d} (hR : ∀ i, 0 ≤ h' i ∧ |c' i - c i| + h' i ≤ h i) : Set.Icc (c' - h') (c' + h') ⊆ Set.Icc (c - h) (c + h) := by
  refine Set.Icc_subset_Icc (fun i => ?_) fun i => ?_ <;> have := hR i <;> have := abs_le.1 (le_refl |c' i - c i|) <;> simp only [Pi.sub_apply, Pi.add_apply] <;> linarith

theorem cut_integral (R : Region d m) (hh : ∀ i, 0 ≤ R.h i) (g : Vec d → ℝ) (hg : IntegrableOn g (Set.Icc (R.c - R.h) (R.c + R.h))) :
    ∫ x in Set.Icc (R.c - R.h) (R.c + R.h), g x = (∫ x in Set.Icc ((cut R).1.c - (cut R).1.h) ((cut R).1.c + (cut R).1.h), g x) +
      ∫ x in Set.Icc ((cut R).2.c - (cut R).2.h) ((cut R).2.c + (cut R).2.h), g x := by
  have hb := cut_box R hh
  have hg' : IntegrableOn g (Box R.c R.h) := hg.congr_set_ae (Box_ae _ _)
  rw [← setIntegral_congr_set (Box_ae _ _), ← setIntegral_congr_set (Box_ae _ _), ← setIntegral_congr_set (Box_ae _ _), hb.1,
    setIntegral_union hb.2 (Box_measurable _ _) (hg'.mono_set (by rw [hb.1]; exact Set.subset_union_left)) (hg'.mono_set (by rw [hb.1]; exact Set.subset_union_right))]

/-- The boxes of a collection of regions -/
def boxes (M : Multiset (Region d m)) : Multiset (Vec d × Vec d) := M.map fun R => (R.c, R.h)

open Classical in
theorem tiling_cut {c h : Vec d} {R A B : Region d m} {M : Multiset (Region d m)} (hA : A.c = (cut R).1.c ∧ A.h = (cut R).1.h) (hB : B.c = (cut R).2.c ∧ B.h = (cut R).2.h)
    (ht : Tiling c h (boxes (R ::ₘ M))) : Tiling c h (boxes (B ::ₘ A ::ₘ M)) := by
  obtain ⟨h1, h2⟩ := ht
  simp only [boxes, Multiset.map_cons, Multiset.mem_cons, forall_eq_or_imp] at h1
  have hin := cut_inside R c h h1.1
  refine ⟨?_, fun x => ?_⟩
  · simp only [boxes, Multiset.map_cons, Multiset.mem_cons, forall_eq_or_imp, hA.1, hA.2, hB.1, hB.2]
    exact ⟨hin.2, hin.1, h1.2⟩
  · rw [← h2 x]
    have hb := cut_box R fun i => (h1.1 i).1
    simp only [boxes, Multiset.map_cons, Multiset.filter_cons, Multiset.card_add, hA.1, hA.2, hB.1, hB.2, ← add_assoc]
    congr 1
    by_cases hx1 : x ∈ Box (cut R).1.c (cut R).1.h
    · have hx2 := Set.disjoint_left.1 hb.2 hx1
      have : x ∈ Box R.c R.h := by rw [hb.1]; exact Or.inl hx1
      simp [hx1, hx2, this]
    · by_cases hx2 : x ∈ Box (cut R).2.c (cut R).2.h
      · have : x ∈ Box R.c R.h := by rw [hb.1]; exact Or.inr hx2
        simp [hx1, hx2, this]
      · have : x ∉ Box R.c R.h := by rw [hb.1]; simp [hx1, hx2]
        simp [hx1, hx2, this]

/-! ## The invariant -/

/-- The invariant of the loop -/
structure Inv [NeZero d] (r : Rule d) (f : Integrand d m) (c h : Vec d) (s : St d m) : Prop where
  valid : s.heap.Valid Region.errmax
  tval : ∀ j, s.tval j = (s.heap.content.map fun R => R.val j).sum
  terr : ∀ j, s.terr j = (s.heap.content.map fun R => R.err j).sum
  filled : ∀ R ∈ s.heap.content, Filled r (fun x => (f x).getD 0) R
  tiling : Tiling c h (boxes s.heap.content)
  ints : ∀ g, IntegrableOn g (Set.Icc (c - h) (c + h)) → sumInt (boxes s.heap.content) g = ∫ x in Set.Icc (c - h) (c + h), g x
  halves : ∀ R ∈ s.heap.content, ∀ i, ∃ k : ℕ, R.h i = h i * 0.5 ^ k
  count : s.numEval + r.num = r.num * (2 * Multiset.card s.heap.content)
  pos : 0 < Multiset.card s.heap.content
  calls : s.calls = s.numEval

theorem push_content (s : St d m) (R : Region d m) (hv : s.heap.Valid Region.errmax) : (s.push R).heap.Valid Region.errmax ∧ (s.push R).heap.content = R ::ₘ s.heap.content :=
  push_spec Region.errmax s.heap hv R

theorem half_pow {c h : Vec d} {R : Region d m} (hR : ∀ i, ∃ k : ℕ, R.h i = h i * 0.5 ^ k) (hc : ∀ i, c i = if i = R.splitDim then R.h i * 0.5 else R.h i) (i : Fin d) :
    ∃ k : ℕ, c i = h i * 0.5 ^ k := by
  obtain ⟨k, hk⟩ := hR i
  rw [hc i]
  split_ifs
  · exact ⟨k + 1, by rw [hk, pow_succ]; ring⟩
  · exact ⟨k, hk⟩

/-- One iteration: the region with the largest error is replaced by its halves, evaluated by the same rule. -/
theorem refine1_spec [NeZero d] (r : Rule d) (hr : RuleOK r) (f : Integrand d m) (c h : Vec d) (s : St d m) (hs : Inv r f c h s) :
    ∃ (R : Region d m) (heap' : Heap (Region d m)), s.heap.content = R ::ₘ heap'.content ∧ (∀ R' ∈ s.heap.content, R'.errmax ≤ R.errmax) ∧
      ((∃ x ∈ r.points (cut R).1.c (cut R).1.h ++ r.points (cut R).2.c (cut R).2.h, f x = none) ∧ refine1 r f s = .failure ∨
      ∃ A B s', evalRegion r f (cut R).1 = some A ∧ evalRegion r f (cut R).2 = some B ∧ refine1 r f s = .done s' ∧ s'.heap.content = B ::ₘ A ::ₘ heap'.content ∧
        s'.numEval = s.numEval + 2 * r.num ∧ Inv r f c h s') := by
  have hp := pop_spec Region.errmax s.heap hs.valid
  cases hpop : s.heap.pop Region.errmax with
  | none =>
    rw [hpop] at hp
    have := hs.pos
    rw [show s.heap.content = 0 from hp] at this
    simp at this
  | some p =>
    obtain ⟨R, heap'⟩ := p
    rw [hpop] at hp
    obtain ⟨hv', hc, hmax⟩ := hp
    refine ⟨R, heap', hc, hmax, ?_⟩
    have hRm : R ∈ s.heap.content := by rw [hc]; exact Multiset.mem_cons_self _ _
    have hRin := hs.tiling.1 (R.c, R.h) (Multiset.mem_map_of_mem _ hRm)
    have hvol := cut_vol R (hs.filled R hRm).vol
    unfold refine1
    simp only [hpop]
    cases hA : evalRegion r f (cut R).1 with
    | none =>
      left
      rw [evalRegion, Option.map_eq_none_iff] at hA
      obtain ⟨x, hx, hf⟩ := mapM_none f _ hA
      exact ⟨⟨x, List.mem_append_left _ hx, hf⟩, rfl⟩
    | some A =>
      cases hB : evalRegion r f (cut R).2 with
      | none =>
        left
        rw [evalRegion, Option.map_eq_none_iff] at hB
        obtain ⟨x, hx, hf⟩ := mapM_none f _ hB
        exact ⟨⟨x, List.mem_append_right _ hx, hf⟩, rfl⟩
      | some B =>
        right
        obtain ⟨a1, a2, a3⟩ := evalRegion_spec r f _ A hvol.1 hA
        obtain ⟨b1, b2, b3⟩ := evalRegion_spec r f _ B hvol.2 hB
        set s0 : St d m := { s with heap := heap', tval := fun j => s.tval j - R.val j, terr := fun j => s.terr j - R.err j } with hs0
        obtain ⟨p1, p2⟩ := push_content s0 A hv'
        obtain ⟨q1, q2⟩ := push_content (s0.push A) B p1
        rw [p2] at q2
        refine ⟨A, B, _, rfl, rfl, rfl, q2, by simp only [St.push, hs0]; ring, ?_⟩
        constructor
        · exact q1
        · intro j
          simp only [q2, Multiset.map_cons, Multiset.sum_cons]
          have := hs.tval j
          rw [hc, Multiset.map_cons, Multiset.sum_cons] at this
          simp only [St.push, hs0, this]; ring
        · intro j
          simp only [q2, Multiset.map_cons, Multiset.sum_cons]
          have := hs.terr j
          rw [hc, Multiset.map_cons, Multiset.sum_cons] at this
          simp only [St.push, hs0, this]; ring
        · intro R' hR'
          simp only [q2, Multiset.mem_cons] at hR'
          rcases hR' with rfl | rfl | hR'
          · exact b3
          · exact a3
          · exact hs.filled R' (by rw [hc]; exact Multiset.mem_cons_of_mem hR')
        · simp only [q2]
          exact tiling_cut ⟨a1, a2⟩ ⟨b1, b2⟩ (by rw [← hc]; exact hs.tiling)
        · intro g hg
          simp only [q2]
          rw [← hs.ints g hg, hc]
          simp only [boxes, sumInt, Multiset.map_cons, Multiset.sum_cons, a1, a2, b1, b2, ← add_assoc]
          rw [cut_integral R (fun i => (hRin i).1) g (hg.mono_set (inside_subset hRin))]
          ring
        · intro R' hR'
          simp only [q2, Multiset.mem_cons] at hR'
          rcases hR' with rfl | rfl | hR'
          · exact half_pow (hs.halves R hRm) fun i => by rw [b2, (cut_h R i).2]
          · exact half_pow (hs.halves R hRm) fun i => by rw [a2, (cut_h R i).1]
          · exact hs.halves R' (by rw [hc]; exact Multiset.mem_cons_of_mem hR')
        · have := hs.count
          rw [hc, Multiset.card_cons] at this
          have hcard : Multiset.card ((s0.push A).push B).heap.content = Multiset.card heap'.content + 2 := by rw [q2]; simp [hs0]
          change s.numEval + r.num * 2 + r.num = r.num * (2 * Multiset.card ((s0.push A).push B).heap.content)
          rw [hcard]
          have e : s.numEval + r.num * 2 + r.num = s.numEval + r.num + r.num * 2 := by ring
          rw [e, this]; ring
        · simp [q2]
        · simp only [St.push, hs0, hr.len, hs.calls]; ring

open Classical in
theorem start_spec [NeZero d] (r : Rule d) (hr : RuleOK r) (f : Integrand d m) (lo hi : Vec d) (hle : ∀ i, lo i ≤ hi i) (garbage : ℕ → Region d m) (s : St d m)
    (h : start r f lo hi garbage = some s) : Inv r f (fun i => 0.5 * (lo i + hi i)) (fun i => 0.5 * (hi i - lo i)) s ∧ s.numEval = r.num ∧ Multiset.card s.heap.content = 1 := by
  rw [start, Option.map_eq_some_iff] at h
  obtain ⟨R, h1, rfl⟩ := h
  obtain ⟨e1, e2, e3⟩ := evalRegion_spec r f (initRegion lo hi) R (computeVol_eq _) h1
  have hv : (Heap.empty garbage).Valid Region.errmax := fun i _ hi => absurd hi (by simp [Heap.empty])
  obtain ⟨p1, p2⟩ := push_content (⟨Heap.empty garbage, 0, 0, 0, 0⟩ : St d m) R hv
  have p3 : (Heap.empty garbage).content = (0 : Multiset (Region d m)) := by simp [Heap.content, Heap.empty]
  rw [show (⟨Heap.empty garbage, 0, 0, 0, 0⟩ : St d m).heap.content = 0 from p3] at p2
  have hb : boxes (R ::ₘ 0) = ((fun i => 0.5 * (lo i + hi i) : Vec d), (fun i => 0.5 * (hi i - lo i) : Vec d)) ::ₘ 0 := by
    simp only [boxes, Multiset.map_cons, Multiset.map_zero, e1, e2]; rfl
  refine ⟨?_, rfl, by simp [p2]⟩
  constructor
  · exact p1
  · intro j; simp only [p2]; simp [St.push]
  · intro j; simp only [p2]; simp [St.push]
  · intro R' hR'
    simp only [p2, Multiset.mem_cons, Multiset.notMem_zero, or_false] at hR'
    rw [hR']; exact e3
  · simp only [p2, hb]
    refine ⟨?_, fun x => ?_⟩
    · intro p hp i
      simp only [Multiset.mem_cons, Multiset.notMem_zero, or_false] at hp
      rw [hp]
      simp only [sub_self, abs_zero, zero_add, le_refl, and_true]
      linarith [hle i]
    · rw [Multiset.filter_cons]
      split_ifs <;> simp
  · intro g _
    simp only [p2, hb, sumInt]; simp
  · intro R' hR' i
    simp only [p2, Multiset.mem_cons, Multiset.notMem_zero, or_false] at hR'
    rw [hR', e2]; exact ⟨0, by simp [initRegion]⟩
  · simp [p2]; ring
  · simp [p2]
  · exact hr.len _ _

end

end Verif.Cubature
