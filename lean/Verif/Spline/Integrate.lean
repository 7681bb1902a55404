import Mathlib.Analysis.SpecialFunctions.Integrals.Basic
import Verif.Core.GaussLegendre
import Verif.Spline.Regularize

/-! C73: integrals of piecewise-polynomial interpolators (/repo/src/math_spline.cpp:371-395, 737-869). Exact real arithmetic,
decimal literals of the quadrature tables as written. -/
namespace Verif.Spline

open Verif.BSpline (Grid)
open Verif.GL

noncomputable section

/-! ## Model -/

/-- math_spline.cpp:840-860: indices of the first and last nodes, for limits a < b inside the grid; `none` is a failed assertion. -/
def segRange (x : ℕ → ℝ) (size : ℕ) (a b : ℝ) : Option (ℕ × ℕ) :=
  let i1 := bin x size a
  let i2 := bin x size b + 1
  let i2 := if b = x (i2 - 1).toNat then i2 - 1 else i2
  if 0 ≤ i1 ∧ i1 < i2 ∧ i2 < size then some (i1.toNat, i2.toNat) else none

/-- math_spline.cpp:833-869 for orders within the table (`integratePiecewise<N>`): S(x) x^n between x1 and x2. -/
def integratePiecewise (N : ℕ) (x : ℕ → ℝ) (size : ℕ) (S : ℝ → ℝ) (x1 x2 : ℝ) (n : ℕ) : Option ℝ :=
  let GLORDER := (N + n) / 2 + 1
  if size < 2 then some 0 else
  let flipSign : Bool := decide (x1 > x2)
  let a := max (if x1 > x2 then x2 else x1) (x 0)
  let b := min (if x1 > x2 then x1 else x2) (x (size - 1))
  if a ≥ b then some 0 else do
  let r ← segRange x size a b
  let result := (List.range' r.1 (r.2 - r.1)).foldl (fun result i =>
    let xleft := max (x i) a
    let dx := min (x (i + 1)) b - xleft
    (List.range GLORDER).foldl (fun result k =>
      let t := xleft + lit ((points GLORDER).getD k 0) * dx
      result + S t * t ^ n * dx * lit ((weights GLORDER).getD k 0)) result) 0
  return if flipSign then -result else result

/-! ## The range of segments -/

theorem segRange_spec {x : ℕ → ℝ} {size : ℕ} (hg : Grid x size) (hs : 2 ≤ size) {a b : ℝ} (ha : x 0 ≤ a) (hab : a < b)
    (hb : b ≤ x (size - 1)) :
    ∃ i1 i2, segRange x size a b = some (i1, i2) ∧ i1 < i2 ∧ i2 < size ∧ x i1 ≤ a ∧ a < x (i1 + 1) ∧ x (i2 - 1) < b ∧ b ≤ x i2 := by
  have A : ∃ i1 : ℕ, bin x size a = i1 ∧ i1 + 1 < size ∧ x i1 ≤ a ∧ a < x (i1 + 1) := by
    rcases bin_cases hg (by omega) a with ⟨h, _⟩ | ⟨h, _⟩ | ⟨h1, h2, _⟩ | ⟨k, hk, h1, h2, h3, hb'⟩
    · linarith
    · linarith
    · omega
    · refine ⟨k, hb', hk, h1, lt_of_le_of_ne h2 ?_⟩
      intro he
      have := h3 he
      rw [show size - 1 = k + 1 by omega] at hb
      linarith
  have B : ∃ j : ℕ, bin x size b = j ∧ j + 1 < size ∧ x j ≤ b ∧ b ≤ x (j + 1) := by
    rcases bin_cases hg (by omega) b with ⟨h, _⟩ | ⟨h, _⟩ | ⟨h1, h2, _⟩ | ⟨k, hk, h1, h2, h3, hb'⟩
    · linarith
    · linarith
    · omega
    · exact ⟨k, hb', hk, h1, h2⟩
  obtain ⟨i1, e1, a1, a2, a3⟩ := A
  obtain ⟨j, e2, b1, b2, b3⟩ := B
  have mono : ∀ i j, i < size → j < size → x i < x j → i < j := by
    intro i j hi hj h
    by_contra hc
    have := Grid.le hg (not_lt.1 hc) hi
    linarith
  simp only [segRange, e1, e2, show ((j : ℤ) + 1 - 1) = j by ring, Int.toNat_natCast]
  by_cases hbj : b = x j
  · have h1 : i1 < j := mono i1 j (by omega) (by omega) (by linarith)
    rw [if_pos hbj, if_pos ⟨by omega, by omega, by omega⟩]
    refine ⟨i1, j, by simp, h1, by omega, a2, a3, ?_, hbj.le⟩
    rw [hbj]; exact hg _ _ (by omega) (by omega)
  · have h1 : i1 < j + 1 := mono i1 (j + 1) (by omega) (by omega) (by linarith)
    rw [if_neg hbj, if_pos ⟨by omega, by omega, by omega⟩]
    refine ⟨i1, j + 1, ?_, h1, by omega, a2, a3, ?_, b3⟩
    · simp
    · rw [Nat.add_sub_cancel]; exact lt_of_le_of_ne b2 (Ne.symm hbj)

/-- A coordinate restricted to an interval. -/
def restrict (a b t : ℝ) : ℝ := min b (max a t)

theorem seg_bounds {x : ℕ → ℝ} {size : ℕ} (hg : Grid x size) {a b : ℝ} {i1 i2 : ℕ} (h2 : i2 < size) (hab : a < b)
    (a2 : x i1 ≤ a) (a3 : a < x (i1 + 1)) (b2 : x (i2 - 1) < b) (b3 : b ≤ x i2) (h12 : i1 < i2) :
    restrict a b (x i1) = a ∧ restrict a b (x i2) = b ∧
    ∀ i, i1 ≤ i → i < i2 → max (x i) a = restrict a b (x i) ∧ min (x (i + 1)) b = restrict a b (x (i + 1)) ∧
      restrict a b (x i) ≤ restrict a b (x (i + 1)) ∧ x i ≤ restrict a b (x i) ∧ restrict a b (x (i + 1)) ≤ x (i + 1) := by
  refine ⟨?_, ?_, ?_⟩
  · rw [restrict, max_eq_left a2, min_eq_right hab.le]
  · rw [restrict, min_eq_left (b3.trans (le_max_right _ _))]
  · intro i hi1 hi2
    have u : x i < b := lt_of_le_of_lt (Grid.le hg (show i ≤ i2 - 1 by omega) (by omega)) b2
    have v : a < x (i + 1) := lt_of_lt_of_le a3 (Grid.le hg (show i1 + 1 ≤ i + 1 by omega) (by omega))
    have w : x i < x (i + 1) := hg _ _ (by omega) (by omega)
    have e1 : restrict a b (x i) = max (x i) a := by
      rw [restrict, max_comm, min_eq_right (max_le u.le hab.le)]
    have e2 : restrict a b (x (i + 1)) = min (x (i + 1)) b := by
      rw [restrict, max_eq_right v.le, min_comm]
    rw [e1, e2]
    exact ⟨rfl, rfl, max_le (le_min w.le u.le) (le_min v.le hab.le), le_max_left _ _, min_le_left _ _⟩

theorem foldl_add_sum (l : List ℕ) (g : ℕ → ℝ) (r : ℝ) : l.foldl (fun r i => r + g i) r = r + (l.map g).sum := by
  induction l generalizing r with
  | nil => simp
  | cons a l ih => rw [List.foldl_cons, ih, List.map_cons, List.sum_cons]; ring

theorem range'_sum (a m : ℕ) (g : ℕ → ℝ) : ((List.range' a m).map g).sum = ∑ i ∈ Finset.Ico a (a + m), g i := by
  induction m with
  | zero => simp
  | succ m ih =>
    rw [List.range'_concat, List.map_append, List.sum_append, ih, ← add_assoc, Finset.sum_Ico_succ_top (by omega)]
    simp

/-- The contribution of one segment. -/
def segGL (M : ℕ) (f : ℝ → ℝ) (u v : ℝ) : ℝ :=
  ∑ k ∈ Finset.range M, f (u + lit ((points M).getD k 0) * (v - u)) * (v - u) * lit ((weights M).getD k 0)

/-- Sum of absolute values of the coefficients of a polynomial in the variable running from 0 to 1 between u and v. -/
def coeffNorm (q : Polynomial ℝ) (u v : ℝ) : ℝ :=
  ∑ k ∈ Finset.range (q.natDegree + 1), |(q.comp (Polynomial.C u + Polynomial.C (v - u) * Polynomial.X)).coeff k|

theorem segGL_bound (M : ℕ) (h1 : 1 ≤ M) (h20 : M ≤ 20) (q : Polynomial ℝ) (hq : q.natDegree < 2 * M) (f : ℝ → ℝ) (u v : ℝ) (huv : u ≤ v)
    (hf : ∀ t, u ≤ t → t ≤ v → f t = q.eval t) :
    |segGL M f u v - ∫ t in u..v, f t| ≤ 2 / 10 ^ 16 * (v - u) * coeffNorm q u v := by
  have himp : M ∈ implemented := by
    have : ∀ m ∈ List.range' 1 20, m ∈ implemented := by decide
    exact this M (by rw [List.mem_range'_1]; omega)
  have hch : chooseOrder 40 M = M := by
    have : ∀ m ∈ List.range' 1 20, chooseOrder 40 m = m := by decide +kernel
    exact this M (by rw [List.mem_range'_1]; omega)
  have hpt : ∀ k < M, 0 ≤ lit ((points M).getD k 0) ∧ lit ((points M).getD k 0) ≤ 1 := by
    intro k hk
    have hs := table_shape
    rw [List.all_eq_true] at hs
    have hs' := hs M himp
    simp only [Bool.and_eq_true, beq_iff_eq, List.all_eq_true, decide_eq_true_eq] at hs'
    have hl := hs'.1.1.1
    have hmem : (points M).getD k 0 ∈ points M := by
      rw [List.getD_eq_getElem?_getD, List.getElem?_eq_getElem (by omega)]; exact List.getElem_mem _
    have hb := hs'.1.2 _ hmem
    rw [lit]
    constructor
    · positivity
    · rw [div_le_one (by positivity)]
      exact_mod_cast hb.2.le
  have hint : ∫ t in u..v, f t = ∫ t in u..v, q.eval t := by
    apply intervalIntegral.integral_congr
    intro t ht
    rw [Set.uIcc_of_le huv] at ht
    exact hf t ht.1 ht.2
  have hval : ∀ k < M, f (u + lit ((points M).getD k 0) * (v - u)) = q.eval (u + lit ((points M).getD k 0) * (v - u)) := by
    intro k hk
    obtain ⟨p0, p1⟩ := hpt k hk
    apply hf
    · nlinarith
    · nlinarith
  rw [hint, segGL, Finset.sum_congr rfl (fun k hk => by rw [hval k (Finset.mem_range.1 hk)])]
  rcases huv.lt_or_eq with hlt | heq
  · obtain ⟨_, h⟩ := C52_integrateGL q u v M
    have e : integrateGL (fun x => q.eval x) u v M = some (∑ k ∈ Finset.range M,
        q.eval (u + lit ((points M).getD k 0) * (v - u)) * (v - u) * lit ((weights M).getD k 0)) := by
      rw [integrateGL, if_neg (by omega), if_neg hlt.ne]
      simp only [Int.toNat_natCast, hch]
      rw [foldl_sum, Finset.sum_mul]
      congr 1
      apply Finset.sum_congr rfl
      intro k _
      rw [show v * lit ((points M).getD k 0) + u * (1 - lit ((points M).getD k 0)) = u + lit ((points M).getD k 0) * (v - u) by ring]
      ring
    have := h _ e (by omega)
    rwa [abs_of_pos (sub_pos.2 hlt)] at this
  · subst heq
    simp

/-- The nodes restricted to the part of the interval between x1 and x2 that is covered by the grid. -/
def clipped (x : ℕ → ℝ) (size : ℕ) (x1 x2 : ℝ) (i : ℕ) : ℝ :=
  restrict (restrict (x 0) (x (size - 1)) (min x1 x2)) (restrict (x 0) (x (size - 1)) (max x1 x2)) (x i)

theorem restrict_mono (a b : ℝ) {s t : ℝ} (h : s ≤ t) : restrict a b s ≤ restrict a b t :=
  min_le_min le_rfl (max_le_max le_rfl h)

/-- C73: for any interpolator which is a polynomial of degree at most N on each segment, any limits (in any order, inside or
outside of the grid) and any power n with (N+n)/2 < 20, the routine does not fail, and the result differs from the integral of
S(t) t^n between the limits restricted to the grid by at most the rounding errors of the tabulated quadrature rule (2e-16
times the length of the segment times the norm of the integrand on it). -/
theorem C73_integrate (N n : ℕ) (hN : (N + n) / 2 < 20) (x : ℕ → ℝ) (size : ℕ) (hg : Grid x size) (hs : 2 ≤ size)
    (S : ℝ → ℝ) (P : ℕ → Polynomial ℝ) (hP : ∀ i, i + 1 < size → (P i).natDegree ≤ N ∧ ∀ t, x i ≤ t → t ≤ x (i + 1) → S t = (P i).eval t)
    (x1 x2 : ℝ) :
    ∃ r, integratePiecewise N x size S x1 x2 n = some r ∧
      |r - ∫ t in restrict (x 0) (x (size - 1)) x1..restrict (x 0) (x (size - 1)) x2, S t * t ^ n| ≤
        2 / 10 ^ 16 * ∑ i ∈ Finset.range (size - 1), (clipped x size x1 x2 (i + 1) - clipped x size x1 x2 i) *
          coeffNorm (P i * Polynomial.X ^ n) (clipped x size x1 x2 i) (clipped x size x1 x2 (i + 1)) := by
  have h0 : x 0 ≤ x (size - 1) := Grid.le hg (by omega) (by omega)
  have cn : ∀ q u v, 0 ≤ coeffNorm q u v := fun q u v => Finset.sum_nonneg (fun _ _ => abs_nonneg _)
  have xm : ∀ i, i + 1 < size → x i ≤ x (i + 1) := fun i hi => (hg i (i + 1) (by omega) hi).le
  have rhs0 : ∀ (u v : ℝ) (g : ℕ → ℝ), (∀ i, 0 ≤ g i) → 0 ≤ 2 / 10 ^ 16 * ∑ i ∈ Finset.range (size - 1), (restrict u v (x (i + 1)) - restrict u v (x i)) * g i := by
    intro u v g hgg
    apply mul_nonneg (by norm_num)
    apply Finset.sum_nonneg
    intro i hi
    exact mul_nonneg (sub_nonneg.2 (restrict_mono _ _ (xm i (by have := Finset.mem_range.1 hi; omega)))) (hgg i)
  -- the ordered problem
  have core : ∀ y1 y2, y1 ≤ y2 → ∀ a b, a = max y1 (x 0) → b = min y2 (x (size - 1)) →
      (a ≥ b → restrict (x 0) (x (size - 1)) y1 = restrict (x 0) (x (size - 1)) y2) ∧
      (a < b → restrict (x 0) (x (size - 1)) y1 = a ∧ restrict (x 0) (x (size - 1)) y2 = b ∧
        ∃ r, segRange x size a b = some r ∧
        |(List.range' r.1 (r.2 - r.1)).foldl (fun result i =>
          let xleft := max (x i) a
          let dx := min (x (i + 1)) b - xleft
          (List.range ((N + n) / 2 + 1)).foldl (fun result k =>
            let t := xleft + lit ((points ((N + n) / 2 + 1)).getD k 0) * dx
            result + S t * t ^ n * dx * lit ((weights ((N + n) / 2 + 1)).getD k 0)) result) 0 - ∫ t in a..b, S t * t ^ n| ≤
        2 / 10 ^ 16 * ∑ i ∈ Finset.range (size - 1), (restrict a b (x (i + 1)) - restrict a b (x i)) *
          coeffNorm (P i * Polynomial.X ^ n) (restrict a b (x i)) (restrict a b (x (i + 1)))) := by
    rintro y1 y2 hy a b rfl rfl
    constructor
    · intro h
      rw [restrict, restrict]
      rcases le_total y2 (x 0) with h1 | h1
      · rw [max_eq_left h1, max_eq_left (hy.trans h1)]
      · rcases le_total (x (size - 1)) y1 with h2 | h2
        · rw [max_eq_right (h0.trans h2), max_eq_right h1, min_eq_left h2, min_eq_left (h2.trans hy)]
        · rcases le_total y1 (x 0) with h3 | h3
          · rw [max_eq_right h3] at h
            rw [max_eq_left h3, max_eq_right h1, min_comm _ y2]
            refine le_antisymm ?_ ?_
            · rw [min_eq_right h0]; exact le_min h1 h0
            · rw [min_eq_right h0]; exact h
          · rw [max_eq_left h3] at h
            rw [max_eq_right h3, max_eq_right h1, min_eq_right h2, min_comm _ y2]
            exact le_antisymm (le_min hy h2) h
    · intro hab
      have ha0 : x 0 ≤ max y1 (x 0) := le_max_right _ _
      have hb0 : min y2 (x (size - 1)) ≤ x (size - 1) := min_le_right _ _
      have r1 : restrict (x 0) (x (size - 1)) y1 = max y1 (x 0) := by
        rw [restrict, max_comm, min_eq_right]; exact hab.le.trans hb0
      have r2 : restrict (x 0) (x (size - 1)) y2 = min y2 (x (size - 1)) := by
        rw [restrict, max_eq_right, min_comm]
        exact (ha0.trans hab.le).trans (min_le_left _ _)
      refine ⟨r1, r2, ?_⟩
      generalize max y1 (x 0) = a at *
      generalize min y2 (x (size - 1)) = b at *
      obtain ⟨i1, i2, e, h12, h2, a2, a3, b2, b3⟩ := segRange_spec hg hs ha0 hab hb0
      obtain ⟨s1, s2, s3⟩ := seg_bounds hg h2 hab a2 a3 b2 b3 h12
      refine ⟨(i1, i2), e, ?_⟩
      have hfold : (List.range' i1 (i2 - i1)).foldl (fun result i =>
          let xleft := max (x i) a
          let dx := min (x (i + 1)) b - xleft
          (List.range ((N + n) / 2 + 1)).foldl (fun result k =>
            let t := xleft + lit ((points ((N + n) / 2 + 1)).getD k 0) * dx
            result + S t * t ^ n * dx * lit ((weights ((N + n) / 2 + 1)).getD k 0)) result) 0 =
          ∑ i ∈ Finset.Ico i1 i2, segGL ((N + n) / 2 + 1) (fun t => S t * t ^ n) (restrict a b (x i)) (restrict a b (x (i + 1))) := by
        have inner : ∀ (result : ℝ) (i : ℕ), (List.range ((N + n) / 2 + 1)).foldl (fun result k =>
            result + S (max (x i) a + lit ((points ((N + n) / 2 + 1)).getD k 0) * (min (x (i + 1)) b - max (x i) a)) *
              (max (x i) a + lit ((points ((N + n) / 2 + 1)).getD k 0) * (min (x (i + 1)) b - max (x i) a)) ^ n *
              (min (x (i + 1)) b - max (x i) a) * lit ((weights ((N + n) / 2 + 1)).getD k 0)) result =
            result + segGL ((N + n) / 2 + 1) (fun t => S t * t ^ n) (max (x i) a) (min (x (i + 1)) b) := by
          intro result i
          rw [foldl_add_sum, segGL, List.range_eq_range', range'_sum, zero_add, ← Finset.range_eq_Ico]
        simp only [inner]
        rw [foldl_add_sum, zero_add, range'_sum, show i1 + (i2 - i1) = i2 by omega]
        apply Finset.sum_congr rfl
        intro i hi
        rw [Finset.mem_Ico] at hi
        rw [(s3 i hi.1 hi.2).1, (s3 i hi.1 hi.2).2.1]
      show |(List.range' i1 (i2 - i1)).foldl _ 0 - _| ≤ _
      rw [hfold]
      have poly : ∀ i, i1 ≤ i → i < i2 → ∀ t, restrict a b (x i) ≤ t → t ≤ restrict a b (x (i + 1)) →
          S t * t ^ n = (P i * Polynomial.X ^ n).eval t := by
        intro i hi1 hi2 t t0 t1
        obtain ⟨_, _, _, c1, c2⟩ := s3 i hi1 hi2
        rw [(hP i (by omega)).2 t (c1.trans t0) (t1.trans c2)]; simp
      have hii : ∀ i, i1 ≤ i → i < i2 → IntervalIntegrable (fun t => S t * t ^ n) MeasureTheory.volume (restrict a b (x i)) (restrict a b (x (i + 1))) := by
        intro i hi1 hi2
        have hle := (s3 i hi1 hi2).2.2.1
        apply ContinuousOn.intervalIntegrable
        rw [Set.uIcc_of_le hle]
        exact ((P i * Polynomial.X ^ n).continuous.continuousOn).congr (fun t ht => poly i hi1 hi2 t ht.1 ht.2)
      have hsum : ∫ t in a..b, S t * t ^ n = ∑ i ∈ Finset.Ico i1 i2, ∫ t in restrict a b (x i)..restrict a b (x (i + 1)), S t * t ^ n := by
        have := intervalIntegral.sum_integral_adjacent_intervals_Ico (f := fun t => S t * t ^ n) (μ := MeasureTheory.volume)
          (a := fun i => restrict a b (x i)) h12.le (fun i hi => hii i hi.1 hi.2)
        rw [this, s1, s2]
      rw [hsum, ← Finset.sum_sub_distrib]
      refine (Finset.abs_sum_le_sum_abs _ _).trans ?_
      rw [Finset.mul_sum]
      refine (Finset.sum_le_sum (g := fun i => 2 / 10 ^ 16 * ((restrict a b (x (i + 1)) - restrict a b (x i)) *
          coeffNorm (P i * Polynomial.X ^ n) (restrict a b (x i)) (restrict a b (x (i + 1))))) ?_).trans ?_
      · intro i hi
        rw [Finset.mem_Ico] at hi
        obtain ⟨_, _, c0, c1, c2⟩ := s3 i hi.1 hi.2
        have hdeg : (P i * Polynomial.X ^ n).natDegree < 2 * ((N + n) / 2 + 1) := by
          refine lt_of_le_of_lt (Polynomial.natDegree_mul_le) ?_
          rw [Polynomial.natDegree_X_pow]
          have := (hP i (by omega)).1
          omega
        refine (segGL_bound _ (by omega) (by omega) _ hdeg _ _ _ c0 (poly i hi.1 hi.2)).trans ?_
        rw [mul_assoc]
      · apply Finset.sum_le_sum_of_subset_of_nonneg
        · intro i hi
          rw [Finset.mem_Ico] at hi
          exact Finset.mem_range.2 (by omega)
        · intro i hi _
          exact mul_nonneg (by norm_num) (mul_nonneg (sub_nonneg.2 (restrict_mono _ _ (xm i
            (by have := Finset.mem_range.1 hi; omega)))) (cn _ _ _))
  rw [integratePiecewise]
  simp only [clipped]
  rw [if_neg (show ¬ size < 2 by omega)]
  by_cases hx : x1 > x2
  · simp only [if_pos hx, decide_eq_true hx, if_true]
    obtain ⟨c1, c2⟩ := core x2 x1 (le_of_lt hx) _ _ rfl rfl
    rw [min_eq_right (le_of_lt hx), max_eq_left (le_of_lt hx)]
    by_cases hab : max x2 (x 0) ≥ min x1 (x (size - 1))
    · rw [if_pos hab]
      refine ⟨0, rfl, ?_⟩
      rw [c1 hab, intervalIntegral.integral_same, sub_zero, abs_zero]
      exact rhs0 _ _ _ (fun i => cn _ _ _)
    · obtain ⟨e1, e2, r, hr, hb⟩ := c2 (not_le.1 hab)
      rw [if_neg hab, hr, e1, e2]
      refine ⟨_, rfl, ?_⟩
      rw [intervalIntegral.integral_symm, sub_neg_eq_add, neg_add_eq_sub, abs_sub_comm]
      exact hb
  · simp only [if_neg hx, decide_eq_false hx]
    obtain ⟨c1, c2⟩ := core x1 x2 (not_lt.1 hx) _ _ rfl rfl
    rw [min_eq_left (not_lt.1 hx), max_eq_right (not_lt.1 hx)]
    by_cases hab : max x1 (x 0) ≥ min x2 (x (size - 1))
    · rw [if_pos hab]
      refine ⟨0, rfl, ?_⟩
      rw [c1 hab, intervalIntegral.integral_same, sub_zero, abs_zero]
      exact rhs0 _ _ _ (fun i => cn _ _ _)
    · obtain ⟨e1, e2, r, hr, hb⟩ := c2 (not_le.1 hab)
      rw [if_neg hab, hr, e1, e2]
      exact ⟨_, rfl, hb⟩

/-- C73 for CubicSpline (whatever its constructor): the routine integrates the spline itself. -/
theorem C73_cubic (n : ℕ) (hN : (3 + n) / 2 < 20) (x f d : ℕ → ℝ) (size : ℕ) (hg : Grid x size) (hs : 2 ≤ size) (x1 x2 : ℝ) :
    ∃ S : ℝ → Jet3, (∀ t, CubicSpline.evalDeriv x f d size t = some (S t)) ∧ ∃ P : ℕ → Polynomial ℝ,
      (∀ i, i + 1 < size → (P i).natDegree ≤ 3 ∧ ∀ t, x i ≤ t → t ≤ x (i + 1) → (S t).val = (P i).eval t) ∧
      ∃ r, integratePiecewise 3 x size (fun t => (S t).val) x1 x2 n = some r ∧
      |r - ∫ t in restrict (x 0) (x (size - 1)) x1..restrict (x 0) (x (size - 1)) x2, (S t).val * t ^ n| ≤
        2 / 10 ^ 16 * ∑ i ∈ Finset.range (size - 1), (clipped x size x1 x2 (i + 1) - clipped x size x1 x2 i) *
          coeffNorm (P i * Polynomial.X ^ n) (clipped x size x1 x2 i) (clipped x size x1 x2 (i + 1)) := by
  obtain ⟨S, h1, h2⟩ := C69_cubic x f d size hg (by omega)
  have h3 : ∀ i, ∃ p : Polynomial ℝ, i + 1 < size → p.natDegree ≤ 3 ∧ ∀ t, x i ≤ t → t ≤ x (i + 1) → (S t).val = p.eval t := by
    intro i
    by_cases hi : i + 1 < size
    · obtain ⟨p, a, b⟩ := h2.poly i hi
      exact ⟨p, fun _ => ⟨a, b⟩⟩
    · exact ⟨0, fun h => absurd h hi⟩
  choose P hP using h3
  exact ⟨S, h1, P, hP, C73_integrate 3 n hN x size hg hs _ P hP x1 x2⟩

/-- Non-vacuity: t² tabulated on the grid 0,1,2, with reversed limits reaching outside of the grid. -/
example : ∃ r, integratePiecewise 2 (fun i => i) 3 (fun t => t ^ 2) 5 (1 / 2) 1 = some r := by
  obtain ⟨r, h, _⟩ := C73_integrate 2 1 (by norm_num) (fun i => i) 3 (fun i j h _ => Nat.cast_lt.2 h) (by norm_num) (fun t => t ^ 2)
    (fun _ => Polynomial.X ^ 2) (fun i _ => ⟨by simp, fun t _ _ => by simp⟩) 5 (1 / 2)
  exact ⟨r, h⟩

end
end Verif.Spline
