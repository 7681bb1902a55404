import Mathlib.Algebra.Polynomial.Taylor
import Mathlib.MeasureTheory.Integral.DivergenceTheorem
import Verif.Spline.Roots

/-! B-spline interpolators (/repo/src/math_spline.cpp:1721-1942 and 1279-1303): evaluation, derivatives and antiderivatives in
terms of amplitudes, conversion into cubic splines; C76. Exact real arithmetic. -/
namespace Verif.Spline

open Verif.BSpline (Grid values derivs node denom cox knots values_cox C50_derivative C50_continuity derivs_succ values_sum)
open Polynomial

noncomputable section

/-! ## Model -/

/-- the loops `for(i=0; i<=N; i++) sum += bspl[i] * ampl[i+ind]`, math_spline.cpp:1747-1748, 1754-1755, 1881-1882 -/
def combine (N : ℕ) (bspl ampl : ℕ → ℝ) (ind : ℕ) : ℝ :=
  (List.range (N + 1)).foldl (fun s i => s + bspl i * ampl (i + ind)) 0

/-- math_spline.cpp:1734-1775 (BsplineWrapper<N>::evalDeriv): the d-th output (d=0 value, 1..3 derivatives); `none` is NaN. -/
def BsplineWrapper.evalDeriv (N d : ℕ) (x ampl : ℕ → ℝ) (size : ℕ) (t : ℝ) : Option ℝ :=
  let ind := bin x size t
  if ind < 0 ∨ ind ≥ (size : ℤ) - 1 then none else
  some (if d ≤ N then combine N (derivs N d t ind.toNat x size) ampl ind.toNat else 0)

/-- math_spline.cpp:1863-1872 (BsplineInterpolator1d<N>::nonzeroComponents): the index and the values. -/
def nonzeroComponents (N : ℕ) (x : ℕ → ℝ) (size : ℕ) (t : ℝ) (derivOrder : ℕ) : ℕ × (ℕ → ℝ) :=
  let ind := bin x size t
  if ind < 0 ∨ ind ≥ (size : ℤ) - 1 ∨ derivOrder > N then (if ind < 0 then 0 else size - 2, fun _ => 0)
  else (ind.toNat, derivs N derivOrder t ind.toNat x size)

/-- math_spline.cpp:1875-1886 (interpolate; the length of the array of amplitudes is assumed to be right). -/
def interpolate (N : ℕ) (x ampl : ℕ → ℝ) (size : ℕ) (t : ℝ) (derivOrder : ℕ) : ℝ :=
  if derivOrder > N then 0 else
  let c := nonzeroComponents N x size t derivOrder
  combine N c.2 ampl c.1

/-- math_spline.cpp:1889-1898 (eval): `none` stands for a write outside of the local array `bspl` of N+1 elements (elements ind..ind+N
are written), otherwise the contents of `values`. -/
def evalBasis (_N : ℕ) (x : ℕ → ℝ) (size : ℕ) (t : ℝ) : Option (ℕ → ℝ) :=
  let values : ℕ → ℝ := fun _ => 0
  let ind := bin x size t
  if ind < 0 ∨ ind ≥ (size : ℤ) - 1 then some values else
  if ind = 0 then some values else none

/-- math_spline.cpp:1901-1910 (addPoint) -/
def addPoint (N : ℕ) (x : ℕ → ℝ) (size : ℕ) (t mult : ℝ) (vals : ℕ → ℝ) : ℕ → ℝ :=
  let ind := bin x size t
  if ind < 0 ∨ ind ≥ (size : ℤ) - 1 then vals else
  let bspl := values N t ind.toNat x size
  (List.range (N + 1)).foldl (fun v i => Function.update v (i + ind.toNat) (v (i + ind.toNat) + mult * bspl i)) vals

/-- math_spline.cpp:1913-1923 (deriv): in place, then the last element is dropped; N is the degree, numComp=size+N-1. -/
def derivAmpl (N : ℕ) (x ampl : ℕ → ℝ) (size : ℕ) : ℕ → ℝ :=
  (List.range (size + N - 1 - 1)).foldl (fun result i => Function.update result i
    (N * (result (i + 1) - result i) * denom x size ((i : ℤ) - N + 1) ((i : ℤ) + 1))) ampl

/-- math_spline.cpp:1926-1935 (antideriv) -/
def antiderivAmpl (N : ℕ) (x ampl : ℕ → ℝ) (size : ℕ) : ℕ → ℝ :=
  (List.range (size + N - 1)).foldl (fun result i => Function.update result (i + 1)
    (result i + ampl i / ((N : ℝ) + 1) / denom x size ((i : ℤ) - N) ((i : ℤ) + 1))) (fun _ => 0)

/-- math_spline.cpp:1279-1303: values and slopes at nodes of the cubic spline constructed from amplitudes of B-splines of degree 2 or 3. -/
def cubicFromAmpl (degree : ℕ) (x ampl : ℕ → ℝ) (size : ℕ) : (ℕ → ℝ) × (ℕ → ℝ) :=
  (fun i => combine degree (values degree (x i) (min i (size - 2)) x size) ampl (min i (size - 2)),
   fun i => combine degree (derivs degree 1 (x i) (min i (size - 2)) x size) ampl (min i (size - 2)))

/-! ## Sums and polynomials -/

theorem combine_eq (N : ℕ) (b a : ℕ → ℝ) (ind : ℕ) : combine N b a ind = ∑ i ∈ Finset.range (N + 1), b i * a (i + ind) := by
  rw [combine, foldl_add_sum, zero_add]
  have := range'_sum 0 (N + 1) (fun i => b i * a (i + ind))
  rw [← List.range_eq_range', zero_add, Nat.Ico_zero_eq_range] at this
  exact this

/-- The Cox-de Boor recursion as a polynomial. -/
def coxPoly (τ : ℤ → ℝ) (ind : ℤ) : ℕ → ℤ → ℝ[X]
  | 0, j => if j = ind then 1 else 0
  | l + 1, j => C (1 / (τ (j + l + 1) - τ j)) * (X - C (τ j)) * coxPoly τ ind l j +
      C (1 / (τ (j + l + 2) - τ (j + 1))) * (C (τ (j + l + 2)) - X) * coxPoly τ ind l (j + 1)

theorem coxPoly_eval (τ : ℤ → ℝ) (ind : ℤ) (t : ℝ) (l : ℕ) (j : ℤ) : (coxPoly τ ind l j).eval t = cox τ ind t l j := by
  induction l generalizing j with
  | zero => rw [coxPoly, cox]; split <;> simp
  | succ l ih =>
    rw [coxPoly, cox]
    simp only [eval_add, eval_mul, eval_sub, eval_C, eval_X, ih]
    ring

theorem coxPoly_degree (τ : ℤ → ℝ) (ind : ℤ) (l : ℕ) (j : ℤ) : (coxPoly τ ind l j).natDegree ≤ l := by
  induction l generalizing j with
  | zero => rw [coxPoly]; split <;> simp
  | succ l ih =>
    rw [coxPoly]
    refine natDegree_add_le_of_degree_le ?_ ?_
    · refine natDegree_mul_le.trans ?_
      have h1 : (C (1 / (τ (j + l + 1) - τ j)) * (X - C (τ j)) : ℝ[X]).natDegree ≤ 1 :=
        (natDegree_C_mul_le _ _).trans (natDegree_X_sub_C_le _)
      have := ih j
      omega
    · refine natDegree_mul_le.trans ?_
      have h1 : (C (1 / (τ (j + l + 2) - τ (j + 1))) * (C (τ (j + l + 2)) - X) : ℝ[X]).natDegree ≤ 1 := by
        refine (natDegree_C_mul_le _ _).trans ?_
        rw [← neg_sub, natDegree_neg]
        exact natDegree_X_sub_C_le _
      have := ih (j + 1)
      omega

/-- The polynomial that a B-spline with given amplitudes coincides with on the segment ind. -/
def segPoly (N : ℕ) (x ampl : ℕ → ℝ) (size ind : ℕ) : ℝ[X] :=
  ∑ i ∈ Finset.range (N + 1), C (ampl (i + ind)) * coxPoly (node x size) ind N ((ind : ℤ) - N + i)

theorem segPoly_degree (N : ℕ) (x ampl : ℕ → ℝ) (size ind : ℕ) : (segPoly N x ampl size ind).natDegree ≤ N := by
  apply natDegree_sum_le_of_forall_le
  intro i _
  exact (natDegree_C_mul_le _ _).trans (coxPoly_degree _ _ _ _)

theorem combine_derivs {x : ℕ → ℝ} {size ind : ℕ} (hg : Grid x size) (hi : ind + 1 < size) (N d : ℕ) (hd : d ≤ N) (ampl : ℕ → ℝ) (t : ℝ) :
    combine N (derivs N d t ind x size) ampl ind = (derivative^[d] (segPoly N x ampl size ind)).eval t := by
  induction d generalizing t with
  | zero =>
    rw [combine_eq, Function.iterate_zero, id, segPoly, eval_finsetSum]
    apply Finset.sum_congr rfl
    intro i hi'
    rw [Finset.mem_range] at hi'
    rw [eval_mul, eval_C, coxPoly_eval, derivs, values_cox hg hi N t i (by omega), mul_comm]
  | succ d ih =>
    have h1 : HasDerivAt (fun t => combine N (derivs N d t ind x size) ampl ind) (combine N (derivs N (d + 1) t ind x size) ampl ind) t := by
      simp only [combine_eq]
      apply HasDerivAt.fun_sum
      intro i hi'
      rw [Finset.mem_range] at hi'
      exact (C50_derivative d N (by omega) x size ind hg hi t i (by omega)).mul_const _
    have h2 : HasDerivAt (fun t => combine N (derivs N d t ind x size) ampl ind) ((derivative^[d + 1] (segPoly N x ampl size ind)).eval t) t := by
      have : (fun t => combine N (derivs N d t ind x size) ampl ind) = fun t => (derivative^[d] (segPoly N x ampl size ind)).eval t := by
        funext s; exact ih (by omega) s
      rw [this, Function.iterate_succ_apply']
      exact Polynomial.hasDerivAt _ _
    exact h1.unique h2

/-- The polynomials of adjacent segments agree at the common node together with derivatives of order less than N. -/
theorem segPoly_node {x : ℕ → ℝ} {size ind : ℕ} (hg : Grid x size) (hi : ind + 2 < size) (N d : ℕ) (hd : d < N) (ampl : ℕ → ℝ) :
    (derivative^[d] (segPoly N x ampl size ind)).eval (x (ind + 1)) =
      (derivative^[d] (segPoly N x ampl size (ind + 1))).eval (x (ind + 1)) := by
  rw [← combine_derivs hg (by omega) N d hd.le, ← combine_derivs hg (by omega) N d hd.le, combine_eq, combine_eq]
  obtain ⟨h1, h2, h3⟩ := C50_continuity d N hd x size ind hg hi
  rw [Finset.sum_range_succ', Finset.sum_range_succ, h2, h3]
  simp only [zero_mul, add_zero]
  apply Finset.sum_congr rfl
  intro i hi'
  rw [Finset.mem_range] at hi'
  rw [h1 i hi', show i + 1 + ind = i + (ind + 1) by ring]

/-! ## C76: evaluation -/

/-- the segment used for extension -/
def segOf (size k : ℕ) : ℕ := if k = 0 then 0 else if k = size then size - 2 else k - 1

/-- Evaluation inside and outside of the grid. -/
theorem eval_cases {x : ℕ → ℝ} {size : ℕ} (hg : Grid x size) (hs : 2 ≤ size) (N d : ℕ) (hd : d ≤ N) (ampl : ℕ → ℝ) (t : ℝ) :
    (t < x 0 ∨ x (size - 1) < t → BsplineWrapper.evalDeriv N d x ampl size t = none) ∧
    (x 0 ≤ t → t ≤ x (size - 1) → ∃ i, i + 1 < size ∧ x i ≤ t ∧ t ≤ x (i + 1) ∧ bin x size t = i ∧
      BsplineWrapper.evalDeriv N d x ampl size t = some ((derivative^[d] (segPoly N x ampl size i)).eval t)) := by
  constructor
  · rintro h
    rw [BsplineWrapper.evalDeriv, if_pos]
    rcases bin_cases hg (by omega) t with ⟨_, e⟩ | ⟨_, e⟩ | ⟨h1, _⟩ | ⟨k, hk, h1, h2, _⟩
    · left; rw [e]; norm_num
    · right; rw [e]
    · omega
    · exfalso
      have a := Grid.le hg (show 0 ≤ k by omega) (by omega)
      have b := Grid.le hg (show k + 1 ≤ size - 1 by omega) (by omega)
      rcases h with h | h <;> linarith
  · intro h1 h2
    obtain ⟨i, e, a, b, c, _⟩ := bin_inside hg hs h1 h2
    refine ⟨i, a, b, c, e, ?_⟩
    rw [BsplineWrapper.evalDeriv, e, if_neg (by omega), if_pos hd, Int.toNat_natCast, combine_derivs hg a N d hd]

/-- C76: the interpolator of degree N with any amplitudes returns NaN outside the grid; inside, the outputs are some functions S d (d=0:
the value) such that: on each segment S 0 is a polynomial of degree at most N; each S d for d<N is continuous; S (d+1) is the derivative
of S d at all points if d+1 < N, and at all points other than nodes if d+1=N; outputs of order above N are zero; the values
lie between the smallest and the largest amplitude. -/
theorem C76_bspline (N : ℕ) (x ampl : ℕ → ℝ) (size : ℕ) (hg : Grid x size) (hs : 2 ≤ size) :
    (∀ t d, t < x 0 ∨ x (size - 1) < t → BsplineWrapper.evalDeriv N d x ampl size t = none) ∧
    ∃ (S : ℕ → ℝ → ℝ) (P : ℕ → ℝ[X]),
      (∀ t d, x 0 ≤ t → t ≤ x (size - 1) → BsplineWrapper.evalDeriv N d x ampl size t = some (S d t)) ∧
      (∀ i, i + 1 < size → (P i).natDegree ≤ N) ∧
      (∀ i, i + 1 < size → ∀ t, x i ≤ t → t < x (i + 1) ∨ t = x (i + 1) ∧ (i + 2 = size ∨ 1 ≤ N) → S 0 t = (P i).eval t) ∧
      (∀ d t, d < N → ContinuousAt (S d) t) ∧
      (∀ d t, d + 1 < N → HasDerivAt (S d) (S (d + 1) t) t) ∧
      (∀ d t, d + 1 = N → (∀ i < size, t ≠ x i) → HasDerivAt (S d) (S (d + 1) t) t) ∧
      (∀ d t, N < d → S d t = 0) ∧
      ∀ t a b, x 0 ≤ t → t ≤ x (size - 1) → (∀ i, i < size + N - 1 → a ≤ ampl i ∧ ampl i ≤ b) → a ≤ S 0 t ∧ S 0 t ≤ b := by
  constructor
  · intro t d h
    have := (eval_cases hg hs N 0 (by omega) ampl t).1 h
    rw [BsplineWrapper.evalDeriv] at this ⊢
    split at this
    · rw [if_pos (by assumption)]
    · cases this
  -- the pieces
  set pieces : ℕ → ℕ → ℝ → Jet3 := fun d k t => ⟨(derivative^[d] (segPoly N x ampl size (segOf size k))).eval t, 0, 0, 0⟩ with hp
  -- the choice of a piece
  have hch : ∀ t, ∃ k, InPiece x size k t ∧ (x 0 ≤ t → t ≤ x (size - 1) → bin x size t = segOf size k ∧ segOf size k + 1 < size ∧
      x (segOf size k) ≤ t ∧ t ≤ x (segOf size k + 1)) := by
    intro t
    rcases bin_cases hg (by omega) t with ⟨h, e⟩ | ⟨h, e⟩ | ⟨h1, _⟩ | ⟨k, hk, h1, h2, _, e⟩
    · exact ⟨0, ⟨by omega, fun h' => absurd h' (lt_irrefl _), fun _ => h.le⟩, fun h' => absurd h' (not_le.2 h)⟩
    · exact ⟨size, ⟨le_rfl, fun _ => h.le, fun h' => absurd h' (lt_irrefl _)⟩, fun _ h' => absurd h' (not_le.2 h)⟩
    · omega
    · refine ⟨k + 1, ⟨by omega, fun _ => h1, fun _ => h2⟩, fun _ _ => ?_⟩
      rw [segOf, if_neg (by omega), if_neg (by omega), Nat.add_sub_cancel]
      exact ⟨e, hk, h1, h2⟩
  choose K hK1 hK2 using hch
  set S : ℕ → ℝ → ℝ := fun d t => (derivative^[d] (segPoly N x ampl size (segOf size (K t)))).eval t with hS
  have hpick : ∀ d t, ∃ k, InPiece x size k t ∧ (fun t => (⟨S d t, 0, 0, 0⟩ : Jet3)) t = pieces d k t := fun d t => ⟨K t, hK1 t, rfl⟩
  -- pieces agree at nodes
  have hag : ∀ d, d < N → ∀ i < size, (pieces d i (x i)).val = (pieces d (i + 1) (x i)).val := by
    intro d hd i hi
    simp only [hp]
    by_cases h0 : i = 0
    · subst h0
      rw [show segOf size 0 = segOf size (0 + 1) by rw [segOf, segOf, if_pos rfl, if_neg (by omega), if_neg (by omega)]]
    · by_cases h1 : i + 1 = size
      · rw [show segOf size i = segOf size (i + 1) by
          rw [segOf, segOf, if_neg (by omega), if_neg (by omega), if_neg (by omega), if_pos h1]; omega]
      · rw [show segOf size i = i - 1 by rw [segOf, if_neg (by omega), if_neg (by omega)],
          show segOf size (i + 1) = i - 1 + 1 by rw [segOf, if_neg (by omega), if_neg (by omega)]; omega]
        have := segPoly_node hg (show i - 1 + 2 < size by omega) N d hd ampl
        rw [show i - 1 + 1 = i by omega] at this ⊢
        exact this
  have hval : ∀ d t, d < N → ∀ k, InPiece x size k t → S d t = (derivative^[d] (segPoly N x ampl size (segOf size k))).eval t := by
    intro d t hd k hk
    have := agree hg (hpick d) Jet3.val (t := t) (by rintro i hi rfl; exact hag d hd i hi) hk
    exact this
  refine ⟨S, fun i => segPoly N x ampl size i, ?_, fun i _ => segPoly_degree _ _ _ _ _, ?_, ?_, ?_, ?_, ?_, ?_⟩
  · intro t d h1 h2
    obtain ⟨e, a, b, c⟩ := hK2 t h1 h2
    by_cases hd : d ≤ N
    · rw [BsplineWrapper.evalDeriv, e, if_neg (by omega), if_pos hd, Int.toNat_natCast, combine_derivs hg a N d hd]
    · rw [BsplineWrapper.evalDeriv, e, if_neg (by omega), if_neg hd, hS]
      simp only
      rw [iterate_derivative_eq_zero (lt_of_le_of_lt (segPoly_degree _ _ _ _ _) (by omega)), eval_zero]
  · intro i hi t h1 h2
    rcases h2 with h2 | ⟨h2, h3⟩
    · have l1 := Grid.le hg (show 0 ≤ i by omega) (by omega)
      have l2 := Grid.le hg (show i + 1 ≤ size - 1 by omega) (by omega)
      obtain ⟨e, a, b, c⟩ := hK2 t (by linarith) (by linarith)
      have : segOf size (K t) = i := by
        have c : t ≠ x (segOf size (K t) + 1) := by
          intro hc
          rcases bin_cases hg (by omega) t with ⟨h, _⟩ | ⟨h, _⟩ | ⟨h, _⟩ | ⟨k, hk, q1, q2, q3, e'⟩
          · linarith
          · linarith
          · omega
          · rw [e] at e'
            have e' : segOf size (K t) = k := by exact_mod_cast e'
            rw [e'] at hc
            have := q3 hc
            rw [hc] at h2
            have := index_mono hg hk hi h2
            omega
        have c' := lt_of_le_of_ne (by assumption) c
        have u1 := index_mono hg (show segOf size (K t) < size by omega) hi (lt_of_le_of_lt b h2)
        have u2 := index_mono hg (show i < size by omega) a (lt_of_le_of_lt h1 c')
        omega
      simp only [hS, this, Function.iterate_zero, id]
    · rcases h3 with h3 | h3
      · have l1 := Grid.le hg (show 0 ≤ i by omega) (by omega)
        obtain ⟨e, a, b, c⟩ := hK2 t (by linarith) (by rw [h2, show size - 1 = i + 1 by omega])
        have : segOf size (K t) = i := by
          by_contra hne
          have := hg (segOf size (K t) + 1) (i + 1) (by omega) hi
          linarith
        simp only [hS, this, Function.iterate_zero, id]
      · rw [hval 0 t (by omega) (i + 1) ⟨by omega, fun _ => h1, fun _ => h2.le⟩]
        rw [segOf, if_neg (by omega), if_neg (by omega), Nat.add_sub_cancel]; rfl
  · intro d t hd
    refine glue_continuous hg (by omega) (hpick d) Jet3.val (by rintro i hi rfl; exact hag d hd i hi) ?_
    intro k _
    exact (Polynomial.continuous _).continuousAt
  · intro d t hd
    refine glue hg (by omega) (hpick d) Jet3.val (by rintro i hi rfl; exact hag d (by omega) i hi) ?_
    intro k hk
    rw [hval (d + 1) t (by omega) k hk, Function.iterate_succ_apply']
    exact Polynomial.hasDerivAt _ _
  · intro d t hd hn
    refine glue hg (by omega) (hpick d) Jet3.val (by rintro i hi rfl; exact hag d (by omega) i hi) ?_
    intro k hk
    have : S (d + 1) t = (derivative^[d + 1] (segPoly N x ampl size (segOf size k))).eval t := by
      have := agree hg (hpick (d + 1)) Jet3.val (t := t) (by intro i hi e; exact absurd e (hn i hi)) hk
      exact this
    rw [this, Function.iterate_succ_apply']
    exact Polynomial.hasDerivAt _ _
  · intro d t hd
    simp only [hS]
    rw [iterate_derivative_eq_zero (lt_of_le_of_lt (segPoly_degree _ _ _ _ _) hd), eval_zero]
  · intro t a b h1 h2 hab
    obtain ⟨e, q1, q2, q3⟩ := hK2 t h1 h2
    have e0 : S 0 t = ∑ i ∈ Finset.range (N + 1), values N t (segOf size (K t)) x size i * ampl (i + segOf size (K t)) := by
      have := combine_derivs hg q1 N 0 (by omega) ampl t
      rw [combine_eq] at this
      simp only [hS]
      rw [← this, derivs]
    rw [e0]
    obtain ⟨p1, p2⟩ := Verif.BSpline.C37_partition_of_unity N x size (segOf size (K t)) t hg q1 q2 q3
    constructor
    · calc a = ∑ i ∈ Finset.range (N + 1), values N t (segOf size (K t)) x size i * a := by rw [← Finset.sum_mul, p2, one_mul]
        _ ≤ _ := Finset.sum_le_sum fun i hi' => by
          rw [Finset.mem_range] at hi'
          exact mul_le_mul_of_nonneg_left (hab _ (by omega)).1 (p1 i (by omega))
    · calc _ ≤ ∑ i ∈ Finset.range (N + 1), values N t (segOf size (K t)) x size i * b := Finset.sum_le_sum (fun i hi' =>
              mul_le_mul_of_nonneg_left (hab _ (by rw [Finset.mem_range] at hi'; omega)).2 (p1 i (by rw [Finset.mem_range] at hi'; omega)))
        _ = b := by rw [← Finset.sum_mul, p2, one_mul]

/-- C76: `BsplineInterpolator1d::interpolate` returns the same as `BsplineWrapper::evalDeriv`, except that it is zero instead of NaN outside the grid. -/
theorem C76_interpolate (N d : ℕ) (x ampl : ℕ → ℝ) (size : ℕ) (t : ℝ) :
    interpolate N x ampl size t d = (BsplineWrapper.evalDeriv N d x ampl size t).getD 0 := by
  have zero : ∀ ind, combine N (fun _ => 0) ampl ind = 0 := by intro ind; rw [combine_eq]; simp
  rw [interpolate, BsplineWrapper.evalDeriv]
  by_cases hd : d > N
  · rw [if_pos hd]
    split
    · rfl
    · rw [if_neg (by omega)]; rfl
  · rw [if_neg hd]
    simp only [nonzeroComponents]
    by_cases h : bin x size t < 0 ∨ bin x size t ≥ (size : ℤ) - 1
    · rw [if_pos (by omega), if_pos h]; exact zero _
    · rw [if_neg (by omega), if_neg h, if_pos (by omega)]; rfl

/-- C76: `BsplineInterpolator1d::nonzeroComponents`: the N+1 values starting at the returned index, all within the range of basis functions, are what
the amplitudes have to be multiplied by to get the given derivative of the interpolant at this point, whatever the amplitudes; in particular they are all zero
for derivatives of order higher than the degree. -/
theorem C76_nonzeroComponents (N d : ℕ) (x : ℕ → ℝ) (size : ℕ) (hs : 2 ≤ size) (t : ℝ) :
    (nonzeroComponents N x size t d).1 + N < size + N - 1 ∧
    (∀ ampl : ℕ → ℝ, ∑ i ∈ Finset.range (N + 1), (nonzeroComponents N x size t d).2 i * ampl (i + (nonzeroComponents N x size t d).1) =
      (BsplineWrapper.evalDeriv N d x ampl size t).getD 0) ∧
    (N < d → ∀ i, (nonzeroComponents N x size t d).2 i = 0) := by
  have zero : ∀ ampl ind, combine N (fun _ => 0) ampl ind = 0 := by intro ampl ind; rw [combine_eq]; simp
  refine ⟨?_, fun ampl => ?_, fun hd i => ?_⟩
  · rw [nonzeroComponents]
    by_cases h : bin x size t < 0 ∨ bin x size t ≥ (size : ℤ) - 1 ∨ d > N
    · rw [if_pos h]
      dsimp only
      split_ifs <;> omega
    · rw [if_neg h]
      dsimp only
      omega
  · rw [← combine_eq, BsplineWrapper.evalDeriv, nonzeroComponents]
    by_cases h : bin x size t < 0 ∨ bin x size t ≥ (size : ℤ) - 1
    · rw [if_pos (by omega), if_pos h]; exact zero _ _
    · by_cases hd : d ≤ N
      · rw [if_neg (by omega), if_neg h, if_pos hd]; rfl
      · rw [if_pos (by omega), if_neg h, if_neg hd]; exact zero _ _
  · rw [nonzeroComponents, if_pos (by omega)]

theorem update_fold_sum (m : ℕ) (ind : ℕ) (g : ℕ → ℝ) (v : ℕ → ℝ) (j : ℕ) :
    ((List.range m).foldl (fun v i => Function.update v (i + ind) (v (i + ind) + g i)) v) j =
      v j + if ind ≤ j ∧ j < ind + m then g (j - ind) else 0 := by
  induction m with
  | zero => rw [List.range_zero, List.foldl_nil, if_neg (by omega), add_zero]
  | succ m ih =>
    rw [List.range_succ, List.foldl_append, List.foldl_cons, List.foldl_nil]
    by_cases h : j = m + ind
    · subst h
      rw [Function.update_self, ih, if_neg (by omega), if_pos (by omega), Nat.add_sub_cancel, add_zero]
    · rw [Function.update_of_ne h, ih]
      by_cases h2 : ind ≤ j ∧ j < ind + m
      · rw [if_pos h2, if_pos (by omega)]
      · rw [if_neg h2, if_neg (by omega)]

/-- C76: `addPoint` is the adjoint of interpolation: for any amplitudes, the sum of accumulated values multiplied by the amplitudes increases
by mult times the value of the interpolator at the point (nothing if it is outside the grid); elements beyond the array are not touched. -/
theorem C76_addPoint (N : ℕ) (x : ℕ → ℝ) (size : ℕ) (t mult : ℝ) (vals : ℕ → ℝ) :
    (∀ ampl : ℕ → ℝ, ∑ j ∈ Finset.range (size + N - 1), addPoint N x size t mult vals j * ampl j =
      ∑ j ∈ Finset.range (size + N - 1), vals j * ampl j + mult * interpolate N x ampl size t 0) ∧
    ∀ j, size + N - 1 ≤ j → addPoint N x size t mult vals j = vals j := by
  by_cases h : bin x size t < 0 ∨ bin x size t ≥ (size : ℤ) - 1
  · have e : addPoint N x size t mult vals = vals := by rw [addPoint, if_pos h]
    rw [e]
    refine ⟨fun ampl => ?_, fun _ _ => rfl⟩
    rw [C76_interpolate N 0 x ampl size, BsplineWrapper.evalDeriv, if_pos h]; simp
  · push Not at h
    obtain ⟨ind, hind⟩ := Int.eq_ofNat_of_zero_le h.1
    have hi : ind + 1 < size := by omega
    have e : ∀ j, addPoint N x size t mult vals j = vals j + if ind ≤ j ∧ j < ind + (N + 1) then mult * values N t ind x size (j - ind) else 0 := by
      intro j
      rw [addPoint, if_neg (by omega), hind]
      exact update_fold_sum (N + 1) ind (fun i => mult * values N t ind x size i) vals j
    constructor
    · intro ampl
      rw [C76_interpolate N 0 x ampl size, BsplineWrapper.evalDeriv, if_neg (by omega), hind]
      simp only [Int.toNat_natCast, zero_le, if_true, Option.getD_some]
      rw [combine_eq, Finset.mul_sum]
      simp only [e, add_mul, Finset.sum_add_distrib]
      congr 1
      rw [← Finset.sum_subset (s₁ := Finset.Ico ind (ind + (N + 1)))]
      · rw [Finset.sum_Ico_eq_sum_range]
        simp only [Nat.add_sub_cancel_left]
        apply Finset.sum_congr rfl
        intro i hi'
        rw [Finset.mem_range] at hi'
        rw [if_pos (by omega), derivs, add_comm i ind]; ring
      · intro j hj
        rw [Finset.mem_Ico] at hj; rw [Finset.mem_range]; omega
      · intro j _ hj
        rw [Finset.mem_Ico] at hj
        rw [if_neg (by omega), zero_mul]
    · intro j hj
      rw [e, if_neg (by omega), add_zero]

/-- C76 fails for `BsplineInterpolator1d::eval`: at no point of any grid does it return the values of the basis functions (whose sum is one):
either it writes outside of a local array, or all output values are zero. -/
theorem C76_refuted_eval (N : ℕ) (x : ℕ → ℝ) (size : ℕ) (t : ℝ) :
    (∀ r, evalBasis N x size t = some r → ∑ j ∈ Finset.range (size + N - 1), r j = 0) := by
  intro r h
  rw [evalBasis] at h
  split at h
  · cases h; simp
  · split at h
    · cases h; simp
    · cases h

/-! ## Derivatives and antiderivatives in terms of amplitudes -/

theorem derivAmpl_eq (N : ℕ) (x ampl : ℕ → ℝ) (size : ℕ) (i : ℕ) (hi : i < size + N - 1 - 1) :
    derivAmpl N x ampl size i = N * (ampl (i + 1) - ampl i) * denom x size ((i : ℤ) - N + 1) ((i : ℤ) + 1) := by
  have key : ∀ m j : ℕ, ((List.range m).foldl (fun (result : ℕ → ℝ) (i : ℕ) => Function.update result i
      (N * (result (i + 1) - result i) * denom x size ((i : ℤ) - N + 1) ((i : ℤ) + 1))) ampl) j =
      if j < m then N * (ampl (j + 1) - ampl j) * denom x size ((j : ℤ) - N + 1) ((j : ℤ) + 1) else ampl j := by
    intro m
    induction m with
    | zero => intro j; simp
    | succ m ih =>
      intro j
      rw [List.range_succ, List.foldl_append, List.foldl_cons, List.foldl_nil]
      by_cases h : j = m
      · subst h
        rw [Function.update_self, ih, ih, if_neg (by omega), if_neg (by omega), if_pos (by omega)]
      · rw [Function.update_of_ne h, ih]
        by_cases h2 : j < m
        · rw [if_pos h2, if_pos (by omega)]
        · rw [if_neg h2, if_neg (by omega)]
  rw [derivAmpl, key, if_pos hi]

/-- Summation by parts on one segment. -/
theorem combine_derivAmpl {x : ℕ → ℝ} {size ind : ℕ} (hi : ind + 1 < size) (N d : ℕ) (ampl : ℕ → ℝ) (t : ℝ) :
    combine (N + 1) (derivs (N + 1) (d + 1) t ind x size) ampl ind = combine N (derivs N d t ind x size) (derivAmpl (N + 1) x ampl size) ind := by
  rw [combine_eq, combine_eq]
  set L := fun q => derivs N d t ind x size q
  set w := fun q : ℕ => ((N + 1 : ℕ) : ℝ) * denom x size ((ind : ℤ) - N + q) ((ind : ℤ) + q + 1) with hw
  have e1 : ∀ p ∈ Finset.range (N + 1 + 1), derivs (N + 1) (d + 1) t ind x size p * ampl (p + ind) =
      (if p = 0 then 0 else L (p - 1) * w (p - 1)) * ampl (p + ind) - (if p < N + 1 then L p * w p else 0) * ampl (p + ind) := by
    intro p hp
    rw [Finset.mem_range] at hp
    rw [derivs_succ N d t ind x size p (by omega)]
    have sym : ∀ a b, denom x size a b = - denom x size b a := by
      intro a b
      rw [denom, denom]
      by_cases h : node x size a = node x size b
      · rw [if_pos h, if_pos h.symm, neg_zero]
      · rw [if_neg h, if_neg (Ne.symm h), ← neg_sub, one_div_neg_eq_neg_one_div]
    by_cases h0 : p = 0
    · rw [if_pos h0, if_pos h0]
      by_cases h1 : p < N + 1
      · rw [if_pos h1, if_pos h1, sym ((ind : ℤ) - (N + 1 : ℕ) + p + (N + 1 : ℕ) + 1)]
        simp only [hw, L]
        rw [show (ind : ℤ) - ((N + 1 : ℕ) : ℤ) + p + 1 = (ind : ℤ) - N + p by push_cast; ring,
          show (ind : ℤ) - ((N + 1 : ℕ) : ℤ) + p + ((N + 1 : ℕ) : ℤ) + 1 = (ind : ℤ) + p + 1 by push_cast; ring]
        ring
      · omega
    · rw [if_neg h0, if_neg h0]
      have a1 : denom x size ((ind : ℤ) - (N + 1 : ℕ) + p) ((ind : ℤ) - (N + 1 : ℕ) + p + (N + 1 : ℕ)) =
          denom x size ((ind : ℤ) - N + (p - 1 : ℕ)) ((ind : ℤ) + (p - 1 : ℕ) + 1) := by
        congr 1 <;> (push_cast [Nat.cast_sub (show 1 ≤ p by omega)]; ring)
      by_cases h1 : p < N + 1
      · rw [if_pos h1, if_pos h1, sym ((ind : ℤ) - (N + 1 : ℕ) + p + (N + 1 : ℕ) + 1), a1]
        simp only [hw, L]
        rw [show (ind : ℤ) - ((N + 1 : ℕ) : ℤ) + p + 1 = (ind : ℤ) - N + p by push_cast; ring,
          show (ind : ℤ) - ((N + 1 : ℕ) : ℤ) + p + ((N + 1 : ℕ) : ℤ) + 1 = (ind : ℤ) + p + 1 by push_cast; ring]
        ring
      · rw [if_neg h1, if_neg h1, a1]
        simp only [hw, L]
        ring
  rw [Finset.sum_congr rfl e1, Finset.sum_sub_distrib]
  rw [Finset.sum_range_succ' (fun p => (if p = 0 then 0 else L (p - 1) * w (p - 1)) * ampl (p + ind))]
  rw [Finset.sum_range_succ (fun p => (if p < N + 1 then L p * w p else 0) * ampl (p + ind)), if_neg (lt_irrefl _), if_pos rfl]
  simp only [zero_mul, add_zero]
  rw [← Finset.sum_sub_distrib]
  apply Finset.sum_congr rfl
  intro q hq
  rw [Finset.mem_range] at hq
  rw [if_neg (by omega), if_pos hq, Nat.add_sub_cancel, derivAmpl_eq _ _ _ _ _ (by omega)]
  have a2 : denom x size (((q + ind : ℕ) : ℤ) - (N + 1 : ℕ) + 1) (((q + ind : ℕ) : ℤ) + 1) = denom x size ((ind : ℤ) - N + q) ((ind : ℤ) + q + 1) := by
    congr 1 <;> (push_cast; ring)
  rw [a2]
  simp only [hw, L]
  rw [show q + 1 + ind = q + ind + 1 by ring]
  ring

/-- C76: the amplitudes returned by `deriv` define an interpolator of degree N whose outputs are the derivatives of the original
one of degree N+1: at all points and all orders of derivatives. -/
theorem C76_deriv (N d : ℕ) (hd : d ≤ N) (x ampl : ℕ → ℝ) (size : ℕ) (t : ℝ) :
    BsplineWrapper.evalDeriv N d x (derivAmpl (N + 1) x ampl size) size t = BsplineWrapper.evalDeriv (N + 1) (d + 1) x ampl size t := by
  rw [BsplineWrapper.evalDeriv, BsplineWrapper.evalDeriv]
  by_cases h : bin x size t < 0 ∨ bin x size t ≥ (size : ℤ) - 1
  · rw [if_pos h, if_pos h]
  · rw [if_neg h, if_neg h, if_pos hd, if_pos (by omega), combine_derivAmpl (by omega)]

theorem antiderivAmpl_eq (N : ℕ) (x ampl : ℕ → ℝ) (size : ℕ) :
    antiderivAmpl N x ampl size 0 = 0 ∧ ∀ i, i < size + N - 1 → antiderivAmpl N x ampl size (i + 1) =
      antiderivAmpl N x ampl size i + ampl i / ((N : ℝ) + 1) / denom x size ((i : ℤ) - N) ((i : ℤ) + 1) := by
  set step : (ℕ → ℝ) → ℕ → ℕ → ℝ := fun result i => Function.update result (i + 1)
    (result i + ampl i / ((N : ℝ) + 1) / denom x size ((i : ℤ) - N) ((i : ℤ) + 1)) with hstep
  have stable : ∀ m k j, j ≤ m → ((List.range (m + k)).foldl step fun _ => 0) j = ((List.range m).foldl step fun _ => 0) j := by
    intro m k j hj
    induction k with
    | zero => rfl
    | succ k ih =>
      rw [← add_assoc, List.range_succ, List.foldl_append, List.foldl_cons, List.foldl_nil, hstep]
      simp only
      rw [Function.update_of_ne (by omega)]
      exact ih
  have e : ∀ j m, j ≤ m → m ≤ size + N - 1 → antiderivAmpl N x ampl size j = ((List.range m).foldl step fun _ => 0) j := by
    intro j m hj hm
    rw [antiderivAmpl, show size + N - 1 = m + (size + N - 1 - m) by omega]
    exact stable m _ j hj
  constructor
  · rw [e 0 0 le_rfl (by omega)]; rfl
  · intro i hi
    rw [e (i + 1) (i + 1) le_rfl (by omega), e i i le_rfl (by omega), List.range_succ, List.foldl_append, List.foldl_cons, List.foldl_nil, hstep]
    simp only
    rw [Function.update_self]

/-- C76: `deriv` undoes `antideriv`. -/
theorem C76_deriv_antideriv (N : ℕ) (x ampl : ℕ → ℝ) (size : ℕ) (hg : Grid x size) (hs : 2 ≤ size) (i : ℕ) (hi : i < size + N - 1) :
    derivAmpl (N + 1) x (antiderivAmpl N x ampl size) size i = ampl i := by
  rw [derivAmpl_eq _ _ _ _ _ (by omega), (antiderivAmpl_eq N x ampl size).2 i hi]
  have e : denom x size ((i : ℤ) - ((N + 1 : ℕ) : ℤ) + 1) ((i : ℤ) + 1) = denom x size ((i : ℤ) - N) ((i : ℤ) + 1) := by
    congr 1; push_cast; ring
  rw [e]
  have hne : denom x size ((i : ℤ) - N) ((i : ℤ) + 1) ≠ 0 := by
    have lt : node x size ((i : ℤ) - N) < node x size ((i : ℤ) + 1) := by
      rw [node, node]
      apply hg
      · split_ifs <;> omega
      · split_ifs <;> omega
    rw [denom]
    rw [if_neg lt.ne]
    exact one_div_ne_zero (sub_ne_zero.2 lt.ne')
  have hN : (N : ℝ) + 1 ≠ 0 := by positivity
  push_cast
  field_simp
  ring

/-- At the left end of the grid only the first function is nonzero. -/
theorem cox_left (τ : ℤ → ℝ) (h : ∀ j ≤ 0, τ j = τ 0) (l : ℕ) (j : ℤ) (hj : -(l : ℤ) < j) : cox τ 0 (τ 0) l j = 0 := by
  induction l generalizing j with
  | zero => rw [cox, if_neg (by push_cast at hj; omega)]
  | succ l ih =>
    rw [cox, ih (j + 1) (by push_cast at hj; omega), mul_zero, add_zero]
    by_cases h0 : j ≤ 0
    · rw [h j h0, sub_self, zero_div, zero_mul]
    · rw [Verif.BSpline.cox_zero _ _ _ _ _ (by right; omega), mul_zero]

theorem eval_left (N : ℕ) (x ampl : ℕ → ℝ) (size : ℕ) (hg : Grid x size) (hs : 2 ≤ size) :
    BsplineWrapper.evalDeriv N 0 x ampl size (x 0) = some (ampl 0) := by
  obtain ⟨i, a, b, c, e, h⟩ := (eval_cases hg hs N 0 (by omega) ampl (x 0)).2 le_rfl (Grid.le hg (by omega) (by omega))
  have hi : i = 0 := by
    by_contra hne
    have := hg 0 i (by omega) (by omega)
    linarith
  subst hi
  rw [h, ← combine_derivs hg a N 0 (by omega), combine_eq, Finset.sum_range_succ']
  have n0 : node x size 0 = x 0 := by rw [node, if_neg (by omega), if_neg (by omega)]; rfl
  have nz : ∀ j ≤ (0 : ℤ), node x size j = node x size 0 := by
    intro j hj
    rw [n0, node]
    by_cases h0 : j < 0
    · rw [if_pos h0]
    · rw [if_neg h0, if_neg (by omega), show j.toNat = 0 by omega]
  have hv : ∀ i, 0 < i → i ≤ N → derivs N 0 (x 0) 0 x size i = 0 := by
    intro i h0 hi
    rw [derivs, values_cox hg a N (x 0) i hi]
    have := cox_left (node x size) nz N (((0 : ℕ) : ℤ) - N + i) (by push_cast; omega)
    rw [n0] at this
    exact this
  have hsum := values_sum N x size 0 (x 0) hg a
  rw [Finset.sum_range_succ'] at hsum
  rw [Finset.sum_eq_zero (fun i hi' => by rw [Finset.mem_range] at hi'; rw [hv (i + 1) (by omega) (by omega), zero_mul])]
  rw [Finset.sum_eq_zero (fun i hi' => by
    rw [Finset.mem_range] at hi'
    have := hv (i + 1) (by omega) (by omega)
    rw [derivs] at this; exact this)] at hsum
  rw [zero_add] at hsum ⊢
  rw [derivs, hsum, one_mul, zero_add]

/-- The value of an interpolator of any degree is integrable over any part of the grid. -/
theorem eval_integrable (N : ℕ) (x ampl : ℕ → ℝ) (size : ℕ) (hg : Grid x size) (hs : 2 ≤ size) (u v : ℝ) (hu : x 0 ≤ u) (huv : u ≤ v)
    (hv : v ≤ x (size - 1)) :
    IntervalIntegrable (fun t => (BsplineWrapper.evalDeriv N 0 x ampl size t).getD 0) MeasureTheory.volume u v := by
  obtain ⟨_, S, P, h1, h2, h3, _⟩ := C76_bspline N x ampl size hg hs
  have all : IntervalIntegrable (fun t => (BsplineWrapper.evalDeriv N 0 x ampl size t).getD 0) MeasureTheory.volume (x 0) (x (size - 1)) := by
    apply IntervalIntegrable.trans_iterate
    intro k hk
    refine IntervalIntegrable.congr_uIoo (f := fun t => (P k).eval t) ((P k).continuous.intervalIntegrable _ _) ?_
    intro t ht
    rw [Set.uIoo_of_le (hg k (k + 1) (by omega) (by omega)).le] at ht
    have l1 := Grid.le hg (show 0 ≤ k by omega) (by omega)
    have l2 := Grid.le hg (show k + 1 ≤ size - 1 by omega) (by omega)
    simp only
    rw [h1 t 0 (by linarith [ht.1]) (by linarith [ht.2]), Option.getD_some, h3 k (by omega) t ht.1.le (Or.inl ht.2)]
  apply all.mono_set
  rw [Set.uIcc_of_le huv, Set.uIcc_of_le (by linarith)]
  exact Set.Icc_subset_Icc hu hv

/-- C76: the amplitudes returned by `antideriv` define an interpolator of degree N+1 which is the integral of the original one of degree N from
the left end of the grid. -/
theorem C76_antideriv (N : ℕ) (x ampl : ℕ → ℝ) (size : ℕ) (hg : Grid x size) (hs : 2 ≤ size) (t : ℝ) (h0 : x 0 ≤ t) (h1 : t ≤ x (size - 1)) :
    BsplineWrapper.evalDeriv (N + 1) 0 x (antiderivAmpl N x ampl size) size t =
      some (∫ s in x 0..t, (BsplineWrapper.evalDeriv N 0 x ampl size s).getD 0) := by
  obtain ⟨_, S, P, e1, _, _, e4, e5, e6, _⟩ := C76_bspline (N + 1) x (antiderivAmpl N x ampl size) size hg hs
  have hd : ∀ s, x 0 ≤ s → s ≤ x (size - 1) → S 1 s = (BsplineWrapper.evalDeriv N 0 x ampl size s).getD 0 := by
    intro s s1 s2
    have a := e1 s 1 s1 s2
    rw [show (1 : ℕ) = 0 + 1 from rfl, ← C76_deriv N 0 (by omega)] at a
    have b : BsplineWrapper.evalDeriv N 0 x (derivAmpl (N + 1) x (antiderivAmpl N x ampl size) size) size s = BsplineWrapper.evalDeriv N 0 x ampl size s := by
      rw [BsplineWrapper.evalDeriv, BsplineWrapper.evalDeriv]
      by_cases h : bin x size s < 0 ∨ bin x size s ≥ (size : ℤ) - 1
      · rw [if_pos h, if_pos h]
      · rw [if_neg h, if_neg h, if_pos (by omega), if_pos (by omega), combine_eq, combine_eq]
        congr 1
        apply Finset.sum_congr rfl
        intro i hi
        rw [Finset.mem_range] at hi
        rw [C76_deriv_antideriv N x ampl size hg hs _ (by omega)]
    rw [b] at a
    rw [a]; rfl
  have hS0 : S 0 (x 0) = 0 := by
    have a := e1 (x 0) 0 le_rfl (h0.trans h1)
    rw [eval_left _ _ _ _ hg hs, (antiderivAmpl_eq N x ampl size).1] at a
    exact (Option.some.inj a).symm
  have key := MeasureTheory.integral_eq_of_hasDerivAt_off_countable_of_le (S 0) (fun s => (BsplineWrapper.evalDeriv N 0 x ampl size s).getD 0) h0
    (s := x '' (Finset.range size : Set ℕ)) ((Set.toFinite _).image _).countable
    (fun s _ => (e4 0 s (by omega)).continuousWithinAt)
    (fun s hs' => by
      have a1 := hs'.1.1
      have a2 := hs'.1.2
      rw [← hd s a1.le (by linarith)]
      by_cases hN : 0 + 1 < N + 1
      · exact e5 0 s hN
      · refine e6 0 s (by omega) ?_
        intro i hi he
        exact hs'.2 ⟨i, by simpa using hi, he.symm⟩)
    (eval_integrable N x ampl size hg hs _ _ le_rfl h0 h1)
  rw [e1 t 0 h0 h1, key, hS0, sub_zero]

/-- Non-vacuity of C76 (antiderivative): a histogram with two bins 3 and 5 on the grid 0, 1, 4: the integral is 3+15=18. -/
example : antiderivAmpl 0 (fun i => (i : ℝ) ^ 2) (fun i => if i = 0 then 3 else 5) 3 2 = 18 := by
  rw [(antiderivAmpl_eq _ _ _ _).2 1 (by norm_num), (antiderivAmpl_eq _ _ _ _).2 0 (by norm_num), (antiderivAmpl_eq _ _ _ _).1]
  have h2 : (Int.toNat 2) = 2 := rfl
  norm_num [denom, node, h2]

/-! ## Conversion to a cubic spline -/

/-- A cubic polynomial is determined by its values and slopes at the ends of a segment, with the formulas of the code. -/
theorem evalCubic_poly (p : ℝ[X]) (hp : p.natDegree ≤ 3) (t xl xh : ℝ) (h : xl ≠ xh) :
    evalCubic t xl xh (p.eval xl) (p.eval xh) (p.derivative.eval xl) (p.derivative.eval xh) =
      ⟨p.eval t, p.derivative.eval t, p.derivative.derivative.eval t, p.derivative.derivative.derivative.eval t⟩ := by
  rw [p.as_sum_range' 4 (by omega)]
  simp only [Finset.sum_range_succ, Finset.sum_range_zero, zero_add, derivative_add, derivative_monomial, eval_add, eval_monomial]
  have hne : xh - xl ≠ 0 := sub_ne_zero.2 h.symm
  rw [evalCubic]
  generalize p.coeff 0 = c0
  generalize p.coeff 1 = c1
  generalize p.coeff 2 = c2
  generalize p.coeff 3 = c3
  obtain ⟨w, rfl⟩ : ∃ w, xh = xl + w := ⟨xh - xl, by ring⟩
  rw [add_sub_cancel_left] at hne
  simp only [add_sub_cancel_left]
  ext <;> norm_num <;> field_simp <;> ring

/-- C76: the cubic spline constructed from amplitudes of B-splines of degree 2 or 3 coincides with the B-spline interpolator at all points of the
grid, together with all derivatives. -/
theorem C76_cubicFromAmpl (N : ℕ) (hN : N = 2 ∨ N = 3) (x ampl : ℕ → ℝ) (size : ℕ) (hg : Grid x size) (hs : 2 ≤ size) (t : ℝ)
    (h0 : x 0 ≤ t) (h1 : t ≤ x (size - 1)) :
    ∃ j : Jet3, CubicSpline.evalDeriv x (cubicFromAmpl N x ampl size).1 (cubicFromAmpl N x ampl size).2 size t = some j ∧
      BsplineWrapper.evalDeriv N 0 x ampl size t = some j.val ∧ BsplineWrapper.evalDeriv N 1 x ampl size t = some j.der ∧
      BsplineWrapper.evalDeriv N 2 x ampl size t = some j.der2 ∧ BsplineWrapper.evalDeriv N 3 x ampl size t = some j.der3 := by
  obtain ⟨i, a, b, c, e⟩ := bin_inside hg hs h0 h1
  have hi := b
  -- node values
  have node_eq : ∀ d, d < N → ∀ k, k = i ∨ k = i + 1 → combine N (derivs N d (x k) (min k (size - 2)) x size) ampl (min k (size - 2)) =
      (derivative^[d] (segPoly N x ampl size i)).eval (x k) := by
    intro d hd k hk
    rcases hk with rfl | rfl
    · rw [show min k (size - 2) = k by omega, combine_derivs hg (by omega) N d hd.le]
    · by_cases hl : i + 2 = size
      · rw [show min (i + 1) (size - 2) = i by omega, combine_derivs hg (by omega) N d hd.le]
      · rw [show min (i + 1) (size - 2) = i + 1 by omega, combine_derivs hg (by omega) N d hd.le, segPoly_node hg (by omega) N d hd]
  have hv : ∀ k, k = i ∨ k = i + 1 → (cubicFromAmpl N x ampl size).1 k = (segPoly N x ampl size i).eval (x k) := by
    intro k hk
    have := node_eq 0 (by omega) k hk
    rw [derivs] at this
    exact this
  have hdv : ∀ k, k = i ∨ k = i + 1 → (cubicFromAmpl N x ampl size).2 k = (derivative (segPoly N x ampl size i)).eval (x k) := by
    intro k hk
    exact node_eq 1 (by omega) k hk
  have out : ∀ d, BsplineWrapper.evalDeriv N d x ampl size t = some ((derivative^[d] (segPoly N x ampl size i)).eval t) := by
    intro d
    rw [BsplineWrapper.evalDeriv, a, if_neg (by omega)]
    by_cases hd : d ≤ N
    · rw [if_pos hd, Int.toNat_natCast, combine_derivs hg b N d hd]
    · rw [if_neg hd, iterate_derivative_eq_zero (lt_of_le_of_lt (segPoly_degree _ _ _ _ _) (by omega)), eval_zero]
  refine ⟨⟨(segPoly N x ampl size i).eval t, (derivative (segPoly N x ampl size i)).eval t, (derivative (derivative (segPoly N x ampl size i))).eval t,
    (derivative (derivative (derivative (segPoly N x ampl size i)))).eval t⟩, ?_, out 0, out 1, out 2, out 3⟩
  rw [CubicSpline.evalDeriv, if_neg (by omega), a]
  simp only
  rw [if_neg (by omega), if_neg (by omega), Int.toNat_natCast, hv i (Or.inl rfl), hv (i + 1) (Or.inr rfl), hdv i (Or.inl rfl), hdv (i + 1) (Or.inr rfl)]
  rw [evalCubic_poly _ ((segPoly_degree _ _ _ _ _).trans (by omega)) _ _ _ (hg i (i + 1) (by omega) hi).ne]

end
end Verif.Spline
