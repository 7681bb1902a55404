import Verif.GH.Poly



/-! # C103: Gauss-Hermite expansion -/

namespace Verif.GH

open Real MeasureTheory

noncomputable section

theorem foldl_sum (n : ℕ) (f : ℕ → ℝ) (a : ℝ) : (List.range n).foldl (fun s i => s + f i) a = a + ∑ i ∈ Finset.range n, f i := by
  induction n with
  | zero => simp
  | succ n ih => rw [List.range_succ, List.foldl_append, ih, Finset.sum_range_succ]; simp [add_assoc]

theorem H_continuous (n : ℕ) : Continuous (H n) := by
  have : H n = fun x => (P n).eval x := by funext x; rw [P_eval]
  rw [this]
  exact (P n).continuous

/-! ## polynomials -/

theorem hermiteLoop_other (x : ℝ) (m n : ℕ) (sqrtn : ℝ) (result : ℕ → ℝ) (i : ℕ) (hi : n + m < i) : hermiteLoop x m n sqrtn result i = result i := by
  induction m generalizing n sqrtn result with
  | zero => rfl
  | succ m ih =>
    rw [hermiteLoop, ih (n + 1) _ _ (by omega), Function.update_of_ne (by omega)]

/-- C103: the array of Hermite polynomials: the elements 0..nmax are the polynomials in the documented normalisation, the other ones are not touched -/
theorem C103_hermite (nmax : ℕ) (x : ℝ) (old : ℕ → ℝ) (n : ℕ) : hermiteArray nmax x old n = if n ≤ nmax then H n x else old n := by
  split
  · next h => exact hermiteArray_eq nmax x old n h
  · next h =>
    rw [hermiteArray]
    by_cases h1 : nmax < 1
    · simp only [h1, if_true]
      rw [Function.update_of_ne (by omega)]
    · simp only [h1, if_false]
      rw [hermiteLoop_other _ _ _ _ _ _ (by omega), Function.update_of_ne (by omega), Function.update_of_ne (by omega)]

example : hermiteArray 2 3 (fun _ => 0) 2 = 17 / √2 := by
  have h : √2 * √2 = (2 : ℝ) := sq2 2 (by norm_num)
  norm_num [hermiteArray, hermiteLoop, sqroots]
  linear_combination 9 * h

/-- C103: the documented derivative dH_n/dx = sqrt(2n) H_{n-1} -/
theorem C103_hermite_deriv (n : ℕ) (x : ℝ) : HasDerivAt (H (n + 1)) (√(2 * ((n : ℝ) + 1)) * H n x) x ∧ HasDerivAt (H 0) 0 x := by
  constructor
  · have e : H (n + 1) = fun x => (P (n + 1)).eval x := by funext x; rw [P_eval]
    rw [e, ← P_eval, Real.sqrt_mul (by norm_num)]
    refine ((P (n + 1)).hasDerivAt x).congr_deriv ?_
    rw [P_deriv]
    simp
  · have e : H 0 = fun _ => 1 := by funext x; simp [H]
    rw [e]
    exact hasDerivAt_const x 1

/-- parity -/
theorem H_neg (n : ℕ) (x : ℝ) : H n (-x) = (if n % 2 = 1 then -1 else 1) * H n x := by
  simp only [← P_eval]
  induction n using Nat.strong_induction_on with
  | _ n ih =>
    match n with
    | 0 => simp [P]
    | 1 => simp [P]
    | n + 2 =>
      have a := P_eval_succ n (-x)
      have b := P_eval_succ n x
      rw [ih n (by omega), ih (n + 1) (by omega)] at a
      have h : √((n : ℝ) + 2) ≠ 0 := by positivity
      apply mul_left_cancel₀ h
      rw [a, show (n + 2) % 2 = n % 2 by omega]
      rcases Nat.mod_two_eq_zero_or_one n with h | h
      · have h1 : (n + 1) % 2 = 1 := by omega
        simp only [h, h1, if_true] at a ⊢
        simp only [zero_ne_one, if_false]
        linear_combination -b
      · have h1 : (n + 1) % 2 = 0 := by omega
        simp only [h, h1, if_true] at a ⊢
        simp only [zero_ne_one, if_false]
        linear_combination b

/-- C103: the documented orthogonality -/
theorem C103_ortho (n m : ℕ) : ∫ x : ℝ, H n x * H m x * exp (-x ^ 2) / (2 * π) = if n = m then 1 / (2 * √π) else 0 := by
  have h := P_ortho n m
  have e : (fun x : ℝ => H n x * H m x * exp (-x ^ 2) / (2 * π)) = fun x => ((P n * P m).eval x * exp (-1 * x ^ 2)) * (1 / (2 * π)) := by
    funext x
    rw [Polynomial.eval_mul, P_eval, P_eval]
    ring_nf
  rw [e, integral_mul_const, h]
  split
  · have : √π * √π = π := sq2 π pi_pos.le
    have h0 : √π ≠ 0 := by positivity
    field_simp
    linarith
  · simp

/-- C103: the documented norms -/
theorem C103_hermite_norm (n : ℕ) : ∫ x : ℝ, H n x * exp (-x ^ 2 / 2) / √(2 * π) = if n % 2 = 1 then 0 else √(n.factorial : ℝ) / (n.doubleFactorial : ℝ) := by
  have h := P_norm n
  have e : (fun x : ℝ => H n x * exp (-x ^ 2 / 2) / √(2 * π)) = fun x => ((P n).eval x * exp (-(1 / 2) * x ^ 2)) * (1 / √(2 * π)) := by
    funext x
    rw [P_eval, show -x ^ 2 / 2 = -(1 / 2) * x ^ 2 by ring]
    ring
  rw [e, integral_mul_const, h]
  have h0 : √(2 * π) ≠ 0 := by positivity
  field_simp

theorem normn_bound (n : ℕ) : |normn n - if n % 2 = 1 then 0 else √(n.factorial : ℝ) / (n.doubleFactorial : ℝ)| ≤ 5e-17 := by
  by_cases hn : n % 2 = 1
  · unfold normn
    rw [if_pos hn, if_pos hn]
    norm_num
  unfold normn
  rw [if_neg hn, if_neg hn]
  split
  · simp
    norm_num
  · have : √(2 : ℝ) / 2 = 1 / √2 := by
      have h : √2 * √2 = (2 : ℝ) := sq2 2 (by norm_num)
      field_simp
      linarith
    norm_num [Nat.factorial, Nat.doubleFactorial, this]
  · have h : √(24 : ℝ) ^ 2 = 24 := Real.sq_sqrt (by norm_num)
    have h1 : √(24 : ℝ) ≤ 4.8989794855663562 := Real.sqrt_le_iff.2 ⟨by norm_num, by norm_num⟩
    have h2 : (4.8989794855663561 : ℝ) ≤ √24 := Real.le_sqrt_of_sq_le (by norm_num)
    have e : √((4 : ℕ).factorial : ℝ) / ((4 : ℕ).doubleFactorial : ℝ) = √24 / 8 := by norm_num [Nat.factorial, Nat.doubleFactorial]
    rw [e, abs_le]
    constructor <;> norm_num <;> linarith
  · have h1 : √(720 : ℝ) ≤ 26.8328157299974764 := Real.sqrt_le_iff.2 ⟨by norm_num, by norm_num⟩
    have h2 : (26.8328157299974763 : ℝ) ≤ √720 := Real.le_sqrt_of_sq_le (by norm_num)
    have e : √((6 : ℕ).factorial : ℝ) / ((6 : ℕ).doubleFactorial : ℝ) = √720 / 48 := by norm_num [Nat.factorial, Nat.doubleFactorial]
    rw [e, abs_le]
    constructor <;> norm_num <;> linarith
  · have h1 : √(40320 : ℝ) ≤ 200.798406368178132 := Real.sqrt_le_iff.2 ⟨by norm_num, by norm_num⟩
    have h2 : (200.798406368178131 : ℝ) ≤ √40320 := Real.le_sqrt_of_sq_le (by norm_num)
    have e : √((8 : ℕ).factorial : ℝ) / ((8 : ℕ).doubleFactorial : ℝ) = √40320 / 384 := by norm_num [Nat.factorial, Nat.doubleFactorial]
    rw [e, abs_le]
    constructor <;> norm_num <;> linarith
  · simp
    norm_num

/-- C103: `normn(n)` is the integral of the n-th basis function to the accuracy of its numerical constants -/
theorem C103_normn (n : ℕ) : |normn n - ∫ x : ℝ, H n x * exp (-x ^ 2 / 2) / √(2 * π)| ≤ 5e-17 := by
  rw [C103_hermite_norm]
  exact normn_bound n

/-! ## the expansion -/

/-- specification: the Gauss-Hermite series -/
def series (A c w : ℝ) (h : ℕ → ℝ) (n : ℕ) (x : ℝ) : ℝ := ∑ i ∈ Finset.range n, h i * (A / (√(2 * π) * w) * exp (-((x - c) / w) ^ 2 / 2) * H i ((x - c) / w))

/-- C103: the value is the Gauss-Hermite series -/
theorem C103_value (A c w : ℝ) (n : ℕ) (h : ℕ → ℝ) (x : ℝ) : value A c w n h x = series A c w h n x := by
  rw [value, series]
  split
  · next h => subst h; simp
  · simp only
    rw [foldl_sum, zero_add, Finset.sum_mul]
    apply Finset.sum_congr rfl
    intro i hi
    rw [Finset.mem_range] at hi
    rw [hermiteArray_eq _ _ _ _ (by omega), Real.sqrt_mul (by norm_num), show (-0.5 : ℝ) * ((x - c) / w) ^ 2 = -((x - c) / w) ^ 2 / 2 by ring]
    field_simp

theorem integral_scale (f : ℝ → ℝ) (c w : ℝ) (hw : 0 < w) : ∫ x : ℝ, f ((x - c) / w) = w * ∫ y : ℝ, f y := by
  have h1 : ∫ x : ℝ, f ((x - c) / w) = ∫ x : ℝ, f (x / w) := integral_sub_right_eq_self (fun x => f (x / w)) c
  rw [h1, Measure.integral_comp_div f w, abs_of_pos hw, smul_eq_mul]

theorem integrable_scale (f : ℝ → ℝ) (hf : Integrable f) (c w : ℝ) (hw : 0 < w) : Integrable fun x : ℝ => f ((x - c) / w) := by
  have h := hf.comp_div hw.ne'
  exact h.comp_sub_right c

theorem integrable_H (n : ℕ) : Integrable fun y : ℝ => H n y * exp (-y ^ 2 / 2) / √(2 * π) := by
  have e : (fun x : ℝ => H n x * exp (-x ^ 2 / 2) / √(2 * π)) = fun x => ((P n).eval x * exp (-(1 / 2) * x ^ 2)) * (1 / √(2 * π)) := by
    funext x
    rw [P_eval, show -x ^ 2 / 2 = -(1 / 2) * x ^ 2 by ring]
    ring
  rw [e]
  exact (integrable_poly _ (by norm_num) _).mul_const _

theorem integrable_HH (n m : ℕ) : Integrable fun y : ℝ => H n y * H m y * exp (-y ^ 2) / (2 * π) := by
  have e : (fun x : ℝ => H n x * H m x * exp (-x ^ 2) / (2 * π)) = fun x => ((P n * P m).eval x * exp (-1 * x ^ 2)) * (1 / (2 * π)) := by
    funext x
    rw [Polynomial.eval_mul, P_eval, P_eval]
    ring_nf
  rw [e]
  exact (integrable_poly _ one_pos _).mul_const _

theorem norm_sum (A : ℝ) (n : ℕ) (h : ℕ → ℝ) : norm A n h = A * ∑ i ∈ Finset.range n, h i * normn i := by
  rw [norm, mul_comm]
  congr 1
  have : ∀ (l : List ℕ) (a : ℝ), (l.filter (fun n => n % 2 = 0)).foldl (fun result n => result + h n * normn n) a = l.foldl (fun result n => result + h n * normn n) a := by
    intro l
    induction l with
    | nil => intro a; rfl
    | cons i l ih =>
      intro a
      by_cases hi : i % 2 = 0
      · rw [List.filter_cons_of_pos (by simpa using hi), List.foldl_cons, List.foldl_cons, ih]
      · rw [List.filter_cons_of_neg (by simpa using hi), List.foldl_cons, ih]
        have : normn i = 0 := by unfold normn; rw [if_pos (by omega)]
        rw [this, mul_zero, add_zero]
  rw [this, foldl_sum, zero_add]

/-- C103: `norm()` is the integral of the expansion over the entire real axis, to the accuracy of the numerical constants -/
theorem C103_norm (A c w : ℝ) (hw : 0 < w) (n : ℕ) (h : ℕ → ℝ) : |norm A n h - ∫ x : ℝ, value A c w n h x| ≤ 5e-17 * |A| * ∑ i ∈ Finset.range n, |h i| := by
  have e : ∫ x : ℝ, value A c w n h x = A * ∑ i ∈ Finset.range n, h i * ∫ x : ℝ, H i x * exp (-x ^ 2 / 2) / √(2 * π) := by
    simp only [C103_value, series]
    have i1 : ∀ i ∈ Finset.range n, Integrable fun x : ℝ => h i * (A / (√(2 * π) * w) * exp (-((x - c) / w) ^ 2 / 2) * H i ((x - c) / w)) := by
      intro i _
      have := (integrable_scale _ (integrable_H i) c w hw).const_mul (h i * (A / w))
      refine this.congr (Filter.Eventually.of_forall fun x => ?_)
      simp only
      field_simp
    rw [integral_finsetSum _ i1, Finset.mul_sum]
    apply Finset.sum_congr rfl
    intro i _
    have e2 : (fun x : ℝ => h i * (A / (√(2 * π) * w) * exp (-((x - c) / w) ^ 2 / 2) * H i ((x - c) / w))) =
        fun x => h i * (A / w) * (fun y => H i y * exp (-y ^ 2 / 2) / √(2 * π)) ((x - c) / w) := by
      funext x
      simp only
      field_simp
    rw [e2, integral_const_mul, integral_scale (fun y => H i y * exp (-y ^ 2 / 2) / √(2 * π)) c w hw]
    field_simp
  rw [e, norm_sum, ← mul_sub, ← Finset.sum_sub_distrib, abs_mul]
  calc |A| * |∑ i ∈ Finset.range n, (h i * normn i - h i * ∫ x : ℝ, H i x * exp (-x ^ 2 / 2) / √(2 * π))|
      ≤ |A| * ∑ i ∈ Finset.range n, 5e-17 * |h i| := by
        refine mul_le_mul_of_nonneg_left ((Finset.abs_sum_le_sum_abs _ _).trans (Finset.sum_le_sum fun i _ => ?_)) (abs_nonneg _)
        rw [← mul_sub, abs_mul, mul_comm]
        exact mul_le_mul_of_nonneg_right (C103_normn i) (abs_nonneg _)
    _ = _ := by rw [← Finset.mul_sum]; ring

/-- the Gauss-Hermite moment of a function: what computeGaussHermiteMoments approximates -/
def ghMoment (f : ℝ → ℝ) (A c w : ℝ) (m : ℕ) : ℝ := √2 / A * ∫ x : ℝ, f x * exp (-((x - c) / w) ^ 2 / 2) * H m ((x - c) / w)

/-- C103: the Gauss-Hermite moments of an expansion are its coefficients, and zero beyond its order -/
theorem C103_project (A c w : ℝ) (hA : A ≠ 0) (hw : 0 < w) (n : ℕ) (h : ℕ → ℝ) (m : ℕ) : ghMoment (value A c w n h) A c w m = if m < n then h m else 0 := by
  rw [ghMoment]
  have e : (fun x : ℝ => value A c w n h x * exp (-((x - c) / w) ^ 2 / 2) * H m ((x - c) / w)) =
      fun x => ∑ i ∈ Finset.range n, h i * (A * √(2 * π) / w) * (fun y => H i y * H m y * exp (-y ^ 2) / (2 * π)) ((x - c) / w) := by
    funext x
    rw [C103_value, series, Finset.sum_mul, Finset.sum_mul]
    apply Finset.sum_congr rfl
    intro i _
    have : exp (-((x - c) / w) ^ 2) = exp (-((x - c) / w) ^ 2 / 2) * exp (-((x - c) / w) ^ 2 / 2) := by rw [← Real.exp_add]; congr 1; ring
    simp only [this]
    have s : √(2 * π) * √(2 * π) = 2 * π := sq2 _ (by positivity)
    have s0 : √(2 * π) ≠ 0 := by positivity
    have p0 : π ≠ 0 := pi_pos.ne'
    generalize exp (-((x - c) / w) ^ 2 / 2) = E
    generalize (x - c) / w = y at *
    have : A / (√(2 * π) * w) = A * √(2 * π) / w / (2 * π) := by
      generalize √(2 * π) = r at *
      field_simp
      linear_combination -s
    rw [this]
    ring
  rw [e, integral_finsetSum _ (fun i _ => (integrable_scale _ (integrable_HH i m) c w hw).const_mul _)]
  have e2 : ∀ i, ∫ x : ℝ, h i * (A * √(2 * π) / w) * (fun y => H i y * H m y * exp (-y ^ 2) / (2 * π)) ((x - c) / w) = h i * (A * √(2 * π)) * if i = m then 1 / (2 * √π) else 0 := by
    intro i
    rw [integral_const_mul, integral_scale (fun y => H i y * H m y * exp (-y ^ 2) / (2 * π)) c w hw, C103_ortho]
    field_simp
  rw [Finset.sum_congr rfl (fun i _ => e2 i)]
  simp only [mul_ite, mul_zero, Finset.sum_ite_eq', Finset.mem_range]
  split
  · rw [Real.sqrt_mul (by norm_num)]
    have s2 : √2 * √2 = (2 : ℝ) := sq2 _ (by norm_num)
    have p0 : √π ≠ 0 := by positivity
    field_simp
    linear_combination (h m) * s2
  · simp

example : ghMoment (value 2 1 3 4 (fun i => i)) 2 1 3 3 = 3 := by
  rw [C103_project 2 1 3 (by norm_num) (by norm_num)]
  norm_num

end

end Verif.GH
