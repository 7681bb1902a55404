import Verif.GH.Model
import Mathlib.RingTheory.Polynomial.Hermite.Basic
import Mathlib.MeasureTheory.Integral.IntegralEqImproper
import Mathlib.Analysis.Calculus.Deriv.Polynomial

/-! # Hermite polynomials of the Gauss-Hermite expansion: recurrence, derivative, orthogonality, norms -/

namespace Verif.GH

open Real Polynomial MeasureTheory

noncomputable section

/-- specification: the Hermite polynomials in the normalisation stated in math_gausshermite.cpp:98-102, expressed by the probabilists' polynomials of Mathlib -/
def H (n : ℕ) (x : ℝ) : ℝ := aeval (√2 * x) (hermite n) / √(n.factorial : ℝ)

/-- the same polynomials defined by the recurrence -/
def P : ℕ → ℝ[X]
  | 0 => 1
  | 1 => C √2 * X
  | n + 2 => C (1 / √((n : ℝ) + 2)) * (C √2 * X * P (n + 1) - C √((n : ℝ) + 1) * P n)

theorem P_succ (n : ℕ) : C √((n : ℝ) + 2) * P (n + 2) = C √2 * X * P (n + 1) - C √((n : ℝ) + 1) * P n := by
  have h : √((n : ℝ) + 2) ≠ 0 := by positivity
  rw [P, ← mul_assoc, ← C_mul, mul_one_div_cancel h, C_1, one_mul]

theorem P_eval_succ (n : ℕ) (x : ℝ) : √((n : ℝ) + 2) * (P (n + 2)).eval x = √2 * x * (P (n + 1)).eval x - √((n : ℝ) + 1) * (P n).eval x := by
  simpa using congrArg (eval x) (P_succ n)

theorem sq2 (a : ℝ) (h : 0 ≤ a) : √a * √a = a := mul_self_sqrt h

/-- derivative by recurrence -/
theorem P_deriv (n : ℕ) : derivative (P (n + 1)) = C (√2 * √((n : ℝ) + 1)) * P n := by
  induction n using Nat.strong_induction_on with
  | _ n ih =>
    match n with
    | 0 => simp [P]
    | 1 =>
      have h := P_succ 0
      simp only [Nat.cast_zero, zero_add] at h
      rw [show P 1 = C √2 * X from rfl, show P 0 = 1 from rfl] at h
      have h2 := congrArg derivative h
      simp only [Polynomial.derivative_mul, derivative_C, derivative_X, zero_mul, mul_one, zero_add, derivative_sub, sub_zero] at h2
      have hC : (C √2 : ℝ[X]) ≠ 0 := by simp
      apply mul_left_cancel₀ hC
      rw [show P (1 + 1) = P 2 from rfl, h2]
      simp only [Nat.cast_one, C_mul, show (1 : ℝ) + 1 = 2 by norm_num, show P 1 = C √2 * X from rfl]
      have e : (C √2 : ℝ[X]) * C √2 = 2 := by rw [← C_mul, sq2 2 (by norm_num)]; rfl
      linear_combination (-(C √2 * C √2 * X) : ℝ[X]) * e
    | n + 2 =>
      have h := congrArg derivative (P_succ (n + 1))
      have i1 := ih (n + 1) (by omega)
      have i0 := ih n (by omega)
      have r := P_succ n
      simp only [Polynomial.derivative_mul, derivative_C, derivative_X, zero_mul, mul_one, zero_add, derivative_sub] at h
      rw [i0, show n + 1 + 1 = (n + 1) + 1 from rfl, i1] at h
      push_cast at *
      have h3 : √((n : ℝ) + 3) ≠ 0 := by positivity
      have hC : (C √((n : ℝ) + 3) : ℝ[X]) ≠ 0 := by simpa using h3
      have c1 : (n : ℝ) + 1 + 2 = n + 3 := by ring
      have c2 : (n : ℝ) + 1 + 1 = n + 2 := by ring
      have c3 : (n : ℝ) + 2 + 1 = n + 3 := by ring
      rw [c1, c2] at h
      rw [c3]
      apply mul_left_cancel₀ hC
      have e1 : (C √((n : ℝ) + 1) : ℝ[X]) * C √((n : ℝ) + 1) = C ((n : ℝ) + 1) := by rw [← C_mul, sq2 _ (by positivity)]
      have e2 : (C √((n : ℝ) + 2) : ℝ[X]) * C √((n : ℝ) + 2) = C ((n : ℝ) + 2) := by rw [← C_mul, sq2 _ (by positivity)]
      have e3 : (C √((n : ℝ) + 3) : ℝ[X]) * C √((n : ℝ) + 3) = C ((n : ℝ) + 3) := by rw [← C_mul, sq2 _ (by positivity)]
      rw [h]
      simp only [C_mul]
      simp only [C_add] at e1 e2 e3
      have c : (C (3 : ℝ) : ℝ[X]) = C 2 + 1 := by rw [← C_1, ← C_add]; norm_num
      rw [c] at e3
      linear_combination (C √2 * C √((n : ℝ) + 2)) * (-r) + C √2 * P (n + 2) * e2 - C √2 * P (n + 2) * e3 + 0 * e1

theorem hermite_deriv (n : ℕ) : derivative (hermite (n + 1)) = ((n : ℤ[X]) + 1) * hermite n := by
  induction n with
  | zero => simp
  | succ n ih =>
    rw [hermite_succ (n + 1), derivative_sub, Polynomial.derivative_mul, derivative_X, one_mul, ih, Polynomial.derivative_mul]
    have : derivative ((n : ℤ[X]) + 1) = 0 := by simp
    rw [this, hermite_succ n]
    push_cast
    ring

theorem hermite_rec (n : ℕ) : hermite (n + 2) = X * hermite (n + 1) - ((n : ℤ[X]) + 1) * hermite n := by
  rw [hermite_succ (n + 1), hermite_deriv]

/-- the recurrence gives the polynomials of the specification -/
theorem P_eval (n : ℕ) (x : ℝ) : (P n).eval x = H n x := by
  induction n using Nat.strong_induction_on with
  | _ n ih =>
    match n with
    | 0 => simp [P, H]
    | 1 => simp [P, H]
    | n + 2 =>
      have r := P_eval_succ n x
      rw [ih (n + 1) (by omega), ih n (by omega)] at r
      have h2 : √((n : ℝ) + 2) ≠ 0 := by positivity
      apply mul_left_cancel₀ h2
      rw [r]
      simp only [H]
      rw [hermite_rec n, Nat.factorial_succ (n + 1), Nat.factorial_succ n]
      have hf : √((n.factorial : ℕ) : ℝ) ≠ 0 := by positivity
      have h1 : √((n : ℝ) + 1) ≠ 0 := by positivity
      push_cast
      have sf : √(((n : ℝ) + 1) * (n.factorial : ℝ)) = √((n : ℝ) + 1) * √(n.factorial : ℝ) := Real.sqrt_mul (by positivity) _
      rw [show (n : ℝ) + 1 + 1 = n + 2 by ring, Real.sqrt_mul (by positivity) (((n : ℝ) + 1) * (n.factorial : ℝ)), sf]
      simp only [map_sub, map_mul, map_add, map_natCast, map_one, aeval_X]
      field_simp
      rw [Real.sq_sqrt (by positivity)]

/-- the loop of hermiteArray -/
theorem hermiteLoop_eq (x : ℝ) (m n : ℕ) (hn : 1 ≤ n) (sqrtn : ℝ) (hs : sqrtn = √(n : ℝ)) (result : ℕ → ℝ) (hr : ∀ i ≤ n, result i = (P i).eval x) :
    ∀ i ≤ n + m, hermiteLoop x m n sqrtn result i = (P i).eval x := by
  induction m generalizing n sqrtn result with
  | zero => exact hr
  | succ m ih =>
    intro i hi
    rw [hermiteLoop]
    have e : (if n < 8 then sqroots n else √((n : ℝ) + 1)) = √((n : ℝ) + 1) := by
      split
      · next h =>
        interval_cases n <;> simp only [sqroots] <;> norm_num
      · rfl
    simp only [e]
    refine ih (n + 1) (by omega) _ (by push_cast; rfl) _ ?_ i (by omega)
    intro j hj
    by_cases h : j = n + 1
    · subst h
      obtain ⟨k, rfl⟩ : ∃ k, n = k + 1 := ⟨n - 1, by omega⟩
      rw [Function.update_self, hr _ le_rfl, hr (k + 1 - 1) (by omega), Nat.add_sub_cancel, hs]
      have r := P_eval_succ k x
      have h2 : √((k : ℝ) + 2) ≠ 0 := by positivity
      push_cast
      rw [show (k : ℝ) + 1 + 1 = k + 2 by ring, ← r]
      field_simp
    · rw [Function.update_of_ne h, hr j (by omega)]

theorem hermiteArray_eq (nmax : ℕ) (x : ℝ) (old : ℕ → ℝ) (n : ℕ) (hn : n ≤ nmax) : hermiteArray nmax x old n = H n x := by
  rw [← P_eval, hermiteArray]
  by_cases h : nmax < 1
  · have : n = 0 := by omega
    subst this
    simp [h, P]
  · simp only [h, if_false]
    refine hermiteLoop_eq x (nmax - 1) 1 le_rfl 1 (by simp) _ ?_ n (by omega)
    intro i hi
    interval_cases i
    · simp [P]
    · simp [P]

/-! ## integrals -/

theorem integrable_poly (b : ℝ) (hb : 0 < b) (q : ℝ[X]) : Integrable fun x : ℝ => q.eval x * exp (-b * x ^ 2) := by
  induction q using Polynomial.induction_on' with
  | add p q hp hq =>
    simp only [eval_add, add_mul]
    exact hp.add hq
  | monomial n a =>
    have := (integrable_rpow_mul_exp_neg_mul_sq hb (s := (n : ℝ)) (by linarith [(Nat.cast_nonneg n : (0 : ℝ) ≤ n)])).const_mul a
    simpa [mul_assoc] using this

/-- integration by parts -/
theorem integral_parts (b : ℝ) (hb : 0 < b) (q : ℝ[X]) : ∫ x : ℝ, (derivative q).eval x * exp (-b * x ^ 2) = ∫ x : ℝ, (C (2 * b) * X * q).eval x * exp (-b * x ^ 2) := by
  rw [← sub_eq_zero, ← integral_sub (integrable_poly b hb _) (integrable_poly b hb _)]
  refine integral_eq_zero_of_hasDerivAt_of_integrable (f := fun x => q.eval x * exp (-b * x ^ 2)) ?_ ((integrable_poly b hb _).sub (integrable_poly b hb _)) (integrable_poly b hb q)
  intro x
  have h1 : HasDerivAt (fun x : ℝ => exp (-b * x ^ 2)) (exp (-b * x ^ 2) * (-b * (2 * x))) x := by
    have := ((hasDerivAt_pow 2 x).const_mul (-b)).exp
    simpa using this
  have := (q.hasDerivAt x).mul h1
  refine this.congr_deriv ?_
  simp only [eval_mul, eval_C, eval_X]
  ring

/-- multiplication by H_(n+1) is the adjoint of differentiation -/
theorem integral_adjoint (n : ℕ) (q : ℝ[X]) :
    √((n : ℝ) + 1) * ∫ x : ℝ, (P (n + 1) * q).eval x * exp (-1 * x ^ 2) = 1 / √2 * ∫ x : ℝ, (P n * derivative q).eval x * exp (-1 * x ^ 2) := by
  have h := integral_parts 1 one_pos (P n * q)
  have s2 : √2 * √2 = (2 : ℝ) := sq2 2 (by norm_num)
  have s2' : √2 ≠ (0 : ℝ) := by positivity
  have key : C √((n : ℝ) + 1) * (P (n + 1)) = C √2 * X * P n - C (1 / √2) * derivative (P n) := by
    match n with
    | 0 => simp [P]
    | n + 1 =>
      have r := P_succ n
      rw [P_deriv]
      push_cast
      rw [show (n : ℝ) + 1 + 1 = n + 2 by ring, r, ← mul_assoc, ← C_mul]
      congr 3
      field_simp
  rw [← integral_const_mul, ← integral_const_mul]
  rw [← sub_eq_zero, ← integral_sub ((integrable_poly 1 one_pos _).const_mul _) ((integrable_poly 1 one_pos _).const_mul _)]
  rw [← sub_eq_zero, ← integral_sub (integrable_poly 1 one_pos _) (integrable_poly 1 one_pos _)] at h
  have h' := congrArg (fun t => -(1 / √2) * t) h
  simp only [mul_zero] at h'
  rw [← integral_const_mul] at h'
  rw [← h']
  congr 1
  funext x
  have k := congrArg (eval x) key
  simp only [eval_mul, eval_C, eval_sub, eval_X, Polynomial.derivative_mul, eval_add] at k ⊢
  have s3 : 1 / √2 * 2 = √2 := by field_simp; linarith
  linear_combination (eval x q * exp (-1 * x ^ 2)) * k - (x * eval x (P n) * eval x q * exp (-1 * x ^ 2)) * s3

/-- orthogonality -/
theorem P_ortho (n m : ℕ) : ∫ x : ℝ, (P n * P m).eval x * exp (-1 * x ^ 2) = if n = m then √π else 0 := by
  induction n generalizing m with
  | zero =>
    cases m with
    | zero =>
      simp only [P, mul_one, eval_one, one_mul, if_true]
      simpa using integral_gaussian 1
    | succ m =>
      have := integral_adjoint m 1
      simp only [derivative_one, mul_zero, eval_zero, zero_mul, integral_zero, mul_one] at this
      have h : √((m : ℝ) + 1) ≠ 0 := by positivity
      simpa [P, h] using this
  | succ n ih =>
    have a := integral_adjoint n (P m)
    have h : √((n : ℝ) + 1) ≠ 0 := by positivity
    cases m with
    | zero =>
      simp only [P, derivative_one, mul_zero, eval_zero, zero_mul, integral_zero] at a
      simpa [P, h] using a
    | succ m =>
      rw [P_deriv] at a
      have e : (fun x : ℝ => (P n * (C (√2 * √((m : ℝ) + 1)) * P m)).eval x * exp (-1 * x ^ 2)) = fun x => (√2 * √((m : ℝ) + 1)) * ((P n * P m).eval x * exp (-1 * x ^ 2)) := by
        funext x
        simp only [eval_mul, eval_C]
        ring
      rw [e, integral_const_mul, ih] at a
      have s2 : √2 ≠ (0 : ℝ) := by positivity
      apply mul_left_cancel₀ h
      rw [a]
      by_cases hnm : n = m
      · subst hnm
        simp only [if_true]
        field_simp
      · rw [if_neg hnm, if_neg (by omega)]
        simp

/-- norms with the weight exp(-x^2/2): recurrence -/
theorem P_norm_rec (n : ℕ) : √((n : ℝ) + 2) * ∫ x : ℝ, (P (n + 2)).eval x * exp (-(1 / 2) * x ^ 2) = √((n : ℝ) + 1) * ∫ x : ℝ, (P n).eval x * exp (-(1 / 2) * x ^ 2) := by
  have hb : (0 : ℝ) < 1 / 2 := by norm_num
  have h := integral_parts (1 / 2) hb (P (n + 1))
  rw [P_deriv] at h
  have e1 : (fun x : ℝ => (C (√2 * √((n : ℝ) + 1)) * P n).eval x * exp (-(1 / 2) * x ^ 2)) = fun x => (√2 * √((n : ℝ) + 1)) * ((P n).eval x * exp (-(1 / 2) * x ^ 2)) := by
    funext x
    simp only [eval_mul, eval_C]
    ring
  rw [e1, integral_const_mul] at h
  have e2 : (fun x : ℝ => √((n : ℝ) + 2) * ((P (n + 2)).eval x * exp (-(1 / 2) * x ^ 2))) =
      fun x => √2 * ((C (2 * (1 / 2)) * X * P (n + 1)).eval x * exp (-(1 / 2) * x ^ 2)) - √((n : ℝ) + 1) * ((P n).eval x * exp (-(1 / 2) * x ^ 2)) := by
    funext x
    have r := P_eval_succ n x
    simp only [eval_mul, eval_C, eval_X]
    linear_combination exp (-(1 / 2) * x ^ 2) * r
  rw [← integral_const_mul, e2, integral_sub ((integrable_poly _ hb _).const_mul _) ((integrable_poly _ hb _).const_mul _), integral_const_mul, integral_const_mul, ← h]
  have s2 : √2 * √2 = (2 : ℝ) := sq2 2 (by norm_num)
  linear_combination (√((n : ℝ) + 1) * ∫ x : ℝ, (P n).eval x * exp (-(1 / 2) * x ^ 2)) * s2

theorem P_norm_zero : ∫ x : ℝ, (P 0).eval x * exp (-(1 / 2) * x ^ 2) = √(2 * π) := by
  have := integral_gaussian (1 / 2)
  simp only [P, eval_one, one_mul]
  rw [this]
  congr 1
  ring

theorem P_norm_one : ∫ x : ℝ, (P 1).eval x * exp (-(1 / 2) * x ^ 2) = 0 := by
  have h := integral_parts (1 / 2) (by norm_num) 1
  simp only [derivative_one, eval_zero, zero_mul, integral_zero] at h
  have e : (fun x : ℝ => (P 1).eval x * exp (-(1 / 2) * x ^ 2)) = fun x => √2 * ((C (2 * (1 / 2)) * X * 1 : ℝ[X]).eval x * exp (-(1 / 2) * x ^ 2)) := by
    funext x
    simp [P]
    ring
  rw [e, integral_const_mul, ← h, mul_zero]

/-- the norms: sqrt(n!)/n!! for even n, zero for odd n -/
theorem P_norm (n : ℕ) : ∫ x : ℝ, (P n).eval x * exp (-(1 / 2) * x ^ 2) = √(2 * π) * if n % 2 = 1 then 0 else √(n.factorial : ℝ) / (n.doubleFactorial : ℝ) := by
  induction n using Nat.strong_induction_on with
  | _ n ih =>
    match n with
    | 0 => rw [P_norm_zero]; simp
    | 1 => rw [P_norm_one]; simp
    | n + 2 =>
      have r := P_norm_rec n
      rw [ih n (by omega)] at r
      have h : √((n : ℝ) + 2) ≠ 0 := by positivity
      apply mul_left_cancel₀ h
      rw [r, show (n + 2) % 2 = n % 2 by omega]
      split
      · simp
      · rw [Nat.factorial_succ (n + 1), Nat.factorial_succ n, Nat.doubleFactorial_add_two]
        push_cast
        have hf : ((n.doubleFactorial : ℕ) : ℝ) ≠ 0 := by exact_mod_cast (Nat.doubleFactorial_pos n).ne'
        have sf : √(((n : ℝ) + 1) * (n.factorial : ℝ)) = √((n : ℝ) + 1) * √(n.factorial : ℝ) := Real.sqrt_mul (by positivity) _
        rw [show (n : ℝ) + 1 + 1 = n + 2 by ring, Real.sqrt_mul (by positivity) (((n : ℝ) + 1) * (n.factorial : ℝ)), sf]
        have s : √((n : ℝ) + 2) ^ 2 = n + 2 := Real.sq_sqrt (by positivity)
        field_simp
        rw [s]

end

end Verif.GH
