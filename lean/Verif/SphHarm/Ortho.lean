import Verif.SphHarm.LegendreProps
import Verif.Core.Legendre

/-! Orthonormality of the functions computed by `sphHarmArray`. -/
namespace Verif.SphHarm
open Polynomial Verif.Leg

/-- the polynomial whose values are `Q m x n` -/
noncomputable def Qp (m : ℕ) : ℕ → ℝ[X]
  | 0 => 1
  | 1 => C (2 * (m : ℝ) + 1) * X
  | n + 2 => C (1 / ((n : ℝ) + 2)) * (C (2 * (m : ℝ) + 2 * n + 3) * X * Qp m (n + 1) - C (2 * (m : ℝ) + n + 1) * Qp m n)

theorem Qp_eval (m : ℕ) (x : ℝ) : ∀ n, (Qp m n).eval x = Q m x n
  | 0 => by simp [Qp, Q]
  | 1 => by simp [Qp, Q]
  | n + 2 => by
    have h : ((n : ℝ) + 2) ≠ 0 := by positivity
    have e := Q_rec m x n
    rw [Qp]
    simp only [eval_mul, eval_sub, eval_C, eval_X]
    rw [Qp_eval m x (n + 1), Qp_eval m x n, one_div, inv_mul_eq_iff_eq_mul₀ h, e]
    ring

theorem Qp_rec (m n : ℕ) : C ((n : ℝ) + 2) * Qp m (n + 2) = C (2 * (m : ℝ) + 2 * n + 3) * X * Qp m (n + 1) - C (2 * (m : ℝ) + n + 1) * Qp m n := by
  have h : ((n : ℝ) + 2) ≠ 0 := by positivity
  rw [Qp, ← mul_assoc, ← C_mul, mul_one_div_cancel h, C_1, one_mul]

theorem Qp_deriv (m n : ℕ) (x : ℝ) : (derivative (Qp m n)).eval x = dQ m x n := by
  have h1 := (Qp m n).hasDerivAt x
  have h2 := hasDerivAt_Q m x n
  have : (fun y => Q m y n) = fun y => (Qp m n).eval y := by ext y; rw [Qp_eval]
  rw [this] at h2
  exact h1.unique h2

theorem Qp_degree (m : ℕ) : ∀ n, (Qp m n).natDegree ≤ n
  | 0 => by simp [Qp]
  | 1 => by rw [Qp]; exact (natDegree_C_mul_le _ _).trans natDegree_X_le
  | n + 2 => by
    rw [Qp]
    refine (natDegree_C_mul_le _ _).trans ((natDegree_sub_le _ _).trans (max_le ?_ ?_))
    · refine (natDegree_mul_le).trans ?_
      have h1 := Qp_degree m (n + 1)
      have h2 : (C (2 * (m : ℝ) + 2 * n + 3) * X).natDegree ≤ 1 := (natDegree_C_mul_le _ _).trans natDegree_X_le
      omega
    · refine (natDegree_C_mul_le _ _).trans ?_
      have h1 := Qp_degree m n
      omega

/-- first-order relations as polynomial identities -/
theorem Qp_first (m n : ℕ) : (X ^ 2 - 1) * derivative (Qp m n) = C ((n : ℝ) + 1) * Qp m (n + 1) - C ((2 * m : ℝ) + n + 1) * X * Qp m n ∧
    (X ^ 2 - 1) * derivative (Qp m (n + 1)) = C ((n : ℝ) + 1) * X * Qp m (n + 1) - C ((2 * m : ℝ) + n + 1) * Qp m n := by
  constructor
  · apply Polynomial.funext
    intro x
    have h := (dQ_ident m x n).2
    simp only [eval_mul, eval_sub, eval_pow, eval_X, eval_one, eval_C, Qp_deriv, Qp_eval]
    linear_combination h
  · apply Polynomial.funext
    intro x
    have h := (dQ_ident m x n).1
    simp only [eval_mul, eval_sub, eval_pow, eval_X, eval_one, eval_C, Qp_deriv, Qp_eval]
    linear_combination h

/-- the differential equation -/
theorem Qp_ode (m n : ℕ) : (1 - X ^ 2) * derivative (derivative (Qp m n)) = C (2 * (m : ℝ) + 2) * X * derivative (Qp m n) - C ((n : ℝ) * (n + 2 * m + 1)) * Qp m n := by
  have hne : ((X : ℝ[X]) ^ 2 - 1) ≠ 0 := by
    intro h
    have := congrArg (eval 0) h
    simp at this
  obtain ⟨h1, h2⟩ := Qp_first m n
  have d := congrArg derivative h1
  simp only [derivative_mul, derivative_sub, derivative_X_pow, derivative_one, derivative_C, derivative_X, sub_zero, zero_mul, zero_add, mul_one, Nat.cast_ofNat, map_ofNat] at d
  refine mul_left_cancel₀ hne ?_
  have e : C ((n : ℝ) * (n + 2 * m + 1)) = (C (n : ℝ)) * (C (n : ℝ) + 2 * C (m : ℝ) + 1) := by
    simp only [C_mul, C_add, map_ofNat, C_1]
  simp only [C_mul, C_add, map_ofNat, C_1, Nat.reduceSub, pow_one] at d h1 h2 e ⊢
  linear_combination (-(X ^ 2 - 1)) * d - (C (n : ℝ) + 1) * h2 + X * (C (n : ℝ) + 1) * h1


/-! ### orthogonality -/

/-- the weight 1-x² -/
noncomputable def W : ℝ[X] := 1 - X ^ 2

theorem L_deriv_W (m : ℕ) (p : ℝ[X]) : L (derivative (W ^ (m + 1) * p)) = 0 := by
  rw [L_def, integral_derivative]
  simp [W]

theorem sturm (m n : ℕ) (p : ℝ[X]) : derivative (W ^ (m + 1) * (derivative (Qp m n) * p)) = W ^ (m + 1) * (derivative (Qp m n) * derivative p) - C ((n : ℝ) * (n + 2 * m + 1)) * (W ^ m * (Qp m n * p)) := by
  have h := Qp_ode m n
  have hW : derivative W = -(C 2 * X) := by
    rw [W]; simp; norm_num; rfl
  simp only [derivative_mul, derivative_pow_succ, hW]
  rw [show (1 - X ^ 2 : ℝ[X]) = W from rfl] at h
  simp only [C_mul, C_add, map_ofNat, C_1, map_natCast] at h ⊢
  rw [pow_succ]
  linear_combination W ^ m * p * h

theorem ortho_ne (m : ℕ) {n k : ℕ} (h : n ≠ k) : L (W ^ m * (Qp m n * Qp m k)) = 0 := by
  have e1 := congrArg L (sturm m n (Qp m k))
  have e2 := congrArg L (sturm m k (Qp m n))
  rw [L_deriv_W, map_sub, L_C_mul] at e1 e2
  rw [mul_comm (derivative (Qp m k)), mul_comm (Qp m k)] at e2
  have hne : (n : ℝ) * (n + 2 * m + 1) - k * (k + 2 * m + 1) ≠ 0 := by
    rw [show (n : ℝ) * (n + 2 * m + 1) - k * (k + 2 * m + 1) = (n - k) * (n + k + 2 * m + 1) by ring]
    refine mul_ne_zero ?_ (by positivity)
    rw [sub_ne_zero]; exact_mod_cast h
  refine (mul_eq_zero.1 ?_).resolve_left hne
  linear_combination e1 - e2

theorem L_W_succ (m : ℕ) : (2 * (m : ℝ) + 3) * L (W ^ (m + 1)) = (2 * m + 2) * L (W ^ m) := by
  have h := L_deriv_W m X
  have hW : derivative W = -(C 2 * X) := by
    rw [W]; simp; norm_num; rfl
  have e : derivative (W ^ (m + 1) * X) = C (2 * (m : ℝ) + 3) * W ^ (m + 1) - C (2 * (m : ℝ) + 2) * W ^ m := by
    simp only [derivative_mul, derivative_pow_succ, hW, derivative_X]
    have : (X : ℝ[X]) ^ 2 = 1 - W := by rw [W]; ring
    simp only [C_mul, C_add, map_ofNat, C_1, map_natCast]
    rw [pow_succ]
    linear_combination (-(2 * (m : ℝ[X]) + 2)) * W ^ m * this
  rw [e, map_sub, L_C_mul, L_C_mul] at h
  linarith

/-- the norm of the polynomial -/
theorem norm_succ (m n : ℕ) : ((n : ℝ) + 1) * (2 * m + 2 * n + 3) * L (W ^ m * (Qp m (n + 1) * Qp m (n + 1))) = (2 * m + 2 * n + 1) * (2 * m + n + 1) * L (W ^ m * (Qp m n * Qp m n)) := by
  have c1 : (2 * (m : ℝ) + 2 * n + 3) * L (W ^ m * (X * (Qp m (n + 1) * Qp m n))) = (2 * m + n + 1) * L (W ^ m * (Qp m n * Qp m n)) := by
    have h := ortho_ne m (n := n + 2) (k := n) (by omega)
    have r := congrArg (fun p => L (W ^ m * (p * Qp m n))) (Qp_rec m n)
    rw [show W ^ m * (C ((n : ℝ) + 2) * Qp m (n + 2) * Qp m n) = C ((n : ℝ) + 2) * (W ^ m * (Qp m (n + 2) * Qp m n)) by ring, L_C_mul, h,
      show W ^ m * ((C (2 * (m : ℝ) + 2 * n + 3) * X * Qp m (n + 1) - C (2 * (m : ℝ) + n + 1) * Qp m n) * Qp m n) = C (2 * (m : ℝ) + 2 * n + 3) * (W ^ m * (X * (Qp m (n + 1) * Qp m n))) - C (2 * (m : ℝ) + n + 1) * (W ^ m * (Qp m n * Qp m n)) by ring,
      map_sub, L_C_mul, L_C_mul] at r
    linarith
  have c2 : ((n : ℝ) + 1) * L (W ^ m * (Qp m (n + 1) * Qp m (n + 1))) = (2 * m + 2 * n + 1) * L (W ^ m * (X * (Qp m (n + 1) * Qp m n))) := by
    rcases n with _ | n
    · have : W ^ m * (Qp m 1 * Qp m 1) = C (2 * (m : ℝ) + 1) * (W ^ m * (X * (Qp m 1 * Qp m 0))) := by
        rw [Qp, Qp]; ring
      rw [zero_add, this, L_C_mul]; push_cast; ring
    · have h := ortho_ne m (n := n) (k := n + 2) (by omega)
      have r := congrArg (fun p => L (W ^ m * (p * Qp m (n + 2)))) (Qp_rec m n)
      rw [show W ^ m * (C ((n : ℝ) + 2) * Qp m (n + 2) * Qp m (n + 2)) = C ((n : ℝ) + 2) * (W ^ m * (Qp m (n + 2) * Qp m (n + 2))) by ring, L_C_mul,
        show W ^ m * ((C (2 * (m : ℝ) + 2 * n + 3) * X * Qp m (n + 1) - C (2 * (m : ℝ) + n + 1) * Qp m n) * Qp m (n + 2)) = C (2 * (m : ℝ) + 2 * n + 3) * (W ^ m * (X * (Qp m (n + 2) * Qp m (n + 1)))) - C (2 * (m : ℝ) + n + 1) * (W ^ m * (Qp m n * Qp m (n + 2))) by ring,
        map_sub, L_C_mul, L_C_mul, h] at r
      push_cast
      linear_combination r
  linear_combination (2 * (m : ℝ) + 2 * n + 3) * c2 + (2 * (m : ℝ) + 2 * n + 1) * c1

open Real in
theorem norm_base (m : ℕ) : (prefact0 m * cm m) ^ 2 * L (W ^ m) = 1 / (2 * π) := by
  have hp : √π ^ 2 = π := sq_sqrt pi_pos.le
  have hpre : ∀ m, (prefact0 m * cm m) ^ 2 = 1 / (4 * π) * ((2 * m + 1) / (Nat.factorial (2 * m) : ℝ)) * (Nat.doubleFactorial (2 * m - 1) : ℝ) ^ 2 := by
    intro m
    rw [mul_pow, prefact0, cm, mul_pow, mul_pow, div_pow, hp, sq_sqrt (by positivity), ← pow_mul, mul_comm m 2, pow_mul (-1 : ℝ), neg_one_sq, one_pow]
    ring
  induction m with
  | zero =>
    rw [hpre]
    have : L (W ^ 0) = 2 := by
      rw [L_def]; simp; norm_num
    rw [this]
    simp
    field_simp
    norm_num
  | succ m ih =>
    rw [hpre] at ih ⊢
    have h := L_W_succ m
    have hf : (Nat.factorial (2 * (m + 1)) : ℝ) = (2 * m + 2) * (2 * m + 1) * Nat.factorial (2 * m) := by
      rw [show 2 * (m + 1) = 2 * m + 1 + 1 by ring, Nat.factorial_succ, Nat.factorial_succ]; push_cast; ring
    have hd : (Nat.doubleFactorial (2 * (m + 1) - 1) : ℝ) = (2 * m + 1) * Nat.doubleFactorial (2 * m - 1) := by
      rcases m with _ | m
      · simp [Nat.doubleFactorial]
      · rw [show 2 * (m + 1 + 1) - 1 = (2 * (m + 1) - 1) + 2 by omega, Nat.doubleFactorial_add_two]
        push_cast
        rw [show ((2 * (m + 1) - 1 : ℕ) : ℝ) = 2 * m + 1 by rw [show 2 * (m + 1) - 1 = 2 * m + 1 by omega]; push_cast; ring]
        ring
    rw [hf, hd]
    have hF : (0 : ℝ) < Nat.factorial (2 * m) := by exact_mod_cast Nat.factorial_pos _
    have hL : L (W ^ (m + 1)) = (2 * m + 2) * L (W ^ m) / (2 * m + 3) := by
      rw [eq_div_iff (by positivity)]; linarith
    rw [← ih, hL]
    push_cast
    field_simp
    ring

open Real in
theorem norm_all (m : ℕ) : ∀ n, (pre m n * cm m) ^ 2 * L (W ^ m * (Qp m n * Qp m n)) = 1 / (2 * π)
  | 0 => by rw [pre, Qp, mul_one, mul_one, norm_base]
  | n + 1 => by
    have ih := norm_all m n
    have h := norm_succ m n
    have hL : L (W ^ m * (Qp m (n + 1) * Qp m (n + 1))) = (2 * m + 2 * n + 1) * (2 * m + n + 1) * L (W ^ m * (Qp m n * Qp m n)) / (((n : ℝ) + 1) * (2 * m + 2 * n + 3)) := by
      rw [eq_div_iff (by positivity)]; linarith
    have ha : (0 : ℝ) ≤ (2 * (m + n + 1 : ℕ) + 1) / (2 * (m + n + 1 : ℕ) - 1) * ((m + n + 1 : ℕ) - m) / ((m + n + 1 : ℕ) + m) := by
      push_cast
      have e1 : 2 * ((m : ℝ) + n + 1) - 1 = 2 * m + 2 * n + 1 := by ring
      have e2 : (m : ℝ) + n + 1 - m = n + 1 := by ring
      rw [e1, e2]; positivity
    rw [pre, mul_pow, mul_pow, sq_sqrt ha, hL, ← ih]
    push_cast
    have e1 : 2 * ((m : ℝ) + n + 1) - 1 = 2 * m + 2 * n + 1 := by ring
    have e2 : (m : ℝ) + n + 1 - m = n + 1 := by ring
    rw [e1, e2]
    field_simp
    ring

/-- orthonormality of the values in the output array of `sphHarmArray`, as functions of cos θ -/
theorem orthonormal (m n k : ℕ) : (pre m n * cm m) * (pre m k * cm m) * L (W ^ m * (Qp m n * Qp m k)) = if n = k then 1 / (2 * Real.pi) else 0 := by
  by_cases h : n = k
  · subst h
    rw [if_pos rfl, ← norm_all m n]; ring
  · rw [if_neg h, ortho_ne m h, mul_zero]

end Verif.SphHarm
