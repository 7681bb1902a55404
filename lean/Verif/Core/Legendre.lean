import Mathlib.Analysis.SpecialFunctions.Integrals.Basic
import Mathlib.Analysis.Calculus.Deriv.Polynomial
import Mathlib.LinearAlgebra.Lagrange
import Mathlib.Tactic

/-! Legendre polynomials (specification side of C53) and the Gauss-Legendre rule. -/
namespace Verif.Leg

open Polynomial

noncomputable section

/-- Legendre polynomials by Bonnet's recurrence (l+2) P_{l+2} = (2l+3) x P_{l+1} - (l+1) P_l. -/
def leg : ℕ → ℝ[X]
  | 0 => 1
  | 1 => X
  | l + 2 => C ((2 * (l : ℝ) + 3) / ((l : ℝ) + 2)) * (X * leg (l + 1)) - C (((l : ℝ) + 1) / ((l : ℝ) + 2)) * leg l

theorem bonnet (l : ℕ) : C ((l : ℝ) + 2) * leg (l + 2) = C (2 * (l : ℝ) + 3) * (X * leg (l + 1)) - C ((l : ℝ) + 1) * leg l := by
  have hl : (l : ℝ) + 2 ≠ 0 := by positivity
  have h1 : C ((l : ℝ) + 2) * C ((2 * (l : ℝ) + 3) / ((l : ℝ) + 2)) = C (2 * (l : ℝ) + 3) := by
    rw [← C_mul, mul_div_cancel₀ _ hl]
  have h2 : C ((l : ℝ) + 2) * C (((l : ℝ) + 1) / ((l : ℝ) + 2)) = C ((l : ℝ) + 1) := by
    rw [← C_mul, mul_div_cancel₀ _ hl]
  rw [leg]
  linear_combination (X * leg (l + 1)) * h1 - leg l * h2

/-- P'_{n+1} = x P'_n + (n+1) P_n and x P'_{n+1} - P'_n = (n+1) P_{n+1}. -/
theorem deriv_pair (n : ℕ) : derivative (leg (n + 1)) = X * derivative (leg n) + C ((n : ℝ) + 1) * leg n ∧
    X * derivative (leg (n + 1)) - derivative (leg n) = C ((n : ℝ) + 1) * leg (n + 1) := by
  induction n with
  | zero => simp [leg]
  | succ n ih =>
    obtain ⟨a, b⟩ := ih
    have hb := bonnet n
    have hd := congrArg derivative hb
    simp only [derivative_mul, derivative_sub, derivative_C, derivative_X, zero_mul, zero_add, one_mul] at hd
    have hne : C ((n : ℝ) + 2) ≠ 0 := by rw [Ne, C_eq_zero]; positivity
    have e2 : C (2 * (n : ℝ) + 3) = 2 * C (n : ℝ) + 3 := by rw [map_add, map_mul]; rfl
    have e1 : C ((n : ℝ) + 1) = C (n : ℝ) + 1 := by rw [map_add]; rfl
    have e3 : C ((n : ℝ) + 2) = C (n : ℝ) + 2 := by rw [map_add]; rfl
    have e4 : C (((n + 1 : ℕ) : ℝ) + 1) = C (n : ℝ) + 2 := by
      rw [← e3]; congr 1; push_cast; ring
    rw [e1, e2, e3] at hb hd
    rw [e1] at a b
    rw [e3] at hne
    rw [e4]
    have A : derivative (leg (n + 1 + 1)) = X * derivative (leg (n + 1)) + (C (n : ℝ) + 2) * leg (n + 1) := by
      apply mul_left_cancel₀ hne
      linear_combination hd + (C (n : ℝ) + 1) * b
    refine ⟨A, ?_⟩
    rw [A]
    linear_combination (-1 : ℝ[X]) * hb + X * b - (1 : ℝ[X]) * a

/-- (1-x^2) P'_{n+1} = (n+1) (P_n - x P_{n+1}). -/
theorem deriv_formula (n : ℕ) :
    (1 - X ^ 2) * derivative (leg (n + 1)) = C ((n : ℝ) + 1) * (leg n - X * leg (n + 1)) := by
  obtain ⟨a, b⟩ := deriv_pair n
  linear_combination a - X * b

/-- Legendre's equation. -/
theorem legendre_ode (n : ℕ) :
    (1 - X ^ 2) * derivative (derivative (leg (n + 1))) - 2 * X * derivative (leg (n + 1)) +
      C (((n : ℝ) + 1) * (n + 2)) * leg (n + 1) = 0 := by
  have h := congrArg derivative (deriv_formula n)
  obtain ⟨a, b⟩ := deriv_pair n
  simp only [derivative_mul, derivative_sub, derivative_C, derivative_X, zero_mul, zero_add, one_mul, derivative_one,
    derivative_X_pow, zero_sub] at h
  have e2 : C (((2 : ℕ) : ℝ)) = (2 : ℝ[X]) := by simp; rfl
  have e : C (((n : ℝ) + 1) * (n + 2)) = C ((n : ℝ) + 1) * (C ((n : ℝ) + 1) + 1) := by
    rw [← C_1, ← C_add, ← C_mul]; congr 1; ring
  rw [e]
  rw [e2, show (2 - 1 : ℕ) = 1 from rfl, pow_one] at h
  linear_combination h - C ((n : ℝ) + 1) * b

theorem eval_ends (n : ℕ) : (leg n).eval 1 = 1 ∧ (leg n).eval (-1) = (-1) ^ n := by
  induction n using Nat.strong_induction_on with
  | _ n ih =>
    match n with
    | 0 => simp [leg]
    | 1 => simp [leg]
    | n + 2 =>
      obtain ⟨a, b⟩ := ih (n + 1) (by omega)
      obtain ⟨c, d⟩ := ih n (by omega)
      have : (n : ℝ) + 2 ≠ 0 := by positivity
      constructor
      · simp only [leg, eval_sub, eval_mul, eval_C, eval_X, a, c]; field_simp; ring
      · simp only [leg, eval_sub, eval_mul, eval_C, eval_X, b, d]; field_simp; ring

/-- (2n+3) P_{n+1} = P'_{n+2} - P'_n. -/
theorem leg_antideriv (n : ℕ) : C (2 * (n : ℝ) + 3) * leg (n + 1) = derivative (leg (n + 2) - leg n) := by
  obtain ⟨a, b⟩ := deriv_pair n
  obtain ⟨c, d⟩ := deriv_pair (n + 1)
  have e : C (2 * (n : ℝ) + 3) = C (((n + 1 : ℕ) : ℝ) + 1) + C ((n : ℝ) + 1) := by
    rw [← C_add]; congr 1; push_cast; ring
  rw [derivative_sub, e]
  linear_combination - c - b

theorem integral_derivative (p : ℝ[X]) : ∫ x in (-1 : ℝ)..1, (derivative p).eval x = p.eval 1 - p.eval (-1) := by
  exact intervalIntegral.integral_eq_sub_of_hasDerivAt (f := fun x => p.eval x) (fun x _ => p.hasDerivAt x)
    ((derivative p).continuous.intervalIntegrable _ _)

theorem int_add (p q : ℝ[X]) : ∫ x in (-1 : ℝ)..1, (p + q).eval x = (∫ x in (-1 : ℝ)..1, p.eval x) + ∫ x in (-1 : ℝ)..1, q.eval x := by
  simp only [eval_add]
  exact intervalIntegral.integral_add (p.continuous.intervalIntegrable _ _) (q.continuous.intervalIntegrable _ _)

theorem int_C_mul (a : ℝ) (p : ℝ[X]) : ∫ x in (-1 : ℝ)..1, (C a * p).eval x = a * ∫ x in (-1 : ℝ)..1, p.eval x := by
  simp only [eval_mul, eval_C]
  exact intervalIntegral.integral_const_mul _ _

/-- The integral as a linear map. -/
def L : ℝ[X] →ₗ[ℝ] ℝ where
  toFun p := ∫ x in (-1 : ℝ)..1, p.eval x
  map_add' := int_add
  map_smul' a p := by rw [smul_eq_C_mul, int_C_mul]; rfl

theorem L_def (p : ℝ[X]) : L p = ∫ x in (-1 : ℝ)..1, p.eval x := rfl

theorem L_C_mul (a : ℝ) (p : ℝ[X]) : L (C a * p) = a * L p := int_C_mul a p

/-- P_n is orthogonal to powers below n. -/
theorem ortho_pow (j n : ℕ) (h : j < n) : L (leg n * X ^ j) = 0 := by
  induction j generalizing n with
  | zero =>
    obtain ⟨n, rfl⟩ : ∃ m, n = m + 1 := ⟨n - 1, by omega⟩
    have hn : (2 * (n : ℝ) + 3) ≠ 0 := by positivity
    have : (2 * (n : ℝ) + 3) * L (leg (n + 1) * X ^ 0) = 0 := by
      rw [pow_zero, mul_one, ← L_C_mul, leg_antideriv, L_def, integral_derivative]
      simp only [eval_sub, (eval_ends _).1, (eval_ends _).2]
      rw [pow_add]; ring
    exact (mul_eq_zero.1 this).resolve_left hn
  | succ j ih =>
    obtain ⟨n, rfl⟩ : ∃ m, n = m + 1 := ⟨n - 1, by omega⟩
    have hn : (2 * (n : ℝ) + 3) ≠ 0 := by positivity
    have e : C (2 * (n : ℝ) + 3) * (leg (n + 1) * X ^ (j + 1)) = derivative ((leg (n + 2) - leg n) * X ^ (j + 1)) -
        C ((j : ℝ) + 1) * (leg (n + 2) * X ^ j) + C ((j : ℝ) + 1) * (leg n * X ^ j) := by
      rw [derivative_mul, ← leg_antideriv, derivative_X_pow]
      simp only [Nat.cast_add, Nat.cast_one, Nat.add_sub_cancel]
      ring
    have : (2 * (n : ℝ) + 3) * L (leg (n + 1) * X ^ (j + 1)) = 0 := by
      rw [← L_C_mul, e, map_add, map_sub, L_C_mul, L_C_mul, ih (n + 2) (by omega), ih n (by omega), L_def, integral_derivative]
      simp only [eval_sub, eval_mul, (eval_ends _).1, (eval_ends _).2]
      rw [pow_add]; ring
    exact (mul_eq_zero.1 this).resolve_left hn

/-- P_n is orthogonal to all polynomials of degree below n. -/
theorem ortho (n : ℕ) (q : ℝ[X]) (h : q.degree < n) : L (leg n * q) = 0 := by
  by_cases hq : q = 0
  · rw [hq, mul_zero, map_zero]
  · have hd : q.natDegree < n := (natDegree_lt_iff_degree_lt hq).2 h
    conv_lhs => rw [q.as_sum_range_C_mul_X_pow, Finset.mul_sum, map_sum]
    apply Finset.sum_eq_zero
    intro i hi
    rw [Finset.mem_range] at hi
    rw [mul_left_comm, L_C_mul, ortho_pow i n (by omega), mul_zero]

theorem leg_natDegree_le (n : ℕ) : (leg n).natDegree ≤ n := by
  induction n using Nat.strong_induction_on with
  | _ n ih =>
    match n with
    | 0 => simp [leg]
    | 1 => simp [leg]
    | n + 2 =>
      rw [leg]
      refine le_trans (natDegree_sub_le _ _) (max_le ?_ ?_)
      · refine le_trans (natDegree_C_mul_le _ _) (le_trans natDegree_mul_le ?_)
        have := ih (n + 1) (by omega)
        rw [natDegree_X]; omega
      · refine le_trans (natDegree_C_mul_le _ _) ?_
        have := ih n (by omega)
        omega

/-- Christoffel-Darboux: (x-y) * sum of (2k+1) P_k(x) P_k(y) for k=0..n is (n+1) (P_{n+1}(x) P_n(y) - P_n(x) P_{n+1}(y)). -/
theorem christoffel_darboux (n : ℕ) (y : ℝ) :
    (X - C y) * ∑ k ∈ Finset.range (n + 1), C ((2 * (k : ℝ) + 1) * (leg k).eval y) * leg k =
      C (((n : ℝ) + 1) * (leg n).eval y) * leg (n + 1) - C (((n : ℝ) + 1) * (leg (n + 1)).eval y) * leg n := by
  induction n with
  | zero => simp [leg]
  | succ n ih =>
    rw [Finset.sum_range_succ, mul_add, ih]
    have hb := bonnet n
    have hy := congrArg (fun p => C (p.eval y)) hb
    simp only [eval_mul, eval_sub, eval_C, eval_X] at hy
    simp only [map_mul, map_sub, map_add, C_1, Nat.cast_add, Nat.cast_one] at hb hy ⊢
    have e2 : C (2 : ℝ) = 2 := rfl
    have e3 : C (3 : ℝ) = 3 := rfl
    rw [e2, e3] at hb hy
    rw [e2]
    linear_combination (-C (eval y (leg (n + 1)))) * hb + leg (n + 1) * hy

/-- The weights: if P_n(y)=0, P_n = (x-y) s, then the integral of s is 2 / (n P_{n-1}(y)). -/
theorem integral_quotient (n : ℕ) (y : ℝ) (hy : (leg (n + 1)).eval y = 0) (s : ℝ[X]) (hs : leg (n + 1) = (X - C y) * s) :
    ((n : ℝ) + 1) * (leg n).eval y * L s = 2 := by
  have h := christoffel_darboux n y
  rw [hy, mul_zero, C_0, zero_mul, sub_zero, hs, mul_left_comm] at h
  have hne : (X - C y : ℝ[X]) ≠ 0 := X_sub_C_ne_zero y
  have h' := mul_left_cancel₀ hne h
  rw [← L_C_mul, ← h', map_sum, Finset.sum_range_succ']
  simp only [L_C_mul]
  have z : ∀ k, L (leg (k + 1)) = 0 := by
    intro k
    have := ortho_pow 0 (k + 1) (by omega)
    simpa using this
  simp only [z, mul_zero, Finset.sum_const_zero, zero_add]
  rw [leg, L_def]
  simp; norm_num

/-- Gauss-Legendre: n distinct roots of P_n with weights 2/((1-x^2) P_n'(x)^2) integrate all polynomials of degree below 2n
exactly over [-1,1]. -/
theorem gauss (n : ℕ) (x : Fin (n + 1) → ℝ) (hinj : Function.Injective x) (hroot : ∀ i, (leg (n + 1)).eval (x i) = 0)
    (hd : ∀ i, (derivative (leg (n + 1))).eval (x i) ≠ 0) (h1 : ∀ i, 1 - x i ^ 2 ≠ 0) (q : ℝ[X])
    (hq : q.degree < ((2 * (n + 1) : ℕ) : WithBot ℕ)) :
    ∑ i, 2 / ((1 - x i ^ 2) * (derivative (leg (n + 1))).eval (x i) ^ 2) * q.eval (x i) = ∫ t in (-1 : ℝ)..1, q.eval t := by
  have hleg0 : leg (n + 1) ≠ 0 := by
    intro h; apply hd 0; rw [h]; simp
  have hfac : ∀ i, ∃ s, leg (n + 1) = (X - C (x i)) * s := fun i => dvd_iff_isRoot.2 (hroot i)
  choose s hs using hfac
  have hs0 : ∀ i, s i ≠ 0 := by
    intro i h; apply hleg0; rw [hs i, h, mul_zero]
  have sdeg : ∀ i, (s i).natDegree ≤ n := by
    intro i
    have h := leg_natDegree_le (n + 1)
    rw [hs i, natDegree_mul (X_sub_C_ne_zero _) (hs0 i), natDegree_X_sub_C] at h
    omega
  have sii : ∀ i, (s i).eval (x i) = (derivative (leg (n + 1))).eval (x i) := by
    intro i
    have h := congrArg (fun p => eval (x i) (derivative p)) (hs i)
    simp only [derivative_mul, eval_add, eval_mul, derivative_sub, derivative_X, derivative_C, eval_sub, eval_X, eval_C, sub_self,
      zero_mul, add_zero, sub_zero, one_mul] at h
    exact h.symm
  have sij : ∀ i j, i ≠ j → (s i).eval (x j) = 0 := by
    intro i j hij
    have h := congrArg (eval (x j)) (hs i)
    rw [hroot j, eval_mul] at h
    have hne : eval (x j) (X - C (x i)) ≠ 0 := by
      simp only [eval_sub, eval_X, eval_C]
      exact sub_ne_zero.2 fun e => hij (hinj e.symm)
    exact (mul_eq_zero.1 h.symm).resolve_left hne
  set N : ℝ[X] := ∏ i, (X - C (x i)) with hN
  have hNm : N.Monic := monic_prod_of_monic _ _ fun i _ => monic_X_sub_C _
  have hNd : N.natDegree = n + 1 := by
    rw [hN, natDegree_prod_of_monic _ _ fun i _ => monic_X_sub_C _]; simp
  have hdvd : ∀ p : ℝ[X], (∀ i, p.eval (x i) = 0) → N ∣ p := by
    intro p hp
    refine Finset.prod_dvd_of_coprime ?_ fun i _ => dvd_iff_isRoot.2 (hp i)
    exact fun i _ j _ hij => pairwise_coprime_X_sub_C hinj hij
  obtain ⟨c, hc⟩ := hdvd _ hroot
  have hc0 : c ≠ 0 := by intro h; apply hleg0; rw [hc, h, mul_zero]
  obtain ⟨a, rfl⟩ : ∃ a, c = C a := by
    have h := leg_natDegree_le (n + 1)
    rw [hc, natDegree_mul hNm.ne_zero hc0, hNd] at h
    obtain ⟨a, h⟩ := natDegree_eq_zero.1 (show c.natDegree = 0 by omega)
    exact ⟨a, h.symm⟩
  have ha : a ≠ 0 := by intro h; apply hc0; rw [h, C_0]
  set r : ℝ[X] := ∑ i, C (q.eval (x i) / (derivative (leg (n + 1))).eval (x i)) * s i with hr
  have reval : ∀ j, r.eval (x j) = q.eval (x j) := by
    intro j
    rw [hr, eval_finsetSum, Finset.sum_eq_single j]
    · rw [eval_mul, eval_C, sii j, div_mul_cancel₀ _ (hd j)]
    · intro i _ hij; rw [eval_mul, sij i j hij, mul_zero]
    · intro h; exact absurd (Finset.mem_univ j) h
  obtain ⟨t, ht⟩ := hdvd (q - r) (fun i => by rw [eval_sub, reval, sub_self])
  have rdeg : r.degree < ((2 * (n + 1) : ℕ) : WithBot ℕ) := by
    have : r.natDegree ≤ n := by
      rw [hr]
      exact natDegree_sum_le_of_forall_le _ _ fun i _ => le_trans (natDegree_C_mul_le _ _) (sdeg i)
    refine lt_of_le_of_lt degree_le_natDegree ?_
    exact_mod_cast (show r.natDegree < 2 * (n + 1) by omega)
  have tdeg : t.degree < ((n + 1 : ℕ) : WithBot ℕ) := by
    by_cases h0 : t = 0
    · rw [h0, degree_zero]; exact WithBot.bot_lt_coe _
    · have hlt : (q - r).degree < ((2 * (n + 1) : ℕ) : WithBot ℕ) := lt_of_le_of_lt (degree_sub_le _ _) (max_lt hq rdeg)
      have hne : q - r ≠ 0 := by rw [ht]; exact mul_ne_zero hNm.ne_zero h0
      have := (natDegree_lt_iff_degree_lt hne).2 hlt
      rw [ht, natDegree_mul hNm.ne_zero h0, hNd] at this
      exact (natDegree_lt_iff_degree_lt h0).1 (by omega)
  have hz : L (N * t) = 0 := by
    have h := ortho (n + 1) t tdeg
    rw [hc, show N * C a * t = C a * (N * t) by ring, L_C_mul] at h
    exact (mul_eq_zero.1 h).resolve_left ha
  have hqr : L q = L r := by
    have : q = r + N * t := by rw [← ht]; ring
    rw [this, map_add, hz, add_zero]
  rw [← L_def, hqr, hr, map_sum]
  apply Finset.sum_congr rfl
  intro i _
  rw [L_C_mul]
  have e1 := integral_quotient n (x i) (hroot i) (s i) (hs i)
  have e2 := congrArg (eval (x i)) (deriv_formula n)
  simp only [eval_mul, eval_sub, eval_one, eval_pow, eval_X, eval_C, hroot i, mul_zero, sub_zero] at e2
  rw [← e2] at e1
  have hdi := hd i
  have h1i := h1 i
  have : L (s i) = 2 / ((1 - x i ^ 2) * eval (x i) (derivative (leg (n + 1)))) := by
    rw [eq_div_iff (mul_ne_zero h1i hdi)]; linarith
  rw [this]
  field_simp

end
end Verif.Leg
