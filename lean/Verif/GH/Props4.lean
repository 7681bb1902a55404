import Verif.GH.Props2
import Mathlib.Analysis.SpecialFunctions.Gaussian.PoissonSummation
import Mathlib.Analysis.Complex.ExponentialBounds
import Mathlib.Analysis.Real.Pi.Bounds

/-! # C103, continued: the zeroth moment of a gaussian -/

namespace Verif.GH

open Real

noncomputable section

theorem summable_gauss (b : ℝ) (hb : 0 < b) : Summable fun n : ℕ => exp (-b * (n : ℝ) ^ 2) := by
  have hg : Summable fun n : ℕ => exp (-b) ^ n := summable_geometric_of_lt_one (exp_pos _).le (by rw [exp_lt_one_iff]; linarith)
  refine Summable.of_nonneg_of_le (fun n => (exp_pos _).le) (fun n => ?_) hg
  rw [← exp_nat_mul]
  apply exp_le_exp.2
  have : (n : ℝ) ≤ (n : ℝ) ^ 2 := by exact_mod_cast Nat.le_self_pow (by norm_num) n
  nlinarith

theorem tsum_int_gauss (b : ℝ) (hb : 0 < b) : ∑' n : ℤ, exp (-b * (n : ℝ) ^ 2) = (∑' n : ℕ, exp (-b * (n : ℝ) ^ 2)) + ∑' n : ℕ, exp (-b * ((n : ℝ) + 1) ^ 2) := by
  have s := summable_gauss b hb
  have s1 := (summable_nat_add_iff 1).2 s
  push_cast at s1
  have := HasSum.of_nat_of_neg_add_one (f := fun n : ℤ => exp (-b * (n : ℝ) ^ 2)) (m := ∑' n : ℕ, exp (-b * (n : ℝ) ^ 2)) (m' := ∑' n : ℕ, exp (-b * ((n : ℝ) + 1) ^ 2))
    (by simpa using s.hasSum) (by
      have h := s1.hasSum
      refine h.congr_fun ?_
      intro n
      push_cast
      congr 1
      ring)
  exact this.tsum_eq

/-- remainder of the sum -/
theorem tail_gauss (b : ℝ) (hb : 0 < b) (N : ℕ) : ∑' n : ℕ, exp (-b * ((n : ℝ) + N) ^ 2) ≤ exp (-b * N ^ 2) / (1 - exp (-(b * N))) ∨ N = 0 := by
  by_cases hN : N = 0
  · right; exact hN
  left
  have hN0 : (0 : ℝ) < N := by exact_mod_cast Nat.pos_of_ne_zero hN
  have hr : exp (-(b * N)) < 1 := by rw [exp_lt_one_iff]; nlinarith
  have hg : Summable fun n : ℕ => exp (-b * N ^ 2) * exp (-(b * N)) ^ n := (summable_geometric_of_lt_one (exp_pos _).le hr).mul_left _
  have s := (summable_nat_add_iff N).2 (summable_gauss b hb)
  push_cast at s
  have := s.tsum_le_tsum (fun n => by
    show exp (-b * ((n : ℝ) + N) ^ 2) ≤ exp (-b * N ^ 2) * exp (-(b * N)) ^ n
    rw [← exp_nat_mul, ← exp_add]
    apply exp_le_exp.2
    have hn : (0 : ℝ) ≤ n := Nat.cast_nonneg n
    nlinarith [mul_nonneg hn hN0.le, mul_nonneg hb.le (mul_nonneg hn hN0.le), mul_nonneg hb.le (sq_nonneg (n : ℝ))]) hg
  rw [tsum_mul_left, tsum_geometric_of_lt_one (exp_pos _).le hr] at this
  rw [div_eq_mul_inv]
  exact this

/-- the sum over integers, exact to 1e-20 -/
theorem theta_value : |(∑' n : ℤ, exp (-(1 / 49) * (n : ℝ) ^ 2)) / (7 * √π) - 1| ≤ 1e-30 := by
  have h := Real.tsum_exp_neg_mul_int_sq (a := 1 / (49 * π)) (by positivity)
  have e1 : ∀ n : ℤ, -π * (1 / (49 * π)) * (n : ℝ) ^ 2 = -(1 / 49) * (n : ℝ) ^ 2 := by
    intro n
    have := pi_ne_zero
    field_simp
  have e2 : ∀ n : ℤ, -π / (1 / (49 * π)) * (n : ℝ) ^ 2 = -(49 * π ^ 2) * (n : ℝ) ^ 2 := by
    intro n
    have := pi_ne_zero
    field_simp
  have e3 : (1 : ℝ) / (1 / (49 * π)) ^ (1 / 2 : ℝ) = 7 * √π := by
    rw [← Real.sqrt_eq_rpow, Real.sqrt_div (by norm_num), Real.sqrt_one, one_div_one_div, Real.sqrt_mul (by norm_num), show (49 : ℝ) = 7 ^ 2 by norm_num, Real.sqrt_sq (by norm_num)]
  simp only [e1, e2, e3] at h
  rw [h, mul_div_cancel_left₀ _ (by positivity : 7 * √π ≠ 0), tsum_int_gauss _ (by positivity)]
  have hb : (400 : ℝ) ≤ 49 * π ^ 2 := by nlinarith [pi_gt_three]
  have s := summable_gauss (49 * π ^ 2) (by positivity)
  rw [s.tsum_eq_zero_add]
  have t := (tail_gauss (49 * π ^ 2) (by positivity) 1).resolve_right (by norm_num)
  push_cast at t ⊢
  have nn : 0 ≤ ∑' n : ℕ, exp (-(49 * π ^ 2) * ((n : ℝ) + 1) ^ 2) := tsum_nonneg fun n => (exp_pos _).le
  have e100 : exp (-100) ≤ 1e-40 := by
    have := Real.exp_one_gt_d9
    have h2 : exp 100 = exp 1 ^ 100 := by rw [← exp_nat_mul]; norm_num
    rw [exp_neg, h2]
    rw [inv_le_comm₀ (by positivity) (by norm_num)]
    calc (1e-40 : ℝ)⁻¹ ≤ (2.7182818283 : ℝ) ^ 100 := by norm_num
      _ ≤ exp 1 ^ 100 := pow_le_pow_left₀ (by norm_num) this.le _
  have e : exp (-(49 * π ^ 2) * 1 ^ 2) ≤ 1e-40 := le_trans (exp_le_exp.2 (by nlinarith)) e100
  have e' : exp (-(49 * π ^ 2 * 1)) ≤ 1e-40 := le_trans (exp_le_exp.2 (by nlinarith)) e100
  have t2 : ∑' n : ℕ, exp (-(49 * π ^ 2) * ((n : ℝ) + 1) ^ 2) ≤ 2e-40 := by
    refine le_trans t ?_
    rw [div_le_iff₀ (by linarith)]
    nlinarith [exp_pos (-(49 * π ^ 2 * 1))]
  norm_num
  norm_num at t2 nn
  rw [abs_le]
  constructor <;> linarith

/-- C103: the zeroth moment which the code computes for a gaussian with the same parameters is 1 (in exact arithmetic, to twenty digits) -/
theorem C103_gauss_zeroth (order : ℕ) (A c w : ℝ) (hA : A ≠ 0) (hw : 0 < w) : |computeMoments (gauss A c w) order A c w 0 - 1| ≤ 1e-20 := by
  have key : computeMoments (gauss A c w) order A c w 0 = (∑ p ∈ Finset.range 50, (exp (-(1 / 49) * (p : ℝ) ^ 2) + if p = 0 then 0 else exp (-(1 / 49) * (p : ℝ) ^ 2))) / (7 * √π) := by
    rw [C103_moments_sum _ _ _ _ _ _ (Nat.zero_le _)]
    have := sum_sym (fun q => exp (-(1 / 49) * q ^ 2)) 49
    simp only [show 2 * 49 + 1 = 99 by norm_num, show 49 + 1 = 50 by norm_num, neg_sq] at this
    rw [← this, Finset.mul_sum, Finset.sum_div]
    apply Finset.sum_congr rfl
    intro p _
    have e : (c + w * ypt p - c) / w = ypt p := by field_simp; ring
    rw [gauss, e, show H 0 (ypt p) = 1 by simp [H], Real.sqrt_mul (by norm_num)]
    have ee : exp (-(ypt p) ^ 2 / 2) * exp (-(ypt p) ^ 2 / 2) = exp (-(1 / 49) * ((p : ℝ) - (49 : ℕ)) ^ 2) := by
      rw [← exp_add, ypt]
      congr 1
      push_cast
      ring
    rw [← ee]
    field_simp
  have hsplit : (∑' n : ℤ, exp (-(1 / 49) * (n : ℝ) ^ 2)) = (∑ p ∈ Finset.range 50, (exp (-(1 / 49) * (p : ℝ) ^ 2) + if p = 0 then 0 else exp (-(1 / 49) * (p : ℝ) ^ 2))) +
      2 * ∑' n : ℕ, exp (-(1 / 49) * ((n : ℝ) + (50 : ℕ)) ^ 2) := by
    rw [tsum_int_gauss _ (by norm_num)]
    have s := summable_gauss (1 / 49) (by norm_num)
    have s1 := (summable_nat_add_iff 1).2 s
    rw [← s.sum_add_tsum_nat_add 50]
    push_cast at s1
    rw [← s1.sum_add_tsum_nat_add 49, Finset.sum_add_distrib]
    have : ∑ p ∈ Finset.range 50, (if p = 0 then 0 else exp (-(1 / 49) * (p : ℝ) ^ 2)) = ∑ p ∈ Finset.range 49, exp (-(1 / 49) * ((p : ℝ) + 1) ^ 2) := by
      rw [Finset.sum_range_succ']
      simp
    rw [this]
    have e : ∀ n : ℕ, ((n + 49 : ℕ) : ℝ) + 1 = (n : ℝ) + (50 : ℕ) := fun n => by push_cast; ring
    simp only [e]
    push_cast
    ring
  have th := theta_value
  rw [hsplit, add_div, ← key] at th
  have t := (tail_gauss (1 / 49) (by norm_num) 50).resolve_right (by norm_num)
  have nn : 0 ≤ ∑' n : ℕ, exp (-(1 / 49) * ((n : ℝ) + (50 : ℕ)) ^ 2) := tsum_nonneg fun n => (exp_pos _).le
  set T := ∑' n : ℕ, exp (-(1 / 49) * ((n : ℝ) + (50 : ℕ)) ^ 2) with hT
  have e51 : exp (-(1 / 49) * ((50 : ℕ) : ℝ) ^ 2) ≤ 1e-22 := by
    have h1 := Real.exp_one_gt_d9
    have h2 : exp 51 = exp 1 ^ 51 := by rw [← exp_nat_mul]; norm_num
    have h3 : exp (-(1 / 49) * ((50 : ℕ) : ℝ) ^ 2) ≤ exp (-51) := exp_le_exp.2 (by norm_num)
    refine le_trans h3 ?_
    rw [exp_neg, h2]
    rw [inv_le_comm₀ (by positivity) (by norm_num)]
    calc (1e-22 : ℝ)⁻¹ ≤ (2.7182818283 : ℝ) ^ 51 := by norm_num
      _ ≤ exp 1 ^ 51 := pow_le_pow_left₀ (by norm_num) h1.le _
  have e1 : exp (-(1 / 49 * ((50 : ℕ) : ℝ))) ≤ 1 / 2 := by
    have h1 := Real.exp_one_gt_d9
    have h3 : exp (-(1 / 49 * ((50 : ℕ) : ℝ))) ≤ exp (-1) := exp_le_exp.2 (by norm_num)
    refine le_trans h3 ?_
    rw [exp_neg, inv_le_comm₀ (by positivity) (by norm_num)]
    linarith
  have t2 : T ≤ 2e-22 := by
    refine le_trans t ?_
    rw [div_le_iff₀ (by linarith)]
    nlinarith
  have q0 : 0 ≤ 2 * T / (7 * √π) := by positivity
  have q1 : 2 * T / (7 * √π) ≤ 4e-22 := by
    have : 1 ≤ √π := by rw [Real.one_le_sqrt]; linarith [pi_gt_three]
    rw [div_le_iff₀ (by positivity)]
    nlinarith
  rw [abs_le] at th ⊢
  obtain ⟨a, b⟩ := th
  norm_num at a b q1 ⊢
  constructor <;> linarith

/-- with the theorem on stationary points: the zeroth moment found by the constructor which fits the gaussian -/
theorem C103_fitted_zeroth (order : ℕ) (ho : 2 ≤ order) (f : ℝ → ℝ) (vars : ℕ → ℝ) (hA : vars 0 ≠ 0) (hw : 0 < vars 2)
    (hst : ∀ i ≤ 2, ∑ p ∈ Finset.range 99, fitFncValue 2 f p vars * fitFncDeriv 2 p vars i = 0) :
    |computeMoments f order (vars 0) (vars 1) (vars 2) 0 - 1| ≤ 1e-20 ∧ computeMoments f order (vars 0) (vars 1) (vars 2) 1 = 0 := by
  rw [C103_stationary order ho f vars hA hw hst 0 (by norm_num), C103_stationary order ho f vars hA hw hst 1 (by norm_num)]
  refine ⟨C103_gauss_zeroth _ _ _ _ hA hw, ?_⟩
  rw [computeMoments, foldl_sum, zero_add]
  apply Finset.sum_eq_zero
  intro p _
  have e : gauss (vars 0) (vars 1) (vars 2) (vars 1 + vars 2 * ((p : ℝ) * (1 / (QUADORDER : ℝ)))) = gauss (vars 0) (vars 1) (vars 2) (vars 1 - vars 2 * ((p : ℝ) * (1 / (QUADORDER : ℝ)))) := by
    rw [gauss, gauss]
    congr 2
    ring
  by_cases hp : p = 0
  · subst hp
    simp [hermiteArray_eq order _ _ 1 (by omega : 1 ≤ order), H]
  · simp only [hp, if_false, e]
    norm_num

end

end Verif.GH
