import Verif.GH.Props2
import Mathlib.MeasureTheory.Measure.Lebesgue.Integral

/-! # C103, continued: ordinary moments, derivatives by the higher coefficients -/

namespace Verif.GH

open Real MeasureTheory Set

noncomputable section

theorem image_unit : Verif.Scaling.unscaleSemi .plusZero '' Ioo 0 1 = Ioi 0 := by
  have h := Verif.Scaling.C17_semi_plus
  ext u
  constructor
  · rintro ⟨s, hs, rfl⟩
    exact h.maps s hs.1 hs.2
  · intro hu
    exact ⟨_, h.scale_mem u hu, h.un_sc u hu⟩

/-- change of the variable of integration from x>0 to 0<z<1 -/
theorem integral_unit (g : ℝ → ℝ) : ∫ x in Ioi 0, g x = ∫ z in Ioo 0 1, exp (1 / (1 - z) - 1 / z) * (1 / (1 - z) ^ 2 + 1 / z ^ 2) * g (exp (1 / (1 - z) - 1 / z)) := by
  have h := Verif.Scaling.C17_semi_plus
  rw [← image_unit, integral_image_eq_integral_abs_deriv_smul measurableSet_Ioo (fun s hs => (h.deriv s hs.1 hs.2).hasDerivWithinAt) h.mono.injOn]
  apply setIntegral_congr_fun measurableSet_Ioo
  intro z hz
  simp only [smul_eq_mul]
  rw [abs_of_pos (h.pos z hz.1 hz.2), Verif.Scaling.dudsSemi, Verif.Scaling.unscaleSemi, abs_of_pos (exp_pos _)]

/-- C103: the integrals over the unit interval of the three functions handed to the integration routine are the integrals of f(x), x f(x), x² f(x) over the real axis -/
theorem C103_classic_integrand (f : ℝ → ℝ) (m : ℕ) (hm : m ≤ 2) (hf : Integrable fun x => f x * x ^ m) :
    ∫ z in Ioo (0 : ℝ) 1, momentsIntegrand f z m = ∫ x : ℝ, f x * x ^ m := by
  have e : ∀ z, momentsIntegrand f z m = exp (1 / (1 - z) - 1 / z) * (1 / (1 - z) ^ 2 + 1 / z ^ 2) *
      (fun x => f x * x ^ m + f (-x) * (-x) ^ m) (exp (1 / (1 - z) - 1 / z)) := by
    intro z
    interval_cases m <;>
    · simp only [momentsIntegrand]
      split
      · next h => rw [h.1, h.2]; ring
      · ring
  simp only [e]
  rw [← integral_unit (fun x => f x * x ^ m + f (-x) * (-x) ^ m), integral_add hf.integrableOn hf.comp_neg.integrableOn, integral_comp_neg_Ioi 0 (fun x => f x * x ^ m), neg_zero, add_comm,
    intervalIntegral.integral_Iic_add_Ioi hf.integrableOn hf.integrableOn]

/-- C103: with the exact integrals, the three numbers are the normalisation, the mean and the standard deviation -/
theorem C103_classic (f : ℝ → ℝ) (hf0 : ∀ x, 0 ≤ f x) (h0 : Integrable f) (h1 : Integrable fun x => f x * x) (h2 : Integrable fun x => f x * x ^ 2) (hn : ∫ x, f x ≠ 0) :
    let M := classicMoments (fun m => ∫ z in Ioo (0 : ℝ) 1, momentsIntegrand f z m)
    M 0 = ∫ x, f x ∧ M 1 = (∫ x, f x * x) / ∫ x, f x ∧ M 2 = √((∫ x, f x * (x - M 1) ^ 2) / ∫ x, f x) := by
  intro M
  have i0 := C103_classic_integrand f 0 (by norm_num) (by simpa using h0)
  have i1 := C103_classic_integrand f 1 (by norm_num) (by simpa using h1)
  have i2 := C103_classic_integrand f 2 (by norm_num) h2
  simp only [pow_zero, mul_one, pow_one] at i0 i1
  have m1 : M 1 = (∫ x, f x * x) / ∫ x, f x := by
    simp only [M, classicMoments, i0, i1]
    rw [if_pos hn]
  refine ⟨by simp only [M, classicMoments, i0], m1, ?_⟩
  set μ := M 1 with hμ
  have v : ∫ x, f x * (x - μ) ^ 2 = (∫ x, f x * x ^ 2) - 2 * μ * (∫ x, f x * x) + μ ^ 2 * ∫ x, f x := by
    rw [← integral_const_mul, ← integral_const_mul, ← integral_sub h2 (h1.const_mul _)]
    have := integral_add (h2.sub (h1.const_mul (2 * μ))) (h0.const_mul (μ ^ 2))
    simp only [Pi.sub_apply] at this
    rw [← this]
    congr 1
    funext x
    ring
  have vn : 0 ≤ (∫ x, f x * (x - μ) ^ 2) / ∫ x, f x := div_nonneg (integral_nonneg fun x => mul_nonneg (hf0 x) (sq_nonneg _)) (integral_nonneg hf0)
  have e : (∫ x, f x * (x - μ) ^ 2) / ∫ x, f x = (∫ x, f x * x ^ 2) / (∫ x, f x) - μ ^ 2 := by
    rw [v, m1]
    field_simp
    ring
  have : M 2 = √(max 0 ((∫ x, f x * x ^ 2) / (∫ x, f x) - μ ^ 2)) := by
    simp only [M, classicMoments, i0, i1, i2]
    rw [if_pos hn, if_pos hn, m1]
  rw [this, ← e, max_eq_right vn]

/-- the gaussian meets the hypotheses -/
example : (∀ x : ℝ, 0 ≤ exp (-1 * x ^ 2)) ∧ Integrable (fun x : ℝ => exp (-1 * x ^ 2)) ∧ Integrable (fun x : ℝ => exp (-1 * x ^ 2) * x) ∧ Integrable (fun x : ℝ => exp (-1 * x ^ 2) * x ^ 2) ∧
    ∫ x : ℝ, exp (-1 * x ^ 2) ≠ 0 := by
  have h1 := integrable_poly 1 one_pos Polynomial.X
  have h2 := integrable_poly 1 one_pos (Polynomial.X ^ 2)
  simp only [Polynomial.eval_X, Polynomial.eval_pow] at h1 h2
  refine ⟨fun x => (exp_pos _).le, integrable_exp_neg_mul_sq one_pos, by simpa only [mul_comm] using h1, by simpa only [mul_comm] using h2, ?_⟩
  rw [integral_gaussian]
  positivity

/-! ## higher coefficients -/

theorem fitSum_eq (order : ℕ) (vars : ℕ → ℝ) (y : ℝ) : fitSum order vars y = 1 + ∑ k ∈ Finset.range (order - 2), vars (k + 3) * H (k + 3) y := by
  rw [fitSum]
  split
  · rw [foldl_sum]
    congr 1
    apply Finset.sum_congr rfl
    intro k hk
    rw [Finset.mem_range] at hk
    rw [hermiteArray_eq _ _ _ _ (by omega)]
  · rw [show order - 2 = 0 by omega]
    simp

theorem fitSum_deriv (order : ℕ) (vars : ℕ → ℝ) (y : ℝ) (n : ℕ) (hn : 3 ≤ n) (hno : n ≤ order) : HasDerivAt (fun t => fitSum order (Function.update vars n t) y) (H n y) (vars n) := by
  simp only [fitSum_eq]
  have : ∀ t, 1 + ∑ k ∈ Finset.range (order - 2), Function.update vars n t (k + 3) * H (k + 3) y =
      t * H n y + (1 + ∑ k ∈ (Finset.range (order - 2)).erase (n - 3), vars (k + 3) * H (k + 3) y) := by
    intro t
    rw [← Finset.add_sum_erase _ _ (Finset.mem_range.2 (show n - 3 < order - 2 by omega)), show n - 3 + 3 = n by omega, Function.update_self]
    have : ∑ k ∈ (Finset.range (order - 2)).erase (n - 3), Function.update vars n t (k + 3) * H (k + 3) y = ∑ k ∈ (Finset.range (order - 2)).erase (n - 3), vars (k + 3) * H (k + 3) y := by
      apply Finset.sum_congr rfl
      intro k hk
      rw [Finset.mem_erase] at hk
      rw [Function.update_of_ne (by omega)]
    rw [this]
    ring
  simp only [this]
  have := ((hasDerivAt_id (vars n)).mul_const (H n y)).add_const (1 + ∑ k ∈ (Finset.range (order - 2)).erase (n - 3), vars (k + 3) * H (k + 3) y)
  rw [one_mul] at this
  exact this

/-- C103: derivatives of the fitting function by the higher coefficients (never requested with the present `fitorder`), where the series is nonzero -/
theorem C103_fit_interp_deriv_higher (order : ℕ) (node weight fvalue : ℝ) (vars : ℕ → ℝ) (n : ℕ) (hn : 3 ≤ n) (hno : n ≤ order) (hs : fitSum order vars ((node - vars 1) / vars 2) ≠ 0) :
    HasDerivAt (fun t => fitInterpValue order node weight fvalue (Function.update vars n t)) (fitInterpDeriv order node weight vars n) (vars n) := by
  have h := fitSum_deriv order vars ((node - vars 1) / vars 2) n hn hno
  simp only [fitInterpValue, Function.update_of_ne (show (0 : ℕ) ≠ n by omega), Function.update_of_ne (show (1 : ℕ) ≠ n by omega), Function.update_of_ne (show (2 : ℕ) ≠ n by omega)]
  have := (((h.const_mul (1 / √2 / √π * exp (-0.5 * ((node - vars 1) / vars 2) * ((node - vars 1) / vars 2)) * weight)).div_const (vars 2)).mul_const (vars 0)).const_sub (weight * fvalue)
  refine this.congr_deriv ?_
  obtain ⟨k, rfl⟩ := Nat.exists_eq_add_of_le' hn
  simp only [fitInterpDeriv]
  rw [hermiteArray_eq _ _ _ _ hno]
  generalize fitSum order vars ((node - vars 1) / vars 2) = S at hs ⊢
  field_simp

/-- C103: with higher coefficients in the fit (never requested with the present `fitorder`), the reported derivative by the centre would not be the derivative: the factor (1 + sum) depends on the centre too -/
theorem C103_fit_higher_order_refuted : ¬ ∀ (order : ℕ) (node weight fvalue : ℝ) (vars : ℕ → ℝ), vars 2 ≠ 0 →
    HasDerivAt (fun t => fitInterpValue order node weight fvalue (Function.update vars 1 t)) (fitInterpDeriv order node weight vars 1) (vars 1) := by
  intro hall
  have h := hall 3 0 1 0 (fun i => if i = 1 then 0 else 1) (by norm_num)
  have hd : fitInterpDeriv 3 0 1 (fun i => if i = 1 then 0 else 1) 1 = 0 := by simp [fitInterpDeriv]
  have hv : ∀ t, fitInterpValue 3 0 1 0 (Function.update (fun i => if i = 1 then 0 else 1) 1 t) = -(1 / √2 / √π * (exp (-t ^ 2 / 2) * (1 + H 3 (-t)))) := by
    intro t
    have e : -(0.5 * t * t) = -t ^ 2 / 2 := by ring
    simp [fitInterpValue, fitSum_eq, e]
    ring
  simp only [hd, hv, if_true] at h
  have g1 : HasDerivAt (fun t : ℝ => exp (-t ^ 2 / 2)) 0 0 := by
    have := (((hasDerivAt_id (0 : ℝ)).pow 2).neg.div_const 2).exp
    refine this.congr_deriv ?_
    simp
  have g2 : HasDerivAt (fun t : ℝ => 1 + H 3 (-t)) (-(√6 * H 2 0)) 0 := by
    have h3 : HasDerivAt (H 3) (√6 * H 2 0) (-0) := by
      have := (C103_hermite_deriv 2 0).1
      norm_num at this ⊢
      exact this
    have := (h3.comp (0 : ℝ) (hasDerivAt_neg 0)).const_add 1
    refine this.congr_deriv ?_
    ring
  have g := ((g1.mul g2).const_mul (1 / √2 / √π)).neg
  have u := g.unique h
  have H2 : H 2 0 ≠ 0 := by
    have := P_eval_succ 0 0
    rw [P_eval, P_eval] at this
    norm_num at this
    intro h0
    rw [h0] at this
    norm_num [P] at this
  have p0 : √π ≠ 0 := by positivity
  simp [p0, H2] at u

end

end Verif.GH
