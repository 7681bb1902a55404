import Verif.Gal.Velocity
import Mathlib.Analysis.SpecialFunctions.PolarCoord
import Mathlib.MeasureTheory.Function.JacobianOneDim
import Mathlib.Probability.Distributions.Gaussian.Real

/-!
# C114: `getNormalRandomNumbers` transforms uniform deviates into independent standard normal ones
-/
namespace Verif.Gal
open Real MeasureTheory Set ProbabilityTheory
open scoped ENNReal

theorem normalPair_pos (p1 p2 : ℝ) (h : 0 < p1) :
    normalPair p1 p2 = (√(-2 * log p1) * sin (2 * π * p2), √(-2 * log p1) * cos (2 * π * p2)) := by
  simp [normalPair, h]

/-- substitution u = exp(-r²/2) -/
theorem lintegral_radial (K : ℝ → ℝ≥0∞) :
    ∫⁻ u in Ioo (0:ℝ) 1, K u = ∫⁻ r in Ioi (0:ℝ), ENNReal.ofReal (r * exp (-(r ^ 2) / 2)) * K (exp (-(r ^ 2) / 2)) := by
  have him : (fun r : ℝ => exp (-(r ^ 2) / 2)) '' Ioi 0 = Ioo 0 1 := by
    ext u
    constructor
    · rintro ⟨r, hr, rfl⟩
      have hr' : 0 < r := hr
      refine ⟨exp_pos _, ?_⟩
      rw [exp_lt_one_iff]
      have := pow_pos hr' 2
      linarith
    · rintro ⟨h0, h1⟩
      have hl := log_neg h0 h1
      refine ⟨√(-2 * log u), sqrt_pos.mpr (by linarith), ?_⟩
      simp only
      rw [sq_sqrt (by linarith)]
      rw [show -(-2 * log u) / 2 = log u by ring, exp_log h0]
  have hd : ∀ r ∈ Ioi (0:ℝ), HasDerivWithinAt (fun r : ℝ => exp (-(r ^ 2) / 2)) (-(r * exp (-(r ^ 2) / 2))) (Ioi 0) r := by
    intro r _
    have h1 : HasDerivAt (fun r : ℝ => -(r ^ 2) / 2) (-r) r := by
      refine HasDerivAt.congr_deriv (f := fun r : ℝ => -(r ^ 2) / 2) (((hasDerivAt_pow 2 r).neg).div_const 2) ?_
      norm_num; ring
    refine (HasDerivAt.congr_deriv h1.exp ?_).hasDerivWithinAt
    ring
  have hinj : InjOn (fun r : ℝ => exp (-(r ^ 2) / 2)) (Ioi 0) := by
    intro a ha b hb hab
    have ha' : 0 < a := ha
    have hb' : 0 < b := hb
    have h := exp_injective hab
    have : a ^ 2 = b ^ 2 := by linarith
    nlinarith [mul_pos ha' hb', sq_nonneg (a - b), (sq_eq_sq₀ ha'.le hb'.le).mp this]
  rw [← him, lintegral_image_eq_lintegral_abs_deriv_mul measurableSet_Ioi hd hinj]
  apply setLIntegral_congr_fun measurableSet_Ioi
  intro r hr
  have hr' : 0 < r := hr
  simp only
  rw [abs_neg, abs_of_pos (mul_pos hr' (exp_pos _))]

/-- substitution t = (π-θ)/(2π) -/
theorem lintegral_angular (K : ℝ → ℝ≥0∞) :
    ∫⁻ t in Ioo (0:ℝ) 1, K t = ∫⁻ θ in Ioo (-π) π, ENNReal.ofReal (1 / (2 * π)) * K ((π - θ) / (2 * π)) := by
  have hpi := pi_pos
  have him : (fun θ : ℝ => (π - θ) / (2 * π)) '' Ioo (-π) π = Ioo 0 1 := by
    ext u
    constructor
    · rintro ⟨r, ⟨h1, h2⟩, rfl⟩
      refine ⟨div_pos (by linarith) (by linarith), ?_⟩
      simp only
      rw [div_lt_one (by linarith)]; linarith
    · rintro ⟨h0, h1⟩
      refine ⟨π - 2 * π * u, ⟨by nlinarith, by nlinarith⟩, ?_⟩
      simp only
      field_simp
      ring
  have hd : ∀ r ∈ Ioo (-π) π, HasDerivWithinAt (fun θ : ℝ => (π - θ) / (2 * π)) (-(1 / (2 * π))) (Ioo (-π) π) r := by
    intro r _
    refine (HasDerivAt.congr_deriv (f := fun θ : ℝ => (π - θ) / (2 * π))
      (((hasDerivAt_id r).const_sub π).div_const (2 * π)) ?_).hasDerivWithinAt
    ring
  have hinj : InjOn (fun θ : ℝ => (π - θ) / (2 * π)) (Ioo (-π) π) := by
    intro a _ b _ hab
    simp only at hab
    rw [div_left_inj' (by positivity)] at hab
    linarith
  rw [← him, lintegral_image_eq_lintegral_abs_deriv_mul measurableSet_Ioo hd hinj]
  apply setLIntegral_congr_fun measurableSet_Ioo
  intro r _
  simp only
  rw [abs_neg, abs_of_pos (by positivity)]

theorem measurable_normalPair : Measurable (fun p : ℝ × ℝ => normalPair p.1 p.2) := by
  unfold normalPair
  refine Measurable.prodMk ?_ ?_
  · refine Measurable.mul (Measurable.ite (measurableSet_lt measurable_const measurable_fst) ?_ measurable_fst) (by fun_prop)
    fun_prop
  · refine Measurable.mul (Measurable.ite (measurableSet_lt measurable_const measurable_fst) ?_ measurable_fst) (by fun_prop)
    fun_prop

/-- the density of two independent standard normal deviates -/
theorem gauss_density (x y : ℝ) : gaussianPDF 0 1 x * gaussianPDF 0 1 y =
    ENNReal.ofReal (exp (-(x ^ 2 + y ^ 2) / 2) / (2 * π)) := by
  unfold gaussianPDF
  rw [← ENNReal.ofReal_mul (gaussianPDFReal_nonneg _ _ _)]
  congr 1
  unfold gaussianPDFReal
  have h : √(2 * π) * √(2 * π) = 2 * π := mul_self_sqrt (by positivity)
  simp only [NNReal.coe_one, mul_one, sub_zero]
  rw [show -(x ^ 2 + y ^ 2) / 2 = -x ^ 2 / 2 + -y ^ 2 / 2 by ring, exp_add]
  have h0 : 0 < √(2 * π) := sqrt_pos.mpr (by positivity)
  generalize √(2 * π) = q at h h0
  rw [← h]
  field_simp

theorem lintegral_rotate (F : ℝ × ℝ → ℝ≥0∞) (hF : Measurable F) : ∫⁻ p : ℝ × ℝ, F (p.2, -p.1) = ∫⁻ p : ℝ × ℝ, F p := by
  have hm : Measurable (fun p : ℝ × ℝ => F (p.2, -p.1)) := hF.comp (by fun_prop)
  rw [Measure.volume_eq_prod, lintegral_prod_symm _ hm.aemeasurable, lintegral_prod _ hF.aemeasurable]
  congr 1
  funext x
  exact lintegral_neg_eq_self (fun y => F (x, y))

theorem lintegral_gauss (f : ℝ × ℝ → ℝ≥0∞) (hf : Measurable f) :
    ∫⁻ p, f p ∂((gaussianReal 0 1).prod (gaussianReal 0 1)) =
      ∫⁻ p : ℝ × ℝ, ENNReal.ofReal (exp (-(p.1 ^ 2 + p.2 ^ 2) / 2) / (2 * π)) * f p := by
  rw [gaussianReal_of_var_ne_zero 0 one_ne_zero, prod_withDensity (measurable_gaussianPDF 0 1) (measurable_gaussianPDF 0 1),
    lintegral_withDensity_eq_lintegral_mul _ (by fun_prop) hf]
  apply lintegral_congr
  intro p
  simp only [Pi.mul_apply]
  rw [gauss_density]

theorem lintegral_normalPair (f : ℝ × ℝ → ℝ≥0∞) (hf : Measurable f) :
    ∫⁻ p in (Ioo (0:ℝ) 1) ×ˢ (Ioo (0:ℝ) 1), f (normalPair p.1 p.2) = ∫⁻ p, f p ∂((gaussianReal 0 1).prod (gaussianReal 0 1)) := by
  have hpi := pi_pos
  rw [lintegral_gauss f hf, ← lintegral_rotate _ (by fun_prop), ← lintegral_comp_polarCoord_symm]
  have hm : Measurable (fun p : ℝ × ℝ => f (normalPair p.1 p.2)) := hf.comp measurable_normalPair
  rw [Measure.volume_eq_prod, ← Measure.prod_restrict, lintegral_prod _ hm.aemeasurable, lintegral_radial]
  rw [polarCoord_target, ← Measure.prod_restrict, lintegral_prod]
  · apply setLIntegral_congr_fun measurableSet_Ioi
    intro r hr
    have hr' : 0 < r := hr
    simp only
    rw [lintegral_angular, ← lintegral_const_mul]
    · apply setLIntegral_congr_fun measurableSet_Ioo
      intro θ _
      simp only [polarCoord_symm_apply, smul_eq_mul]
      rw [normalPair_pos _ _ (exp_pos _), log_exp, show -2 * (-(r ^ 2) / 2) = r ^ 2 by ring, sqrt_sq hr'.le,
        show 2 * π * ((π - θ) / (2 * π)) = π - θ by field_simp, sin_pi_sub, cos_pi_sub, ← mul_assoc, ← mul_assoc,
        ← ENNReal.ofReal_mul (by positivity), ← ENNReal.ofReal_mul (by positivity)]
      have e : (r * sin θ) ^ 2 + (-(r * cos θ)) ^ 2 = r ^ 2 := by
        linear_combination r ^ 2 * sin_sq_add_cos_sq θ
      rw [e]
      congr 2
      · ring
      · rw [mul_neg]
    · exact Measurable.const_mul (hm.comp (measurable_const.prodMk (by fun_prop :
        Measurable (fun θ : ℝ => (π - θ) / (2 * π))))) _
  · apply Measurable.aemeasurable
    have : Measurable (fun p : ℝ × ℝ => polarCoord.symm p) := continuous_polarCoord_symm.measurable
    fun_prop

/-- **C114** If the two numbers taken from the generator are independent and uniform in [0,1), the two numbers returned by
`getNormalRandomNumbers` are independent standard normal deviates: their joint distribution is the product of two normal
distributions with zero mean and unit variance. -/
theorem C114_normal :
    Measure.map (fun p : ℝ × ℝ => normalPair p.1 p.2) (volume.restrict (Ico (0:ℝ) 1 ×ˢ Ico (0:ℝ) 1)) =
      (gaussianReal 0 1).prod (gaussianReal 0 1) := by
  have hae : (Ico (0:ℝ) 1 ×ˢ Ico (0:ℝ) 1 : Set (ℝ × ℝ)) =ᵐ[volume] (Ioo (0:ℝ) 1 ×ˢ Ioo (0:ℝ) 1 : Set (ℝ × ℝ)) := by
    rw [Measure.volume_eq_prod]
    exact Measure.set_prod_ae_eq Ioo_ae_eq_Ico.symm Ioo_ae_eq_Ico.symm
  rw [Measure.restrict_congr_set hae]
  apply Measure.ext_of_lintegral
  intro f hf
  rw [lintegral_map hf measurable_normalPair, lintegral_normalPair f hf]

/-- **C114** Each of the two numbers alone is a standard normal deviate. -/
theorem C114_marginal :
    Measure.map (fun p : ℝ × ℝ => (normalPair p.1 p.2).1) (volume.restrict (Ico (0:ℝ) 1 ×ˢ Ico (0:ℝ) 1)) = gaussianReal 0 1 ∧
    Measure.map (fun p : ℝ × ℝ => (normalPair p.1 p.2).2) (volume.restrict (Ico (0:ℝ) 1 ×ˢ Ico (0:ℝ) 1)) = gaussianReal 0 1 := by
  constructor
  · have : (fun p : ℝ × ℝ => (normalPair p.1 p.2).1) = Prod.fst ∘ (fun p : ℝ × ℝ => normalPair p.1 p.2) := rfl
    rw [this, ← Measure.map_map measurable_fst measurable_normalPair, C114_normal]
    simp
  · have : (fun p : ℝ × ℝ => (normalPair p.1 p.2).2) = Prod.snd ∘ (fun p : ℝ × ℝ => normalPair p.1 p.2) := rfl
    rw [this, ← Measure.map_map measurable_snd measurable_normalPair, C114_normal]
    simp

/-- **C114** Whatever the two numbers in [0,1] are, with the first one either zero or not less than `2⁻⁶⁴` (the spacing of
the values of the generator), the returned numbers are finite, and neither of them exceeds √(128 ln 2) ≈ 9.42 in absolute
value; the value `0` of the first number, for which the logarithm does not exist, gives two zeros. -/
theorem C114_range (p1 p2 : ℝ) (h0 : p1 = 0 ∨ 1 / 2 ^ 64 ≤ p1) (h1 : p1 ≤ 1) :
    |(normalPair p1 p2).1| ≤ √(128 * log 2) ∧ |(normalPair p1 p2).2| ≤ √(128 * log 2) ∧
    (p1 = 0 → normalPair p1 p2 = (0, 0)) ∧
    (0 < p1 → (normalPair p1 p2).1 ^ 2 + (normalPair p1 p2).2 ^ 2 = -2 * log p1) := by
  rcases h0 with h0 | h0
  · subst h0
    refine ⟨?_, ?_, ?_, ?_⟩
    · simp [normalPair]
    · simp [normalPair]
    · intro _; simp [normalPair]
    · intro h; exact absurd h (lt_irrefl _)
  · have hp : 0 < p1 := lt_of_lt_of_le (by positivity) h0
    have hl : log p1 ≤ 0 := log_nonpos hp.le h1
    have hl2 : -(64 * log 2) ≤ log p1 := by
      have := log_le_log (by positivity) h0
      rw [one_div, log_inv, log_pow] at this
      exact_mod_cast this
    have hs : √(-2 * log p1) ≤ √(128 * log 2) := sqrt_le_sqrt (by linarith)
    have hs0 := sqrt_nonneg (-2 * log p1)
    rw [normalPair_pos _ _ hp]
    refine ⟨?_, ?_, ?_, ?_⟩
    · rw [abs_mul, abs_of_nonneg hs0]
      exact le_trans (mul_le_of_le_one_right hs0 (abs_sin_le_one _)) hs
    · rw [abs_mul, abs_of_nonneg hs0]
      exact le_trans (mul_le_of_le_one_right hs0 (abs_cos_le_one _)) hs
    · intro h; exact absurd h hp.ne'
    · intro _
      have := sq_sqrt (show 0 ≤ -2 * log p1 by linarith)
      simp only
      linear_combination (√(-2 * log p1)) ^ 2 * sin_sq_add_cos_sq (2 * π * p2) + this

example : (1 / 4 : ℝ) = 0 ∨ (1:ℝ) / 2 ^ 64 ≤ 1 / 4 := Or.inr (by norm_num)

end Verif.Gal
