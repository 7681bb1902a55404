import Verif.Pot.Spheroid
import Mathlib.MeasureTheory.Measure.Lebesgue.VolumeOfBalls
import Mathlib.MeasureTheory.Constructions.HaarToSphere
import Mathlib.Probability.Distributions.Beta
import Mathlib.MeasureTheory.Integral.IntegralEqImproper
import Mathlib.MeasureTheory.Function.JacobianOneDim
import Mathlib.LinearAlgebra.Matrix.ToLin
import Mathlib.Analysis.InnerProductSpace.PiL2

/-! # Integrals used for C109, C110 -/

namespace Verif.Pot

open Real MeasureTheory Set

/-- the integral of a function of the ellipsoidal radius over the whole space -/
theorem ellipsoidal_integral (rho : ℝ → ℝ) {p q : ℝ} (hp : 0 < p) (hq : 0 < q) :
    (Integrable (ellipsoidal rho p q) ↔ IntegrableOn (fun r => r ^ 2 * rho r) (Ioi 0)) ∧
    ∫ v, ellipsoidal rho p q v = 4 * π * p * q * ∫ r in Ioi (0 : ℝ), r ^ 2 * rho r := by
  let A : Matrix (Fin 3) (Fin 3) ℝ := Matrix.diagonal ![1, 1 / p, 1 / q]
  let f : EuclideanSpace ℝ (Fin 3) →ₗ[ℝ] EuclideanSpace ℝ (Fin 3) := Matrix.toEuclideanLin A
  have hdet : LinearMap.det f = 1 / p * (1 / q) := by
    simp only [f, A]
    rw [Matrix.toEuclideanLin_eq_toLin, LinearMap.det_toLin, Matrix.det_diagonal, Fin.prod_univ_three]
    simp
  have hdet0 : LinearMap.det f ≠ 0 := by rw [hdet]; positivity
  have hmap := Measure.map_linearMap_addHaar_eq_smul_addHaar (volume : Measure (EuclideanSpace ℝ (Fin 3))) hdet0
  have hc : |(LinearMap.det f)⁻¹| = p * q := by
    rw [hdet, abs_of_pos (by positivity)]; field_simp
  rw [hc] at hmap
  have hval : ∀ v : EuclideanSpace ℝ (Fin 3), ellipsoidal rho p q v = rho ‖f v‖ := by
    intro v
    rw [ellipsoidal, EuclideanSpace.norm_eq, Fin.sum_univ_three]
    have e0 : (f v) 0 = v 0 := by simp [f, A, Matrix.toEuclideanLin, Matrix.mulVec_diagonal]
    have e1 : (f v) 1 = v 1 / p := by simp [f, A, Matrix.toEuclideanLin, Matrix.mulVec_diagonal]; ring
    have e2 : (f v) 2 = v 2 / q := by simp [f, A, Matrix.toEuclideanLin, Matrix.mulVec_diagonal]; ring
    rw [e0, e1, e2]; simp only [norm_eq_abs, sq_abs]
  have hinj : Function.Injective f := by
    rw [← LinearMap.ker_eq_bot]
    exact LinearMap.ker_eq_bot_of_injective ((LinearMap.equivOfDetNeZero f hdet0).injective)
  have hemb : MeasurableEmbedding f :=
    (LinearEquiv.toContinuousLinearEquiv (LinearMap.equivOfDetNeZero f hdet0)).toHomeomorph.measurableEmbedding
  have efun : ellipsoidal rho p q = (fun w => rho ‖w‖) ∘ f := funext hval
  have hpq : ENNReal.ofReal (p * q) ≠ 0 := by simp; positivity
  constructor
  · rw [efun, ← hemb.integrable_map_iff, hmap, integrable_smul_measure hpq ENNReal.ofReal_ne_top,
      integrable_fun_norm_addHaar volume (f := rho)]
    simp
  · have h1 : ∫ v, ellipsoidal rho p q v = ∫ w, rho ‖w‖ ∂(Measure.map f volume) := by
      rw [hemb.integral_map, efun]; rfl
    rw [h1, hmap, integral_smul_measure, integral_fun_norm_addHaar]
    have hb : (volume : Measure (EuclideanSpace ℝ (Fin 3))).real (Metric.ball 0 1) = π * 4 / 3 := by
      rw [Measure.real, EuclideanSpace.volume_ball_fin_three]
      simp [ENNReal.toReal_ofReal (by positivity : (0:ℝ) ≤ π * 4 / 3)]
    rw [hb, ENNReal.toReal_ofReal (by positivity)]
    simp only [finrank_euclideanSpace, Fintype.card_fin, smul_eq_mul, nsmul_eq_mul, Nat.reduceSub]
    push_cast
    ring

/-! ## Beta integrals -/

theorem beta_Ioo {a b : ℝ} (ha : 0 < a) (hb : 0 < b) :
    ∫ x in Ioo (0 : ℝ) 1, x ^ (a - 1) * (1 - x) ^ (b - 1) = Gamma a * Gamma b / Gamma (a + b) := by
  have := ProbabilityTheory.beta_eq_betaIntegralReal a b ha hb
  rw [ProbabilityTheory.beta] at this
  rw [this, Complex.betaIntegral, intervalIntegral.integral_of_le (by norm_num),
    ← integral_Ioc_eq_integral_Ioo, ← RCLike.re_to_complex, ← integral_re]
  · refine setIntegral_congr_fun measurableSet_Ioc fun x ⟨hx1, hx₂⟩ ↦ ?_
    norm_cast
    rw [← Complex.ofReal_cpow, ← Complex.ofReal_cpow, RCLike.re_to_complex,
      Complex.re_mul_ofReal, Complex.ofReal_re]
    all_goals linarith
  convert! Complex.betaIntegral_convergent (u := a) (v := b) (by simpa) (by simpa)
  rw [intervalIntegrable_iff_integrableOn_Ioc_of_le (by simp), IntegrableOn]

theorem beta_Ioi {a b : ℝ} (ha : 0 < a) (hb : 0 < b) :
    ∫ s in Ioi (0 : ℝ), s ^ (a - 1) * (1 + s) ^ (-(a + b)) = Gamma a * Gamma b / Gamma (a + b) := by
  rw [← beta_Ioo ha hb]
  have himg : (fun x : ℝ => x / (1 - x)) '' Ioo 0 1 = Ioi 0 := by
    ext R; constructor
    · rintro ⟨x, hx, rfl⟩
      have h1 : 0 < x := hx.1
      have h2 : 0 < 1 - x := sub_pos.mpr hx.2
      exact mem_Ioi.mpr (by positivity)
    · intro hR
      have hR0 : (0 : ℝ) < R := hR
      refine ⟨R / (1 + R), ⟨by positivity, ?_⟩, ?_⟩
      · rw [div_lt_one (by positivity)]; linarith
      · simp only
        have : 1 - R / (1 + R) = 1 / (1 + R) := by field_simp; ring
        rw [this]; field_simp
  have hder : ∀ x ∈ Ioo (0 : ℝ) 1, HasDerivWithinAt (fun x : ℝ => x / (1 - x)) (1 / (1 - x) ^ 2) (Ioo 0 1) x := by
    intro x hx
    have h2 : 1 - x ≠ 0 := (sub_pos.mpr hx.2).ne'
    refine ((hasDerivAt_id x).div ((hasDerivAt_id x).const_sub 1) h2).hasDerivWithinAt.congr_deriv ?_
    simp only [id]
    field_simp
    ring
  have hinj : InjOn (fun x : ℝ => x / (1 - x)) (Ioo 0 1) := by
    intro x hx y hy hxy
    have h1 : 1 - x ≠ 0 := (sub_pos.mpr hx.2).ne'
    have h2 : 1 - y ≠ 0 := (sub_pos.mpr hy.2).ne'
    simp only at hxy
    rw [div_eq_div_iff h1 h2] at hxy
    linarith
  rw [← himg, integral_image_eq_integral_abs_deriv_smul measurableSet_Ioo hder hinj]
  refine setIntegral_congr_fun measurableSet_Ioo fun x hx => ?_
  have h1 : 0 < x := hx.1
  have h2 : 0 < 1 - x := sub_pos.mpr hx.2
  simp only [smul_eq_mul]
  rw [abs_of_pos (by positivity)]
  have e1 : 1 + x / (1 - x) = (1 - x)⁻¹ := by field_simp; ring
  rw [e1, div_rpow h1.le h2.le, inv_rpow h2.le, rpow_neg h2.le, inv_inv]
  have e2 : (1 - x) ^ (a + b) = (1 - x) ^ (a - 1) * (1 - x) ^ (b - 1) * (1 - x) ^ 2 := by
    rw [← rpow_natCast (1 - x) 2, ← rpow_add h2, ← rpow_add h2]; congr 1; push_cast; ring
  rw [e2]
  have := rpow_pos_of_pos h2 (a - 1)
  field_simp

/-- the integral of a double power law -/
theorem zhao_integral {n α β γ : ℝ} (hα : 0 < α) (hγ : γ < n) (hβ : n < β) :
    IntegrableOn (fun x : ℝ => x ^ (n - 1 - γ) * (1 + x ^ α) ^ ((γ - β) / α)) (Ioi 0) ∧
    ∫ x in Ioi (0 : ℝ), x ^ (n - 1 - γ) * (1 + x ^ α) ^ ((γ - β) / α) =
      Gamma ((β - n) / α) * Gamma ((n - γ) / α) / Gamma ((β - γ) / α) / α := by
  have ha : 0 < (n - γ) / α := div_pos (by linarith) hα
  have hb : 0 < (β - n) / α := div_pos (by linarith) hα
  have hs := integral_comp_rpow_Ioi_of_pos (g := fun s => s ^ ((n - γ) / α - 1) * (1 + s) ^ (-((n - γ) / α + (β - n) / α))) hα
  rw [beta_Ioi ha hb] at hs
  have hab : (n - γ) / α + (β - n) / α = (β - γ) / α := by field_simp; ring
  rw [hab] at hs
  have e : ∀ x ∈ Ioi (0 : ℝ), (α * x ^ (α - 1)) • ((x ^ α) ^ ((n - γ) / α - 1) * (1 + x ^ α) ^ (-((β - γ) / α))) =
      α * (x ^ (n - 1 - γ) * (1 + x ^ α) ^ ((γ - β) / α)) := by
    intro x hx
    have hx0 : (0:ℝ) < x := hx
    rw [← rpow_mul hx0.le, smul_eq_mul]
    have e1 : x ^ (n - 1 - γ) = x ^ (α - 1) * x ^ (α * ((n - γ) / α - 1)) := by
      rw [← rpow_add hx0]; congr 1; field_simp; ring
    have e2 : -((β - γ) / α) = (γ - β) / α := by ring
    rw [e1, e2]; ring
  rw [setIntegral_congr_fun measurableSet_Ioi e, integral_const_mul] at hs
  have hval : ∫ x in Ioi (0 : ℝ), x ^ (n - 1 - γ) * (1 + x ^ α) ^ ((γ - β) / α) =
      Gamma ((β - n) / α) * Gamma ((n - γ) / α) / Gamma ((β - γ) / α) / α := by
    rw [eq_div_iff hα.ne', mul_comm, hs]; ring
  refine ⟨?_, hval⟩
  by_contra hni
  have h0 := integral_undef hni
  rw [hval] at h0
  have h1 := Gamma_pos_of_pos ha
  have h2 := Gamma_pos_of_pos hb
  have h3 : 0 < Gamma ((β - γ) / α) := Gamma_pos_of_pos (div_pos (by linarith) hα)
  have : 0 < Gamma ((β - n) / α) * Gamma ((n - γ) / α) / Gamma ((β - γ) / α) / α := by positivity
  exact absurd h0 this.ne'

/-! ## the substitution used for the numerical integration -/

theorem expSubst_integral (f : ℝ → ℝ) :
    ∫ y in Ioi (0 : ℝ), f y =
      ∫ x in (0 : ℝ)..1, if x = 0 ∨ x = 1 then 0 else
        exp (1 / (1 - x) - 1 / x) * (1 / (1 - x) ^ 2 + 1 / x ^ 2) * f (exp (1 / (1 - x) - 1 / x)) := by
  have hder' : ∀ x ∈ Ioo (0 : ℝ) 1, HasDerivAt (fun x : ℝ => 1 / (1 - x) - 1 / x) (1 / (1 - x) ^ 2 + 1 / x ^ 2) x := by
    intro x hx
    have h1 : x ≠ 0 := hx.1.ne'
    have h2 : 1 - x ≠ 0 := (sub_pos.mpr hx.2).ne'
    refine (((hasDerivAt_const x (1:ℝ)).div ((hasDerivAt_id x).const_sub 1) h2).sub
      ((hasDerivAt_const x (1:ℝ)).div (hasDerivAt_id x) h1)).congr_deriv ?_
    simp only [id]
    ring
  have hmono : StrictMonoOn (fun x : ℝ => 1 / (1 - x) - 1 / x) (Ioo 0 1) := by
    intro x hx y hy hxy
    have a1 : 0 < x := hx.1
    have a2 : 0 < 1 - y := sub_pos.mpr hy.2
    have b1 : 1 / y < 1 / x := one_div_lt_one_div_of_lt a1 hxy
    have b2 : 1 / (1 - x) < 1 / (1 - y) := one_div_lt_one_div_of_lt a2 (by linarith)
    simp only; linarith
  have himg : (fun x : ℝ => exp (1 / (1 - x) - 1 / x)) '' Ioo 0 1 = Ioi 0 := by
    ext R; constructor
    · rintro ⟨x, -, rfl⟩; exact mem_Ioi.mpr (exp_pos _)
    · intro hR
      have hR0 : (0 : ℝ) < R := hR
      set L := log R with hL
      set w := √(L ^ 2 + 4) with hw
      have hw2 : w ^ 2 = L ^ 2 + 4 := sq_sqrt (by positivity)
      have hw0 : 0 ≤ w := sqrt_nonneg _
      have hwL : |L| < w := by
        rw [← sqrt_sq_eq_abs]; exact sqrt_lt_sqrt (by positivity) (by linarith)
      obtain ⟨c1, c2⟩ := abs_lt.mp hwL
      have hden : 0 < 2 - L + w := by linarith
      have hden2 : 0 < w - L := by linarith
      refine ⟨2 / (2 - L + w), ⟨by positivity, ?_⟩, ?_⟩
      · rw [div_lt_one hden]; linarith
      · simp only
        have e1 : 1 - 2 / (2 - L + w) = (w - L) / (2 - L + w) := by field_simp; ring
        rw [e1]
        have : 1 / ((w - L) / (2 - L + w)) - 1 / (2 / (2 - L + w)) = L := by
          field_simp
          linear_combination -hw2
        rw [this, hL, exp_log hR0]
  have hder : ∀ x ∈ Ioo (0 : ℝ) 1, HasDerivWithinAt (fun x : ℝ => exp (1 / (1 - x) - 1 / x))
      (exp (1 / (1 - x) - 1 / x) * (1 / (1 - x) ^ 2 + 1 / x ^ 2)) (Ioo 0 1) x :=
    fun x hx => (hder' x hx).exp.hasDerivWithinAt
  have hinj : InjOn (fun x : ℝ => exp (1 / (1 - x) - 1 / x)) (Ioo 0 1) := fun x hx y hy h => hmono.injOn hx hy (exp_injective h)
  rw [← himg, integral_image_eq_integral_abs_deriv_smul measurableSet_Ioo hder hinj,
    intervalIntegral.integral_of_le zero_le_one, integral_Ioc_eq_integral_Ioo]
  refine setIntegral_congr_fun measurableSet_Ioo fun x hx => ?_
  have h1 : 0 < x := hx.1
  have h2 : 0 < 1 - x := sub_pos.mpr hx.2
  have h3 : ¬(x = 0 ∨ x = 1) := by rintro (h | h) <;> [exact h1.ne' h; exact hx.2.ne h]
  simp only [if_neg h3, smul_eq_mul]
  rw [abs_of_pos (by positivity)]

/-- integrals over the half-line do not change if the variable is rescaled -/
theorem scale_Ioi (f : ℝ → ℝ) {c : ℝ} (hc : 0 < c) :
    (IntegrableOn f (Ioi 0) ↔ IntegrableOn (fun x => f (c * x)) (Ioi 0)) ∧ ∫ r in Ioi (0 : ℝ), f r = c * ∫ x in Ioi (0 : ℝ), f (c * x) := by
  constructor
  · have := integrableOn_Ioi_comp_mul_left_iff f 0 hc
    rw [mul_zero] at this; exact this.symm
  · rw [integral_comp_mul_left_Ioi f 0 hc, mul_zero, smul_eq_mul]; field_simp

end Verif.Pot
