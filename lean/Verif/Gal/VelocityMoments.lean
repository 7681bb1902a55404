import Verif.Gal.VelocityProps
import Verif.Gal.NormalProps
import Mathlib.MeasureTheory.Integral.Gamma
import Mathlib.Analysis.SpecialFunctions.Gamma.Beta
import Mathlib.Analysis.SpecialFunctions.Integrals.Basic

/-!
# C113: the velocity dispersion of the spherical Jeans variant
-/
namespace Verif.Gal
open Real MeasureTheory Set ProbabilityTheory Verif.Random Verif.Coord

/-- dot product -/
def dot (a b : ℝ × ℝ × ℝ) : ℝ := a.1 * b.1 + a.2.1 * b.2.1 + a.2.2 * b.2.2

/-- the tangential component of the velocity in the direction `e`, for the normal deviate `n` and the uniform deviate `u`
used for the direction (the third term of lines 88-90 of galaxymodel_velocitysampler.cpp) -/
noncomputable def vtan (x : ℝ × ℝ × ℝ) (sr beta : ℝ) (e : ℝ × ℝ × ℝ) (u n : ℝ) : ℝ :=
  n * (sr * √(2 - 2 * beta)) * dot (perpVector x u 0).2 e

theorem moment_even (k : ℕ) (hk : Even k) :
    ∫ x, x ^ k ∂gaussianReal 0 1 = 2 * (√(2 * π))⁻¹ * ((1/2 : ℝ) ^ (-((k:ℝ) + 1) / 2) * (1 / 2) * Gamma (((k:ℝ) + 1) / 2)) := by
  have h := integral_rpow_mul_exp_neg_mul_rpow (p := 2) (q := k) (b := 1/2) (by norm_num)
    (by have : (0:ℝ) ≤ k := Nat.cast_nonneg k; linarith) (by norm_num)
  rw [integral_gaussianReal_eq_integral_smul one_ne_zero]
  have e : (fun x : ℝ => gaussianPDFReal 0 1 x • x ^ k) = fun x => (fun y : ℝ => (√(2 * π))⁻¹ * (y ^ (k:ℝ) * exp (-(1/2) * y ^ (2:ℝ)))) |x| := by
    funext x
    simp only [gaussianPDFReal, NNReal.coe_one, mul_one, sub_zero, smul_eq_mul]
    rw [rpow_natCast, hk.pow_abs, show (2:ℝ) = ((2:ℕ):ℝ) by norm_num, rpow_natCast, sq_abs]
    push_cast
    rw [show -x ^ 2 / 2 = -(1/2) * x ^ 2 by ring]
    ring
  rw [e, integral_comp_abs (f := fun y : ℝ => (√(2 * π))⁻¹ * (y ^ (k:ℝ) * exp (-(1/2) * y ^ (2:ℝ)))), integral_const_mul, h]
  ring

theorem moment_two : ∫ x, x ^ 2 ∂gaussianReal 0 1 = 1 := by
  rw [moment_even 2 (by decide)]
  have hg : Gamma (((2:ℕ):ℝ) / 1 * 0 + ((2:ℕ) + 1) / 2) = 1 / 2 * √π := by
    rw [show (((2:ℕ):ℝ) / 1 * 0 + ((2:ℕ) + 1) / 2) = (1/2 : ℝ) + 1 by norm_num, Gamma_add_one (by norm_num), Gamma_one_half_eq]
  have hg' : Gamma ((((2:ℕ):ℝ) + 1) / 2) = 1 / 2 * √π := by rw [← hg]; congr 1; ring
  have hp : (1/2 : ℝ) ^ (-(((2:ℕ):ℝ) + 1) / 2) = 2 * √2 := by
    rw [one_div, inv_rpow (by norm_num), show -(((2:ℕ):ℝ) + 1) / 2 = -(1 + 1 / 2) by norm_num, rpow_neg (by norm_num), inv_inv,
      rpow_add (by norm_num), rpow_one, ← sqrt_eq_rpow]
  rw [hg', hp, sqrt_mul (by norm_num)]
  have h1 : 0 < √2 := by positivity
  have h2 : 0 < √π := sqrt_pos.mpr pi_pos
  field_simp

theorem moment_four : ∫ x, x ^ 4 ∂gaussianReal 0 1 = 3 := by
  rw [moment_even 4 (by decide)]
  have hg' : Gamma ((((4:ℕ):ℝ) + 1) / 2) = 3 / 4 * √π := by
    rw [show (((4:ℕ):ℝ) + 1) / 2 = ((1/2 : ℝ) + 1) + 1 by norm_num, Gamma_add_one (by norm_num), Gamma_add_one (by norm_num), Gamma_one_half_eq]
    ring
  have hp : (1/2 : ℝ) ^ (-(((4:ℕ):ℝ) + 1) / 2) = 4 * √2 := by
    rw [one_div, inv_rpow (by norm_num), show -(((4:ℕ):ℝ) + 1) / 2 = -(2 + 1 / 2) by norm_num, rpow_neg (by norm_num), inv_inv,
      rpow_add (by norm_num), ← sqrt_eq_rpow]
    norm_num
  rw [hg', hp, sqrt_mul (by norm_num)]
  have h1 : 0 < √2 := by positivity
  have h2 : 0 < √π := sqrt_pos.mpr pi_pos
  field_simp

/-- In every direction perpendicular to a nonzero vector, the component of the random perpendicular vector is
a harmonic of unit amplitude of the angle. -/
theorem perp_harmonic (x e : ℝ × ℝ × ℝ) (hx : dot x x ≠ 0) (he : dot e e = 1) (hxe : dot x e = 0) :
    ∃ A B : ℝ, A ^ 2 + B ^ 2 = 1 ∧ ∀ u u2, dot (perpVector x u u2).2 e = A * sin (2 * π * u) + B * cos (2 * π * u) := by
  obtain ⟨a, b, c⟩ := x
  obtain ⟨e0, e1, e2⟩ := e
  simp only [dot] at hx he hxe ⊢
  by_cases h : b ≠ 0 ∨ c ≠ 0
  · have hbc : 0 < b ^ 2 + c ^ 2 := by
      rcases h with h | h
      · have := sq_nonneg c; positivity
      · have := sq_nonneg b; positivity
    have hm : 0 < a ^ 2 + b ^ 2 + c ^ 2 := by nlinarith [sq_nonneg a]
    have hs1 := sq_sqrt hbc.le
    have hs2 := sq_sqrt hm.le
    have hp1 := sqrt_pos.mpr hbc
    have hp2 := sqrt_pos.mpr hm
    set q := √(b ^ 2 + c ^ 2)
    set v := √(a ^ 2 + b ^ 2 + c ^ 2)
    refine ⟨1 / q / v * ((a ^ 2 - v ^ 2) * e0 + a * b * e1 + a * c * e2), 1 / q / v * (v * (b * e2 - c * e1)), ?_, ?_⟩
    · field_simp
      have hv : a ^ 2 - v ^ 2 = -q ^ 2 := by rw [hs1, hs2]; ring
      rw [hv]
      have k1 : b * e1 + c * e2 = -(a * e0) := by linarith
      have k2 : -q ^ 2 * e0 + a * b * e1 + a * c * e2 = - e0 * v ^ 2 := by rw [hs1, hs2]; linear_combination a * k1
      have k3 : (b * e2 - c * e1) ^ 2 = q ^ 2 * (e1 ^ 2 + e2 ^ 2) - (a * e0) ^ 2 := by
        rw [hs1]; linear_combination (-(b * e1 + c * e2) + a * e0) * k1
      rw [k2, show b * e2 - e1 * c = b * e2 - c * e1 by ring, k3]
      have k4 : e1 ^ 2 + e2 ^ 2 = 1 - e0 ^ 2 := by linarith
      rw [k4]
      have k5 : v ^ 2 = a ^ 2 + q ^ 2 := by rw [hs1, hs2]; ring
      linear_combination (e0 ^ 2 * v ^ 2) * k5
    · intro u u2
      unfold perpVector
      simp only [h, if_true]
      ring
  · push Not at h
    obtain ⟨hb, hc⟩ := h
    subst hb hc
    have ha : a ≠ 0 := by intro ha; apply hx; rw [ha]; ring
    have he0 : e0 = 0 := by
      have : a * e0 = 0 := by linarith
      exact (mul_eq_zero.mp this).resolve_left ha
    refine ⟨e2, e1, by rw [he0] at he; linarith, ?_⟩
    intro u u2
    unfold perpVector
    simp [ha]
    ring

theorem harmonic_two (A B : ℝ) (h : A ^ 2 + B ^ 2 = 1) :
    ∫ u in (0:ℝ)..1, (A * sin (2 * π * u) + B * cos (2 * π * u)) ^ 2 = 1 / 2 := by
  have hpi := pi_pos
  have key : ∀ u : ℝ, HasDerivAt (fun u => u / 2 + ((B ^ 2 - A ^ 2) * sin (2 * (2 * π * u)) / 2 - A * B * cos (2 * (2 * π * u))) / (4 * π))
      ((A * sin (2 * π * u) + B * cos (2 * π * u)) ^ 2) u := by
    intro u
    have h0 : HasDerivAt (fun u : ℝ => 2 * (2 * π * u)) (4 * π) u := by
      refine HasDerivAt.congr_deriv (((hasDerivAt_id u).const_mul (2 * π)).const_mul 2) ?_
      ring
    refine HasDerivAt.congr_deriv (((hasDerivAt_id u).div_const 2).add
      (((((h0.sin).const_mul (B ^ 2 - A ^ 2)).div_const 2).sub ((h0.cos).const_mul (A * B))).div_const (4 * π))) ?_
    field_simp
    rw [show (2:ℝ) ^ 2 * π * u = 2 * (2 * π * u) by ring, cos_two_mul, sin_two_mul]
    have hs := sin_sq_add_cos_sq (2 * π * u)
    linear_combination - h - 2 * (A ^ 2) * hs
  rw [intervalIntegral.integral_eq_sub_of_hasDerivAt (fun u _ => key u) (by apply Continuous.intervalIntegrable; fun_prop)]
  rw [show 2 * (2 * π * 1) = 2 * π + 2 * π by ring]
  simp only [mul_zero, sin_zero, cos_zero, sin_add, cos_add, sin_two_pi, cos_two_pi]
  ring

theorem harmonic_four (A B : ℝ) (h : A ^ 2 + B ^ 2 = 1) :
    ∫ u in (0:ℝ)..1, (A * sin (2 * π * u) + B * cos (2 * π * u)) ^ 4 = 3 / 8 := by
  -- (y'/(2π))² + y² = 1 and ∫ (y³ y')' = 0
  have hpi := pi_pos
  set y := fun u : ℝ => A * sin (2 * π * u) + B * cos (2 * π * u)
  set w := fun u : ℝ => A * cos (2 * π * u) - B * sin (2 * π * u)
  have h0 : ∀ u : ℝ, HasDerivAt (fun u : ℝ => 2 * π * u) (2 * π) u := by
    intro u
    refine HasDerivAt.congr_deriv ((hasDerivAt_id u).const_mul (2 * π)) ?_
    ring
  have hy : ∀ u, HasDerivAt y (2 * π * w u) u := by
    intro u
    refine HasDerivAt.congr_deriv (((h0 u).sin.const_mul A).add ((h0 u).cos.const_mul B)) ?_
    simp only [w]; ring
  have hw : ∀ u, HasDerivAt w (-(2 * π * y u)) u := by
    intro u
    refine HasDerivAt.congr_deriv (((h0 u).cos.const_mul A).sub ((h0 u).sin.const_mul B)) ?_
    simp only [y]; ring
  have hyw : ∀ u, w u ^ 2 = 1 - y u ^ 2 := by
    intro u
    have := sin_sq_add_cos_sq (2 * π * u)
    simp only [y, w]
    linear_combination h + (A ^ 2 + B ^ 2) * this
  have cy : Continuous y := by simp only [y]; fun_prop
  have cw : Continuous w := by simp only [w]; fun_prop
  have key : ∀ u : ℝ, HasDerivAt (fun u => y u ^ 3 * w u / (2 * π)) (3 * y u ^ 2 - 4 * y u ^ 4) u := by
    intro u
    refine HasDerivAt.congr_deriv ((((hy u).pow 3).mul (hw u)).div_const (2 * π)) ?_
    field_simp
    have := hyw u
    simp only [Pi.pow_apply]
    norm_num
    linear_combination (3 * y u ^ 2) * this
  have hI := intervalIntegral.integral_eq_sub_of_hasDerivAt (a := 0) (b := 1) (fun u _ => key u)
    (by apply Continuous.intervalIntegrable; fun_prop)
  have hz : y 1 ^ 3 * w 1 / (2 * π) - y 0 ^ 3 * w 0 / (2 * π) = 0 := by
    simp only [y, w, mul_one, mul_zero, sin_zero, cos_zero, sin_two_pi, cos_two_pi]; ring
  rw [hz, intervalIntegral.integral_sub (by apply Continuous.intervalIntegrable; fun_prop)
    (by apply Continuous.intervalIntegrable; fun_prop), intervalIntegral.integral_const_mul, intervalIntegral.integral_const_mul] at hI
  have h2 : ∫ u in (0:ℝ)..1, y u ^ 2 = 1 / 2 := harmonic_two A B h
  rw [h2] at hI
  change ∫ u in (0:ℝ)..1, y u ^ 4 = 3 / 8
  linarith

/-- **C113** (spherical Jeans) With a normal deviate and a uniform direction, the mean square of the component of the
velocity in any direction perpendicular to the radius is σ_r² (1-β), as the definition of the anisotropy parameter
β = 1 - σ_t²/(2 σ_r²) demands. -/
theorem C113_dispersion (x e : ℝ × ℝ × ℝ) (hx : dot x x ≠ 0) (he : dot e e = 1) (hxe : dot x e = 0) (sr beta : ℝ) (hb : beta ≤ 1) :
    ∫ u in (0:ℝ)..1, ∫ n, vtan x sr beta e u n ^ 2 ∂gaussianReal 0 1 = sr ^ 2 * (1 - beta) := by
  obtain ⟨A, B, hAB, h⟩ := perp_harmonic x e hx he hxe
  have hs := sq_sqrt (show 0 ≤ 2 - 2 * beta by linarith)
  have : ∀ u, ∫ n, vtan x sr beta e u n ^ 2 ∂gaussianReal 0 1 =
      (sr ^ 2 * (2 - 2 * beta)) * (A * sin (2 * π * u) + B * cos (2 * π * u)) ^ 2 := by
    intro u
    have e1 : (fun n => vtan x sr beta e u n ^ 2) = fun n : ℝ => (sr ^ 2 * (2 - 2 * beta)) * (A * sin (2 * π * u) + B * cos (2 * π * u)) ^ 2 * n ^ 2 := by
      funext n
      unfold vtan
      rw [h, mul_pow, mul_pow, mul_pow, hs]; ring
    rw [e1, integral_const_mul, moment_two, mul_one]
  simp only [this]
  rw [intervalIntegral.integral_const_mul, harmonic_two A B hAB]
  ring

/-- the radial direction: the mean square of `n σ_r` is σ_r² -/
theorem C113_dispersion_radial (sr : ℝ) : ∫ n, (n * sr) ^ 2 ∂gaussianReal 0 1 = sr ^ 2 := by
  have e1 : (fun n : ℝ => (n * sr) ^ 2) = fun n => sr ^ 2 * n ^ 2 := by funext n; ring
  rw [e1, integral_const_mul, moment_two, mul_one]

/-- **C113, refuted part**: "velocities sampled from a Gaussian distribution with the dispersion provided by the Jeans
model" (galaxymodel_velocitysampler.h:57) is false: the fourth moment of every tangential component is 9/2 of the square of
the second moment, and not three times it, as for a Gaussian variable with zero mean.  The cause: the magnitude of
the tangential velocity is taken from a one-dimensional normal distribution instead of a two-dimensional one.  In particular
the velocities are not isotropic for β = 0: the ratio is 3 for the radial component. -/
theorem C113_refuted_gaussian (x e : ℝ × ℝ × ℝ) (hx : dot x x ≠ 0) (he : dot e e = 1) (hxe : dot x e = 0) (sr beta : ℝ) (hb : beta ≤ 1) :
    ∫ u in (0:ℝ)..1, ∫ n, vtan x sr beta e u n ^ 4 ∂gaussianReal 0 1 =
      9 / 2 * (∫ u in (0:ℝ)..1, ∫ n, vtan x sr beta e u n ^ 2 ∂gaussianReal 0 1) ^ 2 ∧
    ∫ n, (n * sr) ^ 4 ∂gaussianReal 0 1 = 3 * (∫ n, (n * sr) ^ 2 ∂gaussianReal 0 1) ^ 2 := by
  constructor
  · rw [C113_dispersion x e hx he hxe sr beta hb]
    obtain ⟨A, B, hAB, h⟩ := perp_harmonic x e hx he hxe
    have hs := sq_sqrt (show 0 ≤ 2 - 2 * beta by linarith)
    have hs4 : √(2 - 2 * beta) ^ 4 = (2 - 2 * beta) ^ 2 := by
      rw [show √(2 - 2 * beta) ^ 4 = (√(2 - 2 * beta) ^ 2) ^ 2 by ring, hs]
    have : ∀ u, ∫ n, vtan x sr beta e u n ^ 4 ∂gaussianReal 0 1 =
        (3 * (sr ^ 4 * (2 - 2 * beta) ^ 2)) * (A * sin (2 * π * u) + B * cos (2 * π * u)) ^ 4 := by
      intro u
      have e1 : (fun n => vtan x sr beta e u n ^ 4) = fun n : ℝ => (sr ^ 4 * (2 - 2 * beta) ^ 2) * (A * sin (2 * π * u) + B * cos (2 * π * u)) ^ 4 * n ^ 4 := by
        funext n
        unfold vtan
        rw [h, mul_pow, mul_pow, mul_pow, hs4]; ring
      rw [e1, integral_const_mul, moment_four]; ring
    simp only [this]
    rw [intervalIntegral.integral_const_mul, harmonic_four A B hAB]
    ring
  · rw [C113_dispersion_radial]
    have e1 : (fun n : ℝ => (n * sr) ^ 4) = fun n => sr ^ 4 * n ^ 4 := by funext n; ring
    rw [e1, integral_const_mul, moment_four]; ring

example : dot (1, 2, 2) (1, 2, 2) ≠ 0 ∧ dot (0, 3/5, 4/5) (0, 3/5, 4/5) = 1 ∧ dot (7, 0, 0) (0, 3/5, 4/5) = 0 ∧
    dot (7, 0, 0) (7, 0, 0) ≠ 0 := by norm_num [dot]

end Verif.Gal
