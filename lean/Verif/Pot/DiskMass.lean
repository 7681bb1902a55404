import Verif.Pot.DiskProps3
import Mathlib.MeasureTheory.Integral.IntegralEqImproper
import Mathlib.Analysis.SpecialFunctions.Gaussian.GaussianIntegral

/-! # C97: normalization of the vertical profile and total mass of the disk -/

namespace Verif.Pot

open Real Verif.Coord MeasureTheory Filter Topology Set

theorem vertDens_nonneg (P : DiskParam) (z : ℝ) : 0 ≤ vertDens P z := by
  rw [vertDens]; split_ifs with h
  · positivity
  · positivity

theorem exp_neg_abs_tendsto {q : ℝ} (hq : 0 < q) : Tendsto (fun z : ℝ => exp (-|z * (1 / q)|)) atTop (𝓝 0) ∧ Tendsto (fun z : ℝ => exp (-|z * (1 / q)|)) atBot (𝓝 0) := by
  have h1 : Tendsto (fun z : ℝ => |z * (1 / q)|) atTop atTop := tendsto_abs_atTop_atTop.comp (tendsto_id.atTop_mul_const (by positivity))
  have h2 : Tendsto (fun z : ℝ => |z * (1 / q)|) atBot atTop := tendsto_abs_atBot_atTop.comp (tendsto_id.atBot_mul_const (by positivity))
  exact ⟨tendsto_exp_neg_atTop_nhds_zero.comp h1, tendsto_exp_neg_atTop_nhds_zero.comp h2⟩

theorem vertical_limits (P : DiskParam) (h : P.scaleHeight ≠ 0) :
    Tendsto (fun z => (createVertical P z).der) atTop (𝓝 (1 / 2)) ∧ Tendsto (fun z => (createVertical P z).der) atBot (𝓝 (-1 / 2)) := by
  rcases lt_or_gt_of_ne h with hn | hp
  · have hv : createVertical P = verticalIso (-P.scaleHeight) := by simp only [createVertical, if_neg (not_lt.mpr hn.le), if_pos hn]
    have hq : 0 < -P.scaleHeight := by linarith
    obtain ⟨t1, t2⟩ := exp_neg_abs_tendsto hq
    rw [hv]
    simp only [verticalIso]
    constructor
    · have : Tendsto (fun z : ℝ => 0.5 * (1:ℝ) * (1 - exp (-|z * (1 / -P.scaleHeight)|)) * (1 / (1 + exp (-|z * (1 / -P.scaleHeight)|)))) atTop (𝓝 (0.5 * 1 * (1 - 0) * (1 / (1 + 0)))) :=
        ((t1.const_sub 1).const_mul _).mul ((tendsto_const_nhds).div (t1.const_add 1) (by norm_num))
      have e : (0.5 * 1 * (1 - 0) * (1 / (1 + 0)) : ℝ) = 1 / 2 := by norm_num
      rw [e] at this
      refine this.congr' ?_
      filter_upwards [eventually_gt_atTop 0] with z hz
      simp [sgn, hz]
    · have : Tendsto (fun z : ℝ => 0.5 * (-1:ℝ) * (1 - exp (-|z * (1 / -P.scaleHeight)|)) * (1 / (1 + exp (-|z * (1 / -P.scaleHeight)|)))) atBot (𝓝 (0.5 * (-1) * (1 - 0) * (1 / (1 + 0)))) :=
        ((t2.const_sub 1).const_mul _).mul ((tendsto_const_nhds).div (t2.const_add 1) (by norm_num))
      have e : (0.5 * (-1) * (1 - 0) * (1 / (1 + 0)) : ℝ) = -1 / 2 := by norm_num
      rw [e] at this
      refine this.congr' ?_
      filter_upwards [eventually_lt_atBot 0] with z hz
      simp [sgn, hz, not_lt.mpr hz.le]
  · have hv : createVertical P = verticalExp P.scaleHeight := by simp only [createVertical, if_pos hp]
    obtain ⟨t1, t2⟩ := exp_neg_abs_tendsto hp
    rw [hv]
    simp only [verticalExp]
    constructor
    · have : Tendsto (fun z : ℝ => 0.5 * (1:ℝ) * (1 - exp (-|z * (1 / P.scaleHeight)|))) atTop (𝓝 (0.5 * 1 * (1 - 0))) := ((t1.const_sub 1).const_mul _)
      have e : (0.5 * 1 * (1 - 0) : ℝ) = 1 / 2 := by norm_num
      rw [e] at this
      refine this.congr' ?_
      filter_upwards [eventually_gt_atTop 0] with z hz
      simp [sgn, hz]
    · have : Tendsto (fun z : ℝ => 0.5 * (-1:ℝ) * (1 - exp (-|z * (1 / P.scaleHeight)|))) atBot (𝓝 (0.5 * (-1) * (1 - 0))) := ((t2.const_sub 1).const_mul _)
      have e : (0.5 * (-1) * (1 - 0) : ℝ) = -1 / 2 := by norm_num
      rw [e] at this
      refine this.congr' ?_
      filter_upwards [eventually_lt_atBot 0] with z hz
      simp [sgn, hz, not_lt.mpr hz.le]

/-- C97 (normalization): the vertical profile of any disk of finite thickness integrates to one -/
theorem C97_vertical_norm (P : DiskParam) (h : P.scaleHeight ≠ 0) : ∫ z, (createVertical P z).der2 = 1 := by
  have e : (fun z => (createVertical P z).der2) = vertDens P := funext fun z => (C97_vertical P h z).1
  have hd : ∀ z, HasDerivAt (fun z => (createVertical P z).der) (vertDens P z) z := fun z => by
    have := (C97_vertical P h z).2.1; rwa [(C97_vertical P h z).1] at this
  obtain ⟨l1, l2⟩ := vertical_limits P h
  rw [e]
  have i1 : IntegrableOn (vertDens P) (Ioi 0) :=
    integrableOn_Ioi_deriv_of_nonneg' (fun z _ => hd z) (fun z _ => vertDens_nonneg P z) l1
  have hev : ∀ z, vertDens P (-z) = vertDens P z := fun z => by
    simp only [vertDens]; rw [neg_div, abs_neg, neg_div, cosh_neg]
  have i2 : IntegrableOn (vertDens P) (Iic 0) := by
    have := (integrableOn_Ici_iff_integrableOn_Ioi).mpr i1
    have h2 := this.comp_neg
    have e2 : (fun z => vertDens P (-z)) = vertDens P := funext hev
    simpa [e2] using h2
  have i3 : Integrable (vertDens P) := by
    rw [← integrableOn_univ, ← Iic_union_Ioi (a := (0:ℝ))]
    exact i2.union i1
  rw [integral_of_hasDerivAt_of_tendsto hd i3 l2 l1]
  norm_num

/-! ### total mass -/

theorem mass_gamma (P : DiskParam) (hv : P.Valid) (h1 : P.modulationAmplitude = 0) (h2 : P.innerCutoffRadius = 0) :
    ∫ R in Ioi (0 : ℝ), 2 * π * R * surfDens P R = π * P.scaleRadius ^ 2 * P.surfaceDensity * Gamma (2 * P.sersicIndex + 1) := by
  have hd := hv.radius
  have hn := hv.sersic
  have e : ∀ R ∈ Ioi (0 : ℝ), 2 * π * R * surfDens P R = 2 * π * P.surfaceDensity * (R ^ (1 : ℝ) * exp (-(P.scaleRadius ^ (-(1 / P.sersicIndex))) * R ^ (1 / P.sersicIndex))) := by
    intro R hR
    have hR0 : (0 : ℝ) < R := hR
    rw [surfDens, h1, h2, rpow_one, div_rpow hR0.le hd.le, rpow_neg hd.le]
    have : -(R ^ (1 / P.sersicIndex) / P.scaleRadius ^ (1 / P.sersicIndex)) - 0 / R + 0 * cos (R / P.scaleRadius) = -(P.scaleRadius ^ (1 / P.sersicIndex))⁻¹ * R ^ (1 / P.sersicIndex) := by
      rw [div_eq_mul_inv]; ring
    rw [this]; ring
  rw [setIntegral_congr_fun measurableSet_Ioi e, integral_const_mul,
    integral_rpow_mul_exp_neg_mul_rpow (by positivity) (by norm_num) (by positivity)]
  have e2 : (P.scaleRadius ^ (-(1 / P.sersicIndex))) ^ (-((1:ℝ) + 1) / (1 / P.sersicIndex)) = P.scaleRadius ^ 2 := by
    rw [← rpow_mul hd.le]
    have : -(1 / P.sersicIndex) * (-((1:ℝ) + 1) / (1 / P.sersicIndex)) = (2 : ℕ) := by field_simp; norm_num
    rw [this, rpow_natCast]
  have e3 : ((1:ℝ) + 1) / (1 / P.sersicIndex) = 2 * P.sersicIndex := by field_simp; norm_num
  rw [e2, e3, Gamma_add_one (by positivity)]
  field_simp

theorem mass_generic (P : DiskParam) (hv : P.Valid) :
    ∫ R in Ioi (0 : ℝ), 2 * π * R * surfDens P R = 2 * π * P.scaleRadius ^ 2 * P.surfaceDensity * ∫ x in (0 : ℝ)..1, massIntegrand P x := by
  have hd := hv.radius
  have himg : (fun x : ℝ => P.scaleRadius * (x / (1 - x))) '' Ioo 0 1 = Ioi 0 := by
    ext R; constructor
    · rintro ⟨x, hx, rfl⟩
      have h1 : 0 < x := hx.1
      have h2 : 0 < 1 - x := sub_pos.mpr hx.2
      exact mem_Ioi.mpr (by positivity)
    · intro hR
      have hR0 : (0 : ℝ) < R := hR
      refine ⟨R / (P.scaleRadius + R), ⟨by positivity, ?_⟩, ?_⟩
      · rw [div_lt_one (by positivity)]; linarith
      · simp only
        have : 1 - R / (P.scaleRadius + R) = P.scaleRadius / (P.scaleRadius + R) := by field_simp; ring
        rw [this]; field_simp
  have hder : ∀ x ∈ Ioo (0 : ℝ) 1, HasDerivWithinAt (fun x : ℝ => P.scaleRadius * (x / (1 - x))) (P.scaleRadius / (1 - x) ^ 2) (Ioo 0 1) x := by
    intro x hx
    have h2 : 1 - x ≠ 0 := (sub_pos.mpr hx.2).ne'
    refine (((hasDerivAt_id x).div ((hasDerivAt_id x).const_sub 1) h2).const_mul P.scaleRadius).hasDerivWithinAt.congr_deriv ?_
    simp only [id]
    field_simp
    ring
  have hinj : InjOn (fun x : ℝ => P.scaleRadius * (x / (1 - x))) (Ioo 0 1) := by
    intro x hx y hy hxy
    have h1 : 1 - x ≠ 0 := (sub_pos.mpr hx.2).ne'
    have h2 : 1 - y ≠ 0 := (sub_pos.mpr hy.2).ne'
    simp only at hxy
    have := mul_left_cancel₀ hd.ne' hxy
    rw [div_eq_div_iff h1 h2] at this
    linarith
  rw [← himg, integral_image_eq_integral_abs_deriv_smul measurableSet_Ioo hder hinj,
    intervalIntegral.integral_of_le zero_le_one, integral_Ioc_eq_integral_Ioo, ← integral_const_mul]
  refine setIntegral_congr_fun measurableSet_Ioo fun x hx => ?_
  have h1 : 0 < x := hx.1
  have h2 : 0 < 1 - x := sub_pos.mpr hx.2
  have h3 : ¬(x = 0 ∨ x = 1) := by rintro (h | h) <;> [exact h1.ne' h; exact hx.2.ne h]
  simp only [massIntegrand, if_neg h3, surfDens, smul_eq_mul]
  rw [abs_of_pos (by positivity)]
  have e1 : P.scaleRadius * (x / (1 - x)) / P.scaleRadius = x / (1 - x) := by field_simp
  have e2 : -P.innerCutoffRadius / P.scaleRadius / (x / (1 - x)) - (x / (1 - x)) ^ (1 / P.sersicIndex) + P.modulationAmplitude * cos (x / (1 - x)) =
      -(x / (1 - x)) ^ (1 / P.sersicIndex) - P.innerCutoffRadius / (P.scaleRadius * (x / (1 - x))) + P.modulationAmplitude * cos (x / (1 - x)) := by
    field_simp; ring
  rw [e1, e2]
  field_simp

/-! Bessel functions -/

theorem besselArg_integrable {x : ℝ} (hx : 0 < x) : Integrable fun t : ℝ => exp (2 * t) * exp (-x * cosh t) := by
  have himg : exp '' univ = Ioi (0:ℝ) := by rw [image_univ, range_exp]
  have h := integrableOn_image_iff_integrableOn_abs_deriv_smul (s := univ) MeasurableSet.univ
    (fun t _ => (hasDerivAt_exp t).hasDerivWithinAt) (exp_injective.injOn) (fun R : ℝ => R * exp (-(x / 2) * R - x / 2 / R))
  rw [himg, integrableOn_univ] at h
  have hi : IntegrableOn (fun R : ℝ => R * exp (-(x / 2) * R - x / 2 / R)) (Ioi 0) := by
    have h1 := integrableOn_rpow_mul_exp_neg_mul_rpow (p := 1) (s := 1) (b := x / 2) (by norm_num) (by norm_num) (by positivity)
    refine h1.mono' ?_ ?_
    · refine (Measurable.mul measurable_id ?_).aestronglyMeasurable
      exact measurable_exp.comp ((measurable_const.mul measurable_id).sub (measurable_const.div measurable_id))
    · refine (ae_restrict_iff' measurableSet_Ioi).mpr (Eventually.of_forall fun R hR => ?_)
      have hR0 : (0:ℝ) < R := hR
      rw [norm_eq_abs, abs_of_pos (by positivity), rpow_one]
      refine mul_le_mul_of_nonneg_left (exp_le_exp.mpr ?_) hR0.le
      have : 0 < x / 2 / R := by positivity
      linarith
  refine (h.mp hi).congr (Eventually.of_forall fun t => ?_)
  simp only [smul_eq_mul, abs_of_pos (exp_pos t)]
  rw [← mul_assoc, ← exp_add, ← two_mul]
  congr 2
  rw [cosh_eq, exp_neg]
  field_simp
  ring

theorem bessel2 {x : ℝ} (hx : 0 < x) : Integrable (fun t : ℝ => exp (-x * cosh t) * cosh (2 * t)) ∧
    ∫ t : ℝ, exp (2 * t) * exp (-x * cosh t) = 2 * besselK 2 x := by
  have i1 := besselArg_integrable hx
  have i2 := i1.comp_neg
  have e : (fun t : ℝ => exp (-x * cosh t) * cosh (2 * t)) = fun t => (exp (2 * t) * exp (-x * cosh t) + exp (2 * -t) * exp (-x * cosh (-t))) / 2 := by
    funext t; rw [cosh_neg, cosh_eq (2 * t)]; ring_nf
  have e2 : ∫ t : ℝ, exp (-x * cosh t) * cosh (2 * t) = ∫ t : ℝ, exp (2 * t) * exp (-x * cosh t) := by
    rw [e, integral_div, integral_add i1 i2, integral_neg_eq_self (fun t : ℝ => exp (2 * t) * exp (-x * cosh t))]; ring
  refine ⟨by rw [e]; exact (i1.add i2).div_const 2, ?_⟩
  rw [← e2, besselK, ← integral_comp_abs (f := fun t => exp (-x * cosh t) * cosh (2 * t))]
  congr 1; funext t
  rw [cosh_abs, ← cosh_abs (2 * t), abs_mul, abs_of_pos (by norm_num : (0:ℝ) < 2)]

theorem bessel_rec {x : ℝ} (hx : 0 < x) : besselK 2 x = besselK 0 x + 2 / x * besselK 1 x := by
  have i2 := (bessel2 hx).1.integrableOn (s := Ioi 0)
  have c2 : ∀ t : ℝ, cosh (2 * t) = 1 + 2 * sinh t ^ 2 := fun t => by rw [cosh_two_mul]; linarith [cosh_sq t]
  have bnd : ∀ f : ℝ → ℝ, Continuous f → (∀ t, |f t| ≤ cosh (2 * t)) → IntegrableOn (fun t => exp (-x * cosh t) * f t) (Ioi 0) := by
    intro f hf hb
    refine i2.mono' (by fun_prop) (Eventually.of_forall fun t => ?_)
    rw [norm_eq_abs, abs_mul, abs_of_pos (exp_pos _)]
    exact mul_le_mul_of_nonneg_left (hb t) (exp_pos _).le
  have h1 : ∀ t, 1 ≤ cosh t := one_le_cosh
  have hc : ∀ t, cosh t ^ 2 = sinh t ^ 2 + 1 := cosh_sq
  have j0 := bnd (fun _ => 1) continuous_const (fun t => by rw [c2, abs_one]; nlinarith [sq_nonneg (sinh t)])
  have j1 := bnd cosh continuous_cosh (fun t => by rw [c2, abs_of_pos (cosh_pos t)]; nlinarith [h1 t, hc t])
  have j2 := bnd (fun t => sinh t ^ 2) (by fun_prop) (fun t => by rw [c2, abs_of_nonneg (sq_nonneg _)]; nlinarith [sq_nonneg (sinh t)])
  have hder : ∀ t ∈ Ici (0:ℝ), HasDerivAt (fun t => sinh t * exp (-x * cosh t)) (exp (-x * cosh t) * cosh t - x * (exp (-x * cosh t) * sinh t ^ 2)) t := fun t _ => by
    refine ((hasDerivAt_sinh t).mul (((hasDerivAt_cosh t).const_mul (-x)).exp)).congr_deriv ?_
    ring
  have hlim : Tendsto (fun t => sinh t * exp (-x * cosh t)) atTop (𝓝 0) := by
    have hct : Tendsto cosh atTop atTop := by
      refine tendsto_atTop_mono (fun t => ?_) (tendsto_exp_atTop.atTop_div_const (by norm_num : (0:ℝ) < 2))
      rw [cosh_eq]; have := exp_pos (-t); linarith
    have hu : Tendsto (fun u : ℝ => u * exp (-x * u)) atTop (𝓝 0) := by
      have := tendsto_rpow_mul_exp_neg_mul_atTop_nhds_zero 1 x hx
      simpa using this
    refine squeeze_zero_norm (fun t => ?_) (hu.comp hct)
    rw [norm_eq_abs, abs_mul, abs_of_pos (exp_pos _)]
    simp only [Function.comp]
    refine mul_le_mul_of_nonneg_right ?_ (exp_pos _).le
    exact abs_le_of_sq_le_sq (by linarith [hc t]) (cosh_pos t).le
  have key := integral_Ioi_of_hasDerivAt_of_tendsto' hder (j1.sub (j2.const_mul x)) hlim
  rw [integral_sub j1 (j2.const_mul x), integral_const_mul] at key
  simp only [sinh_zero, zero_mul, sub_zero] at key
  simp only [besselK]
  have e2 : ∀ t : ℝ, exp (-x * cosh t) * cosh (2 * t) = exp (-x * cosh t) * 1 + 2 * (exp (-x * cosh t) * sinh t ^ 2) := fun t => by rw [c2]; ring
  simp only [e2, zero_mul, one_mul, cosh_zero]
  rw [integral_add j0 (j2.const_mul 2), integral_const_mul]
  have k : ∫ a in Ioi (0 : ℝ), exp (-x * cosh a) * cosh a = x * ∫ a in Ioi (0 : ℝ), exp (-x * cosh a) * sinh a ^ 2 := by linarith
  rw [k, ← mul_assoc, div_mul_cancel₀ _ hx.ne']

theorem mass_bessel (P : DiskParam) (hv : P.Valid) (h1 : P.modulationAmplitude = 0) (h2 : 0 < P.innerCutoffRadius) (h3 : P.sersicIndex = 1) :
    ∫ R in Ioi (0 : ℝ), 2 * π * R * surfDens P R = 4 * π * P.scaleRadius ^ 2 * P.surfaceDensity * √(P.innerCutoffRadius / P.scaleRadius) *
      (√(P.innerCutoffRadius / P.scaleRadius) * besselK 0 (2 * √(P.innerCutoffRadius / P.scaleRadius)) + besselK 1 (2 * √(P.innerCutoffRadius / P.scaleRadius))) := by
  have hd := hv.radius
  have hp : 0 < √(P.innerCutoffRadius / P.scaleRadius) := sqrt_pos.mpr (by positivity)
  have hsq : √(P.innerCutoffRadius / P.scaleRadius) ^ 2 = P.innerCutoffRadius / P.scaleRadius := sq_sqrt (by positivity)
  set p := √(P.innerCutoffRadius / P.scaleRadius) with hpd
  have hR0 : P.innerCutoffRadius = p ^ 2 * P.scaleRadius := by rw [hsq]; field_simp
  have himg : (fun t => P.scaleRadius * p * exp t) '' univ = Ioi (0:ℝ) := by
    ext R; constructor
    · rintro ⟨t, -, rfl⟩; exact mem_Ioi.mpr (by positivity)
    · intro hR
      have hR' : (0:ℝ) < R := hR
      refine ⟨log (R / (P.scaleRadius * p)), mem_univ _, ?_⟩
      simp only
      rw [exp_log (by positivity)]; field_simp
  have hinj : InjOn (fun t => P.scaleRadius * p * exp t) univ := fun s _ t _ hst => exp_injective (mul_left_cancel₀ (by positivity) hst)
  have h := integral_image_eq_integral_abs_deriv_smul (s := univ) MeasurableSet.univ
    (fun t _ => ((hasDerivAt_exp t).const_mul (P.scaleRadius * p)).hasDerivWithinAt) hinj (fun R : ℝ => 2 * π * R * surfDens P R)
  rw [himg, setIntegral_univ] at h
  rw [h]
  have e : ∀ t : ℝ, |P.scaleRadius * p * exp t| • (2 * π * (P.scaleRadius * p * exp t) * surfDens P (P.scaleRadius * p * exp t)) =
      2 * π * P.surfaceDensity * (P.scaleRadius * p) ^ 2 * (exp (2 * t) * exp (-(2 * p) * cosh t)) := by
    intro t
    rw [abs_of_pos (by positivity), smul_eq_mul, surfDens, h1, h3]
    have e1 : -(P.scaleRadius * p * exp t / P.scaleRadius) ^ ((1:ℝ) / 1) - P.innerCutoffRadius / (P.scaleRadius * p * exp t) + 0 * cos (P.scaleRadius * p * exp t / P.scaleRadius) = -(2 * p) * cosh t := by
      rw [div_one, rpow_one, hR0, cosh_eq, exp_neg]
      field_simp
      ring
    rw [e1, two_mul t, exp_add]; ring
  simp only [e]
  rw [integral_const_mul, (bessel2 (by positivity : 0 < 2 * p)).2, bessel_rec (by positivity)]
  field_simp
  ring

/-- C97 (mass): the total mass reported for any admissible parameters is the integral of the documented surface density over the plane -/
theorem C97_mass (P : DiskParam) (hv : P.Valid) : P.mass = ∫ R in Ioi (0 : ℝ), 2 * π * R * surfDens P R := by
  simp only [DiskParam.mass]
  split_ifs with h1 h2
  · exact (mass_gamma P hv h1.1 h1.2).symm
  · refine (mass_bessel P hv h2.1 (lt_of_le_of_ne hv.hole fun h => h1 ⟨h2.1, h.symm⟩) h2.2).symm
  · exact (mass_generic P hv).symm

/-- C97 (mass, in space): for a disk of finite thickness it is the integral of the density over the space -/
theorem C97_mass_space (P : DiskParam) (f : ℝ → ℝ × Option (ℝ × ℝ)) (hf : createRadial P = some f) (h : P.scaleHeight ≠ 0) :
    P.mass = ∫ R in Ioi (0 : ℝ), ∫ z : ℝ, 2 * π * R * diskDens (asRadial f) (createVertical P) ⟨R, z, 0⟩ := by
  rw [C97_mass P (createRadial_valid hf)]
  refine setIntegral_congr_fun measurableSet_Ioi fun R hR => ?_
  simp only [diskDens, asRadial]
  have : ∀ z : ℝ, 2 * π * R * ((f R).1 * (createVertical P z).der2) = (2 * π * R * surfDens P R) * (createVertical P z).der2 := fun z => by
    rw [(C97_radial P f hf R hR).1]; ring
  simp only [this]
  rw [integral_const_mul, C97_vertical_norm P h, mul_one]

example : exDisk.mass = ∫ R in Ioi (0 : ℝ), ∫ z : ℝ, 2 * π * R * diskDens (asRadial (radialRich exDisk)) (createVertical exDisk) ⟨R, z, 0⟩ :=
  C97_mass_space exDisk _ exDisk_ok (by norm_num [exDisk])
/-- the mass of an exponential disk is 2π Σ₀ R_d² -/
example : (⟨5, 3, 1, 0, 0, 1⟩ : DiskParam).mass = 2 * π * 3 ^ 2 * 5 := by
  norm_num [DiskParam.mass, show (3:ℝ) = (2:ℕ) + 1 by norm_num, Gamma_nat_eq_factorial]
  ring

end Verif.Pot
