import Verif.Pot.SpheroidProps
import Mathlib.Analysis.SpecialFunctions.Arcosh
import Mathlib.Analysis.SpecialFunctions.Trigonometric.DerivHyp

/-! # C110: Nuker and Sersic profiles -/

namespace Verif.Pot

open Real Verif.Coord MeasureTheory Set Filter Topology

/-! ## Nuker: parameters and mass -/

/-- the conditions on the parameters of the Nuker model, as documented (potential_spheroid.h:52-58), except that the code does not require the cutoff
strength to be positive -/
structure NukerParam.Ok (P : NukerParam) : Prop where
  radius : 0 < P.scaleRadius
  axisY : 0 < P.axisRatioY
  axisZ : 0 < P.axisRatioZ
  cutoff : ∀ rcut, P.outerCutoffRadius = some rcut → 0 < rcut
  alpha : 0 < P.alpha
  beta : P.outerCutoffRadius = none → 2 < P.beta
  gamma0 : 0 ≤ P.gamma
  gamma2 : P.gamma < 2

theorem C110_nuker_accepts (P : NukerParam) : (∃ f, createNukerDensity P = some f) ↔ P.Ok := by
  unfold createNukerDensity
  constructor
  · rintro ⟨f, hf⟩
    split_ifs at hf with h1 h2 h3 h4 h5 h6
    push Not at h4
    exact ⟨h1, h2.1, h2.2, fun rcut hr => h4 rcut hr, h3, fun hn => h5.resolve_right (by simp [hn]), h6.1, h6.2⟩
  · intro h
    rw [if_neg (not_not.mpr h.radius), if_neg (not_not.mpr ⟨h.axisY, h.axisZ⟩), if_neg (not_not.mpr h.alpha), if_neg, if_neg,
      if_neg (not_not.mpr ⟨h.gamma0, h.gamma2⟩)]
    · exact ⟨_, rfl⟩
    · push Not
      by_cases hn : P.outerCutoffRadius = none
      · exact Or.inl (h.beta hn)
      · exact Or.inr hn
    · rintro ⟨rc, hrc, hneg⟩
      exact hneg (h.cutoff rc hrc)

private noncomputable def nukI (P : NukerParam) (x : ℝ) : ℝ :=
  x ^ (2 - 1 - P.gamma) * (1 / 2 + 1 / 2 * x ^ P.alpha) ^ ((P.gamma - P.beta) / P.alpha) *
    match P.outerCutoffRadius with
    | none => 1
    | some rcut => exp (-(x * P.scaleRadius / rcut) ^ P.cutoffStrength)

private theorem nuk_scaled (P : NukerParam) (h0 : 0 < P.scaleRadius) {x : ℝ} (hx : 0 < x) :
    2 * π * (P.scaleRadius * x) * nukerSigma P (P.scaleRadius * x) = 2 * π * P.surfaceDensity * P.scaleRadius * nukI P x := by
  have e : P.scaleRadius * x / P.scaleRadius = x := by field_simp
  have e2 : x ^ (2 - 1 - P.gamma) = x * x ^ (-P.gamma) := by
    rw [show 2 - 1 - P.gamma = 1 + -P.gamma by ring, rpow_add hx, rpow_one]
  simp only [nukerSigma, nukI]
  rw [e, e2]
  cases P.outerCutoffRadius
  · simp only; ring
  · simp only; rw [mul_comm x P.scaleRadius]; ring

private theorem half_pow (P : NukerParam) {x : ℝ} (hx : 0 < x) :
    (1 / 2 + 1 / 2 * x ^ P.alpha) ^ ((P.gamma - P.beta) / P.alpha) = 2 ^ ((P.beta - P.gamma) / P.alpha) * (1 + x ^ P.alpha) ^ ((P.gamma - P.beta) / P.alpha) := by
  have h1 := rpow_pos_of_pos hx P.alpha
  have e : (1 / 2 + 1 / 2 * x ^ P.alpha) = 2⁻¹ * (1 + x ^ P.alpha) := by ring
  rw [e, mul_rpow (by norm_num) (by positivity), inv_rpow two_pos.le, ← rpow_neg two_pos.le]
  congr 2; ring

private theorem nuk_radial (P : NukerParam) (h0 : 0 < P.scaleRadius) :
    (IntegrableOn (nukI P) (Ioi 0) → IntegrableOn (fun R => 2 * π * R * nukerSigma P R) (Ioi 0)) ∧
    ∫ R in Ioi (0 : ℝ), 2 * π * R * nukerSigma P R = 2 * π * P.surfaceDensity * P.scaleRadius ^ 2 * ∫ x in Ioi (0 : ℝ), nukI P x := by
  obtain ⟨h1, h2⟩ := scale_Ioi (fun R => 2 * π * R * nukerSigma P R) h0
  have e : IntegrableOn (fun x => 2 * π * (P.scaleRadius * x) * nukerSigma P (P.scaleRadius * x)) (Ioi 0) ↔
      IntegrableOn (fun x => 2 * π * P.surfaceDensity * P.scaleRadius * nukI P x) (Ioi 0) :=
    integrableOn_congr_fun (fun x hx => nuk_scaled P h0 hx) measurableSet_Ioi
  refine ⟨fun hi => ?_, ?_⟩
  · rw [h1, e]; exact hi.const_mul _
  · rw [h2, setIntegral_congr_fun measurableSet_Ioi fun x hx => nuk_scaled P h0 hx, integral_const_mul]; ring

private theorem nukI_none {P : NukerParam} (hn : P.outerCutoffRadius = none) {x : ℝ} (hx : 0 < x) :
    nukI P x = 2 ^ ((P.beta - P.gamma) / P.alpha) * (x ^ (2 - 1 - P.gamma) * (1 + x ^ P.alpha) ^ ((P.gamma - P.beta) / P.alpha)) := by
  simp only [nukI, hn]; rw [half_pow P hx]; ring

private theorem nukI_some {P : NukerParam} {rc : ℝ} (hn : P.outerCutoffRadius = some rc) :
    nukI P = fun x => x ^ (2 - 1 - P.gamma) * (1 / 2 + 1 / 2 * x ^ P.alpha) ^ ((P.gamma - P.beta) / P.alpha) *
      exp (-(x * P.scaleRadius / rc) ^ P.cutoffStrength) := by
  funext x; simp [nukI, hn]

private theorem nukI_integrable_cut {P : NukerParam} (h : P.Ok) {rc : ℝ} (hn : P.outerCutoffRadius = some rc) (hx : 0 < P.cutoffStrength) :
    IntegrableOn (nukI P) (Ioi 0) := by
  have hc := h.cutoff rc hn
  have hg := h.gamma2
  have ha := h.alpha
  set k := (P.gamma - P.beta) / P.alpha with hk
  have i1 := rpow_exp_integrable (a := 2 - 1 - P.gamma) (by linarith) h.radius hc hx
  have i2 := rpow_exp_integrable (a := 2 - 1 - P.gamma + max (P.alpha * k) 0) (by have := le_max_right (P.alpha * k) 0; linarith) h.radius hc hx
  refine ((i1.const_mul (2 ^ (-k))).add (i1.add i2)).mono' (by rw [nukI_some hn]; fun_prop) ?_
  refine (ae_restrict_iff' measurableSet_Ioi).mpr (Eventually.of_forall fun x hx => ?_)
  have hx0 : (0:ℝ) < x := hx
  have h1 : 0 < x ^ P.alpha := rpow_pos_of_pos hx0 _
  have h4 : 0 < x ^ (2 - 1 - P.gamma) := rpow_pos_of_pos hx0 _
  have hp : 0 < (1 / 2 + 1 / 2 * x ^ P.alpha) ^ k := rpow_pos_of_pos (by positivity) _
  have hb : (1 / 2 + 1 / 2 * x ^ P.alpha) ^ k ≤ 2 ^ (-k) + 1 + x ^ (max (P.alpha * k) 0) := by
    have p1 : (0:ℝ) < 2 ^ (-k) := rpow_pos_of_pos two_pos _
    have p2 : 0 < x ^ (max (P.alpha * k) 0) := rpow_pos_of_pos hx0 _
    rcases le_total k 0 with hh | hh
    · have : (1 / 2 + 1 / 2 * x ^ P.alpha) ^ k ≤ (1 / 2 : ℝ) ^ k := rpow_le_rpow_of_nonpos (by norm_num) (by linarith) hh
      have e : (1 / 2 : ℝ) ^ k = 2 ^ (-k) := by rw [one_div, inv_rpow two_pos.le, rpow_neg two_pos.le]
      linarith
    · rcases le_total x 1 with hx1 | hx1
      · have : x ^ P.alpha ≤ 1 := rpow_le_one hx0.le hx1 ha.le
        have : (1 / 2 + 1 / 2 * x ^ P.alpha) ^ k ≤ 1 := rpow_le_one (by positivity) (by linarith) hh
        linarith
      · have h5 : 1 ≤ x ^ P.alpha := one_le_rpow hx1 ha.le
        have h6 : (1 / 2 + 1 / 2 * x ^ P.alpha) ^ k ≤ (x ^ P.alpha) ^ k := rpow_le_rpow (by positivity) (by linarith) hh
        rw [← rpow_mul hx0.le] at h6
        rw [max_eq_left (by positivity)] at p2 ⊢
        linarith
  rw [nukI_some hn, norm_of_nonneg (by positivity)]
  simp only [Pi.add_apply]
  have hE := exp_pos (-(x * P.scaleRadius / rc) ^ P.cutoffStrength)
  calc _ ≤ x ^ (2 - 1 - P.gamma) * (2 ^ (-k) + 1 + x ^ (max (P.alpha * k) 0)) * exp (-(x * P.scaleRadius / rc) ^ P.cutoffStrength) :=
        mul_le_mul_of_nonneg_right (mul_le_mul_of_nonneg_left hb h4.le) hE.le
    _ = _ := by rw [rpow_add hx0 (2 - 1 - P.gamma)]; ring

/-- C110: `mass()` of the Nuker model is the integral of the documented surface density over the plane, times the axis ratios (the code applies the
flattening to the deprojected density), for all accepted parameters whose cutoff, if any, has a positive strength -/
theorem C110_nuker_mass (P : NukerParam) (h : P.Ok) (hx : P.outerCutoffRadius ≠ none → 0 < P.cutoffStrength) :
    ∃ m, P.mass = .val m ∧ IntegrableOn (fun R => 2 * π * R * nukerSigma P R) (Ioi 0) ∧
      m = P.axisRatioY * P.axisRatioZ * ∫ R in Ioi (0 : ℝ), 2 * π * R * nukerSigma P R := by
  obtain ⟨r1, r2⟩ := nuk_radial P h.radius
  have hnan : ¬(2 ≤ P.gamma ∨ P.alpha ≤ 0) := by push Not; exact ⟨h.gamma2, h.alpha⟩
  cases hn : P.outerCutoffRadius with
  | none =>
    obtain ⟨z1, z2⟩ := zhao_integral (n := 2) h.alpha h.gamma2 (h.beta hn)
    have hmass : P.mass = .val (2 * π * P.surfaceDensity * P.scaleRadius ^ 2 * P.axisRatioY * P.axisRatioZ *
        (Gamma ((P.beta - 2) / P.alpha) * Gamma ((2 - P.gamma) / P.alpha) / Gamma ((P.beta - P.gamma) / P.alpha) / P.alpha *
          2 ^ ((P.beta - P.gamma) / P.alpha))) := by
      rw [NukerParam.mass, if_neg hnan]; simp only [hn]
    refine ⟨_, hmass, r1 ((integrableOn_congr_fun (fun x hx => nukI_none hn hx) measurableSet_Ioi).mpr (z1.const_mul _)), ?_⟩
    rw [r2, setIntegral_congr_fun measurableSet_Ioi fun x hx => nukI_none hn hx, integral_const_mul, z2]; ring
  | some rc =>
    have hmass : P.mass = .val (2 * π * P.surfaceDensity * P.scaleRadius ^ 2 * P.axisRatioY * P.axisRatioZ *
        ∫ x in (0 : ℝ)..1, nukerMassIntegrand P rc x) := by
      rw [NukerParam.mass, if_neg hnan]; simp only [hn]
    refine ⟨_, hmass, r1 (nukI_integrable_cut h hn (hx (by simp [hn]))), ?_⟩
    rw [r2, expSubst_integral]
    have : ∀ x : ℝ, nukerMassIntegrand P rc x = if x = 0 ∨ x = 1 then 0 else
        exp (1 / (1 - x) - 1 / x) * (1 / (1 - x) ^ 2 + 1 / x ^ 2) * nukI P (exp (1 / (1 - x) - 1 / x)) := by
      intro x
      unfold nukerMassIntegrand
      split_ifs with hx
      · rfl
      · rw [nukI_some hn]
        simp only
        generalize hE : exp (1 / (1 - x) - 1 / x) = E
        have hE0 : 0 < E := hE ▸ exp_pos _
        have e2 : E ^ (2 - 1 - P.gamma) = E * E ^ (-P.gamma) := by
          rw [show 2 - 1 - P.gamma = 1 + -P.gamma by ring, rpow_add hE0, rpow_one]
        have e3 : (0.5 + 0.5 * E ^ P.alpha) = 1 / 2 + 1 / 2 * E ^ P.alpha := by norm_num
        rw [e2, e3]; ring
    simp_rw [this]
    ring

/-! ## Nuker: deprojection -/

/-- the substitution in NukerIntegrand: `R = c u / (1 - t)` maps the unit interval to the radii beyond `c` -/
theorem nuker_subst (g : ℝ → ℝ) {c : ℝ} (hc : 0 < c) :
    ∫ R in Ioi c, g R / √(R ^ 2 - c ^ 2) =
      ∫ t in (0 : ℝ)..1, g (c * √(1 - 2 * t * (1 - t)) / (1 - t)) / √(1 - 2 * t * (1 - t)) / (1 - t) := by
  have hu : ∀ t : ℝ, 0 < 1 - 2 * t * (1 - t) := fun t => by nlinarith [sq_nonneg (2 * t - 1)]
  have himg : (fun t : ℝ => c * √(1 - 2 * t * (1 - t)) / (1 - t)) '' Ioo 0 1 = Ioi c := by
    ext R; constructor
    · rintro ⟨t, ht, rfl⟩
      have h2 : 0 < 1 - t := sub_pos.mpr ht.2
      have : 1 - t < √(1 - 2 * t * (1 - t)) := lt_sqrt_of_sq_lt (by nlinarith [ht.1])
      rw [mem_Ioi, lt_div_iff₀ h2]
      exact mul_lt_mul_of_pos_left this hc
    · intro hR
      have hR0 : c < R := hR
      set w := √(R ^ 2 - c ^ 2) with hw
      have hw2 : w ^ 2 = R ^ 2 - c ^ 2 := sq_sqrt (by nlinarith)
      have hw0 : 0 < w := sqrt_pos.mpr (by nlinarith)
      have e1 : 1 - w / (c + w) = c / (c + w) := by field_simp; ring
      refine ⟨w / (c + w), ⟨by positivity, ?_⟩, ?_⟩
      · rw [div_lt_one (by positivity)]; linarith
      · simp only
        have e2 : 1 - 2 * (w / (c + w)) * (1 - w / (c + w)) = (R / (c + w)) ^ 2 := by
          rw [e1]; field_simp; linear_combination hw2
        rw [e2, sqrt_sq (by have : 0 < R := by linarith
                            positivity), e1]
        field_simp
  have hder : ∀ t ∈ Ioo (0 : ℝ) 1, HasDerivWithinAt (fun t : ℝ => c * √(1 - 2 * t * (1 - t)) / (1 - t))
      (c * t / ((1 - t) ^ 2 * √(1 - 2 * t * (1 - t)))) (Ioo 0 1) t := by
    intro t ht
    have h2 : 1 - t ≠ 0 := (sub_pos.mpr ht.2).ne'
    have hin : HasDerivAt (fun t : ℝ => 1 - 2 * t * (1 - t)) (-2 + 4 * t) t := by
      refine ((((hasDerivAt_id t).const_mul 2).mul ((hasDerivAt_id t).const_sub 1)).const_sub 1).congr_deriv ?_
      simp only [id]; ring
    refine (((hin.sqrt (hu t).ne').const_mul c).div ((hasDerivAt_id t).const_sub 1) h2).hasDerivWithinAt.congr_deriv ?_
    have hs := sq_sqrt (hu t).le
    have hs0 := sqrt_pos.mpr (hu t)
    simp only [id]
    field_simp
    linear_combination 2 * hs
  have hinj : InjOn (fun t : ℝ => c * √(1 - 2 * t * (1 - t)) / (1 - t)) (Ioo 0 1) := by
    intro x hx y hy hxy
    have h1 : 0 < 1 - x := sub_pos.mpr hx.2
    have h2 : 0 < 1 - y := sub_pos.mpr hy.2
    simp only at hxy
    rw [div_eq_div_iff h1.ne' h2.ne'] at hxy
    have h3 := congrArg (· ^ 2) hxy
    simp only [mul_pow] at h3
    rw [sq_sqrt (hu x).le, sq_sqrt (hu y).le] at h3
    have h4 : (1 - 2 * x * (1 - x)) * (1 - y) ^ 2 = (1 - 2 * y * (1 - y)) * (1 - x) ^ 2 := by
      have hc2 : c ^ 2 ≠ 0 := by positivity
      apply mul_left_cancel₀ hc2; linarith
    have h5 : (x * (1 - y)) ^ 2 = (y * (1 - x)) ^ 2 := by linear_combination h4
    have h6 : x * (1 - y) = y * (1 - x) := by
      have a1 : 0 ≤ x * (1 - y) := mul_nonneg hx.1.le h2.le
      have a2 : 0 ≤ y * (1 - x) := mul_nonneg hy.1.le h1.le
      exact (sq_eq_sq₀ a1 a2).mp h5
    linarith
  rw [← himg, integral_image_eq_integral_abs_deriv_smul measurableSet_Ioo hder hinj,
    intervalIntegral.integral_of_le zero_le_one, integral_Ioc_eq_integral_Ioo]
  refine setIntegral_congr_fun measurableSet_Ioo fun t ht => ?_
  have h1 : 0 < t := ht.1
  have h2 : 0 < 1 - t := sub_pos.mpr ht.2
  have hs := sq_sqrt (hu t).le
  have hs0 := sqrt_pos.mpr (hu t)
  simp only [smul_eq_mul]
  rw [abs_of_pos (by positivity)]
  have e : (c * √(1 - 2 * t * (1 - t)) / (1 - t)) ^ 2 - c ^ 2 = (c * t / (1 - t)) ^ 2 := by
    rw [div_pow, mul_pow, hs]; field_simp; ring
  rw [e, sqrt_sq (by positivity)]
  field_simp

/-- derivative of the documented surface density -/
theorem nukerSigma_deriv (P : NukerParam) (h : P.Ok) {X : ℝ} (hX : 0 < X) :
    HasDerivAt (nukerSigma P)
      (-(P.surfaceDensity / P.scaleRadius * 2 ^ ((P.beta - P.gamma) / P.alpha) * X ^ (-P.gamma - 1) * (1 + X ^ P.alpha) ^ ((P.gamma - P.beta) / P.alpha - 1) *
        match P.outerCutoffRadius with
        | none => P.gamma + P.beta * X ^ P.alpha
        | some rc => (P.gamma + P.beta * X ^ P.alpha + (1 + X ^ P.alpha) * P.cutoffStrength * (X * P.scaleRadius / rc) ^ P.cutoffStrength) *
            exp (-(X * P.scaleRadius / rc) ^ P.cutoffStrength)))
      (P.scaleRadius * X) := by
  have h0 := h.radius
  have ha := h.alpha
  have e : P.scaleRadius * X / P.scaleRadius = X := by field_simp
  have hXa := rpow_pos_of_pos hX P.alpha
  have dX : HasDerivAt (fun R : ℝ => R / P.scaleRadius) (1 / P.scaleRadius) (P.scaleRadius * X) := (hasDerivAt_id _).div_const _
  have d1 : HasDerivAt (fun R : ℝ => (R / P.scaleRadius) ^ (-P.gamma)) (1 / P.scaleRadius * (-P.gamma) * X ^ (-P.gamma - 1)) (P.scaleRadius * X) := by
    have := dX.rpow_const (p := -P.gamma) (Or.inl (by rw [e]; exact hX.ne'))
    rwa [e] at this
  have d2 : HasDerivAt (fun R : ℝ => (1 / 2 + 1 / 2 * (R / P.scaleRadius) ^ P.alpha)) (1 / 2 * (1 / P.scaleRadius * P.alpha * X ^ (P.alpha - 1))) (P.scaleRadius * X) := by
    have := dX.rpow_const (p := P.alpha) (Or.inl (by rw [e]; exact hX.ne'))
    rw [e] at this
    exact (this.const_mul (1 / 2)).const_add (1 / 2)
  have d3 : HasDerivAt (fun R : ℝ => (1 / 2 + 1 / 2 * (R / P.scaleRadius) ^ P.alpha) ^ ((P.gamma - P.beta) / P.alpha))
      (1 / 2 * (1 / P.scaleRadius * P.alpha * X ^ (P.alpha - 1)) * ((P.gamma - P.beta) / P.alpha) *
        (1 / 2 + 1 / 2 * X ^ P.alpha) ^ ((P.gamma - P.beta) / P.alpha - 1)) (P.scaleRadius * X) := by
    have := d2.rpow_const (p := (P.gamma - P.beta) / P.alpha) (Or.inl (by rw [e]; positivity))
    rwa [e] at this
  set k := (P.gamma - P.beta) / P.alpha with hk
  have hkα : k * P.alpha = P.gamma - P.beta := by rw [hk]; field_simp
  have p1 : X ^ (-P.gamma) = X * X ^ (-P.gamma - 1) := by rw [rpow_sub_one hX.ne']; field_simp
  have p2 : X ^ (P.alpha - 1) = X ^ P.alpha / X := rpow_sub_one hX.ne' _
  have p3 : (1 / 2 + 1 / 2 * X ^ P.alpha) ^ k = 2 ^ (-k) * ((1 + X ^ P.alpha) ^ (k - 1) * (1 + X ^ P.alpha)) := by
    have : (1 / 2 + 1 / 2 * X ^ P.alpha) = 2⁻¹ * (1 + X ^ P.alpha) := by ring
    rw [this, mul_rpow (by norm_num) (by positivity), inv_rpow two_pos.le, ← rpow_neg two_pos.le, rpow_sub_one (by positivity)]
    field_simp
  have p4 : (1 / 2 + 1 / 2 * X ^ P.alpha) ^ (k - 1) = 2 ^ (-k) * 2 * (1 + X ^ P.alpha) ^ (k - 1) := by
    have : (1 / 2 + 1 / 2 * X ^ P.alpha) = 2⁻¹ * (1 + X ^ P.alpha) := by ring
    rw [this, mul_rpow (by norm_num) (by positivity), inv_rpow two_pos.le, ← rpow_neg two_pos.le]
    rw [show -(k - 1) = -k + 1 by ring, rpow_add two_pos, rpow_one]
  have p5 : (P.beta - P.gamma) / P.alpha = -k := by rw [hk]; ring
  clear_value k
  have dd := (d1.const_mul P.surfaceDensity).mul d3
  rw [e] at dd
  rw [p5]
  cases hn : P.outerCutoffRadius with
  | none =>
    have ef : nukerSigma P = fun R => P.surfaceDensity * (R / P.scaleRadius) ^ (-P.gamma) * (1 / 2 + 1 / 2 * (R / P.scaleRadius) ^ P.alpha) ^ k := by
      funext R; simp [nukerSigma, hn, hk]
    rw [ef]
    refine dd.congr_deriv ?_
    rw [p1, p2, p3, p4]
    simp only
    field_simp
    linear_combination (P.surfaceDensity * X ^ P.alpha) * hkα
  | some rc =>
    have hrc := h.cutoff rc hn
    have ef : nukerSigma P = fun R => P.surfaceDensity * (R / P.scaleRadius) ^ (-P.gamma) * (1 / 2 + 1 / 2 * (R / P.scaleRadius) ^ P.alpha) ^ k *
        exp (-(R / rc) ^ P.cutoffStrength) := by
      funext R; simp [nukerSigma, hn, hk]
    have dE : HasDerivAt (fun R : ℝ => exp (-(R / rc) ^ P.cutoffStrength))
        (exp (-(X * P.scaleRadius / rc) ^ P.cutoffStrength) * -(P.cutoffStrength * (X * P.scaleRadius / rc) ^ P.cutoffStrength / (P.scaleRadius * X)))
        (P.scaleRadius * X) := by
      have hne : P.scaleRadius * X / rc ≠ 0 := by positivity
      have := (((hasDerivAt_id (P.scaleRadius * X)).div_const rc).rpow_const (p := P.cutoffStrength) (Or.inl hne)).neg.exp
      refine this.congr_deriv ?_
      simp only [id, Pi.neg_apply]
      rw [mul_comm P.scaleRadius X] at hne ⊢
      rw [rpow_sub_one hne]
      field_simp
    rw [ef]
    refine (dd.mul dE).congr_deriv ?_
    rw [mul_comm P.scaleRadius X, p1, p2, p3, p4]
    simp only [Pi.mul_apply]
    rw [mul_comm P.scaleRadius X] at e
    rw [e, p1, p3]
    field_simp
    linear_combination (P.surfaceDensity * X ^ P.alpha) * hkα

/-- C110: the function passed to the spline is the deprojection (Abel's inversion) of the documented surface density, at every radius -/
theorem C110_nuker_deproject (P : NukerParam) (f : ℝ → ℝ) (hf : createNukerDensity P = some f) (y : ℝ) :
    f y = abel (nukerSigma P) (P.scaleRadius * exp y) := by
  have h : P.Ok := (C110_nuker_accepts P).mp ⟨f, hf⟩
  have h0 := h.radius
  unfold createNukerDensity at hf
  split_ifs at hf
  rw [← Option.some.inj hf]
  have hc : 0 < P.scaleRadius * exp y := by positivity
  have key : ∀ t ∈ Ioo (0 : ℝ) 1, deriv (nukerSigma P) (P.scaleRadius * exp y * √(1 - 2 * t * (1 - t)) / (1 - t)) / √(1 - 2 * t * (1 - t)) / (1 - t) =
      -(P.surfaceDensity / P.scaleRadius * 2 ^ ((P.beta - P.gamma) / P.alpha)) * nukerIntegrand P (exp y) t := by
    intro t ht
    have h2 : 0 < 1 - t := sub_pos.mpr ht.2
    have hu : 0 < 1 - 2 * t * (1 - t) := by nlinarith [sq_nonneg (2 * t - 1)]
    have hs0 := sqrt_pos.mpr hu
    have hX : 0 < exp y * √(1 - 2 * t * (1 - t)) / (1 - t) := by positivity
    have hd := (nukerSigma_deriv P h hX).deriv
    have e1 : P.scaleRadius * exp y * √(1 - 2 * t * (1 - t)) / (1 - t) = P.scaleRadius * (exp y * √(1 - 2 * t * (1 - t)) / (1 - t)) := by ring
    rw [e1, hd]
    unfold nukerIntegrand
    cases P.outerCutoffRadius with
    | none => simp only; ring
    | some rc => simp only; ring
  rw [abel, nuker_subst _ hc]
  simp only [intervalIntegral.integral_of_le zero_le_one, integral_Ioc_eq_integral_Ioo]
  rw [setIntegral_congr_fun measurableSet_Ioo key, integral_const_mul]
  ring

/-! ## Nuker: findings -/

/-- C110, disagreement: without a cutoff and with an outer slope `beta <= 2` the surface density has an infinite integral, yet `mass()` has no check for
it (unlike the one of the double-power-law model) and may return a negative number -/
theorem C110_nuker_negative_mass : ∃ P : NukerParam, 0 < P.surfaceDensity ∧ 0 < P.scaleRadius ∧ 0 < P.axisRatioY ∧ 0 < P.axisRatioZ ∧
    (∀ R, 0 < R → 0 < nukerSigma P R) ∧ ∃ m, P.mass = .val m ∧ m < 0 := by
  let P : NukerParam := ⟨1, 1, none, 2, 1, 3 / 2, 0, 1, 1⟩
  have hmass : P.mass = .val (2 * π * 1 * 1 ^ 2 * 1 * 1 *
      (Gamma ((3 / 2 - 2) / 1) * Gamma ((2 - 0) / 1) / Gamma ((3 / 2 - 0) / 1) / 1 * 2 ^ (((3:ℝ) / 2 - 0) / 1))) := by
    rw [NukerParam.mass, if_neg (by norm_num [P])]
  refine ⟨P, one_pos, one_pos, one_pos, one_pos, fun R hR => ?_, _, hmass, ?_⟩
  · simp only [nukerSigma, P]
    have h1 : 0 < (R / 1) ^ (-(0:ℝ)) := rpow_pos_of_pos (by simpa using hR) _
    have h2 : 0 < (1 / 2 + 1 / 2 * (R / 1) ^ (1:ℝ)) ^ ((0 - 3 / 2) / (1:ℝ)) := rpow_pos_of_pos (by rw [rpow_one]; linarith) _
    positivity
  · have g1 : Gamma (-1 / 2) < 0 := by
      have := Gamma_add_one (s := (-1 / 2 : ℝ)) (by norm_num)
      have h2 : 0 < Gamma (-1 / 2 + 1 : ℝ) := Gamma_pos_of_pos (by norm_num)
      rw [this] at h2; linarith
    have g2 : 0 < Gamma (3 / 2 : ℝ) := Gamma_pos_of_pos (by norm_num)
    have g3 : 0 < Gamma (2 : ℝ) := Gamma_pos_of_pos (by norm_num)
    have e1 : ((3 / 2 : ℝ) - 2) / 1 = -1 / 2 := by norm_num
    have e2 : ((2 : ℝ) - 0) / 1 = 2 := by norm_num
    have e3 : ((3 / 2 : ℝ) - 0) / 1 = 3 / 2 := by norm_num
    rw [e1, e2, e3]
    have h4 : (0:ℝ) < 2 ^ (3 / 2 : ℝ) := rpow_pos_of_pos two_pos _
    have h5 : Gamma (-1 / 2) * Gamma 2 / Gamma (3 / 2) / 1 * 2 ^ (3 / 2 : ℝ) < 0 := by
      have : Gamma (-1 / 2) * Gamma 2 / Gamma (3 / 2) / 1 < 0 := by
        rw [div_one]; exact div_neg_of_neg_of_pos (mul_neg_of_neg_of_pos g1 g3) g2
      exact mul_neg_of_neg_of_pos this h4
    have h6 : 0 < 2 * π * 1 * 1 ^ 2 * 1 * 1 := by positivity
    exact mul_neg_of_pos_of_neg h6 h5

/-- C110, disagreement: a cutoff whose strength is not positive is accepted (unlike in the double-power-law model), although it does not make the mass finite -/
theorem C110_nuker_weak_cutoff : ∃ P : NukerParam, P.Ok ∧ 0 < P.surfaceDensity ∧ ¬IntegrableOn (fun R => 2 * π * R * nukerSigma P R) (Ioi 0) := by
  let P : NukerParam := ⟨1, 1, some 1, 0, 1, 0, 0, 1, 1⟩
  refine ⟨P, ⟨one_pos, one_pos, one_pos, fun rc h => ?_, one_pos, fun h => ?_, le_rfl, two_pos⟩, one_pos, fun hi => ?_⟩
  · simp only [P, Option.some.injEq] at h; rw [← h]; exact one_pos
  · simp [P] at h
  have e : ∀ R ∈ Ioi (0:ℝ), 2 * π * R * nukerSigma P R = 2 * π * exp (-1) * R := by
    intro R hR
    simp [nukerSigma, P]; ring
  have hi2 := (integrableOn_congr_fun e measurableSet_Ioi).mp hi
  have hi3 := (hi2.mono_set (Ioi_subset_Ioi zero_le_one)).const_mul (2 * π * exp (-1))⁻¹
  refine not_integrableOn_Ioi_inv (a := 1) (hi3.mono' (by fun_prop) ?_)
  refine (ae_restrict_iff' measurableSet_Ioi).mpr (Eventually.of_forall fun x hx => ?_)
  have hx1 : (1:ℝ) < x := hx
  have hx0 : (0:ℝ) < x := by linarith
  rw [norm_of_nonneg (by positivity), inv_mul_cancel_left₀ (by positivity)]
  exact (inv_le_one_of_one_le₀ hx1.le).trans hx1.le

/-! ## Sersic -/

/-- C110: `mass()` of the Sersic model is the integral of the documented surface density over the plane times the axis ratios -/
theorem C110_sersic_mass (P : SersicParam) (b : ℝ) (hb : 0 < b) (hn : 0 < P.sersicIndex) (hr : 0 < P.scaleRadius) :
    P.mass b = P.axisRatioY * P.axisRatioZ * ∫ R in Ioi (0 : ℝ), 2 * π * R * sersicSigma P b R := by
  obtain ⟨-, h2⟩ := scale_Ioi (fun R => 2 * π * R * sersicSigma P b R) hr
  have e : ∀ x ∈ Ioi (0:ℝ), 2 * π * (P.scaleRadius * x) * sersicSigma P b (P.scaleRadius * x) =
      2 * π * P.scaleRadius * P.surfaceDensity * (x ^ (1:ℝ) * exp (-b * x ^ (1 / P.sersicIndex))) := by
    intro x hx
    have e1 : P.scaleRadius * x / P.scaleRadius = x := by field_simp
    rw [sersicSigma, e1, rpow_one]; ring
  rw [h2, setIntegral_congr_fun measurableSet_Ioi e, integral_const_mul,
    integral_rpow_mul_exp_neg_mul_rpow (by positivity) (by norm_num) hb]
  have e2 : -((1:ℝ) + 1) / (1 / P.sersicIndex) = -2 * P.sersicIndex := by field_simp; norm_num
  have e3 : ((1:ℝ) + 1) / (1 / P.sersicIndex) = 2 * P.sersicIndex := by field_simp; norm_num
  rw [e2, e3, SersicParam.mass]
  field_simp

/-- the mass projected outside the radius `scaleRadius` is given by the incomplete Gamma function -/
theorem sersic_outer (P : SersicParam) {b : ℝ} (hb : 0 < b) (hn : 0 < P.sersicIndex) (hr : 0 < P.scaleRadius) :
    ∫ R in Ioi P.scaleRadius, 2 * π * R * sersicSigma P b R =
      2 * π * P.surfaceDensity * P.scaleRadius ^ 2 * P.sersicIndex * b ^ (-2 * P.sersicIndex) * gammainc (2 * P.sersicIndex) b := by
  set n := P.sersicIndex with hnd
  have himg : (fun t : ℝ => P.scaleRadius * (t / b) ^ n) '' Ioi b = Ioi P.scaleRadius := by
    ext R; constructor
    · rintro ⟨t, ht, rfl⟩
      have : 1 < t / b := (one_lt_div hb).mpr ht
      have := one_lt_rpow this hn
      rw [mem_Ioi]; nlinarith
    · intro hR
      have hR0 : P.scaleRadius < R := hR
      have h1 : 1 < R / P.scaleRadius := (one_lt_div hr).mpr hR0
      have h0 : 0 < R / P.scaleRadius := by linarith
      refine ⟨b * (R / P.scaleRadius) ^ (1 / n), ?_, ?_⟩
      · have := one_lt_rpow h1 (show 0 < 1 / n by positivity)
        rw [mem_Ioi]; nlinarith
      · simp only
        have : b * (R / P.scaleRadius) ^ (1 / n) / b = (R / P.scaleRadius) ^ (1 / n) := by field_simp
        rw [this, ← rpow_mul h0.le, one_div_mul_cancel hn.ne', rpow_one]; field_simp
  have hder : ∀ t ∈ Ioi b, HasDerivWithinAt (fun t : ℝ => P.scaleRadius * (t / b) ^ n) (P.scaleRadius * (1 / b * n * (t / b) ^ (n - 1))) (Ioi b) t := by
    intro t ht
    have h0 : t / b ≠ 0 := (div_pos (hb.trans ht) hb).ne'
    exact ((((hasDerivAt_id t).div_const b).rpow_const (Or.inl h0)).const_mul P.scaleRadius).hasDerivWithinAt
  have hinj : InjOn (fun t : ℝ => P.scaleRadius * (t / b) ^ n) (Ioi b) := by
    intro x hx y hy hxy
    have h1 : 0 < x / b := div_pos (hb.trans hx) hb
    have h2 : 0 < y / b := div_pos (hb.trans hy) hb
    have h3 := mul_left_cancel₀ hr.ne' hxy
    have := (rpow_left_inj h1.le h2.le hn.ne').mp h3
    field_simp at this; exact this
  rw [← himg, integral_image_eq_integral_abs_deriv_smul measurableSet_Ioi hder hinj, gammainc, ← integral_const_mul]
  refine setIntegral_congr_fun measurableSet_Ioi fun t ht => ?_
  have ht0 : 0 < t := hb.trans ht
  have h1 : 0 < t / b := div_pos ht0 hb
  simp only [smul_eq_mul, sersicSigma]
  rw [abs_of_pos (by have := rpow_pos_of_pos h1 (n - 1); positivity)]
  have e1 : P.scaleRadius * (t / b) ^ n / P.scaleRadius = (t / b) ^ n := by field_simp
  have e2 : ((t / b) ^ n) ^ (1 / n) = t / b := by rw [← rpow_mul h1.le, mul_one_div_cancel hn.ne', rpow_one]
  rw [e1, ← hnd, e2]
  have e3 : -b * (t / b) = -t := by field_simp
  have e4 : (t / b) ^ (n - 1) * (t / b) ^ n = b * b ^ (-2 * n) * t ^ (2 * n - 1) := by
    rw [← rpow_add h1, div_rpow ht0.le hb.le, show n - 1 + n = 2 * n - 1 by ring, div_eq_mul_inv, ← rpow_neg hb.le]
    rw [show -(2 * n - 1) = 1 + -2 * n by ring, rpow_add hb, rpow_one]; ring
  rw [e3]
  have : P.scaleRadius * (1 / b * n * (t / b) ^ (n - 1)) * (2 * π * (P.scaleRadius * (t / b) ^ n) * (P.surfaceDensity * exp (-t))) =
      2 * π * P.surfaceDensity * P.scaleRadius ^ 2 * n * (1 / b) * ((t / b) ^ (n - 1) * (t / b) ^ n) * exp (-t) := by ring
  rw [this, e4]; field_simp

/-- C110: if `b` is a root found by `b()`, then the scale radius encloses half of the projected mass -/
theorem C110_sersic_half (P : SersicParam) (b : ℝ) (hb : 0 < b) (hn : 0 < P.sersicIndex) (hr : 0 < P.scaleRadius)
    (hroot : sersicBRootFinder P.sersicIndex b = 0) :
    IntegrableOn (fun R => 2 * π * R * sersicSigma P b R) (Ioi 0) ∧
    ∫ R in Ioc 0 P.scaleRadius, 2 * π * R * sersicSigma P b R = 1 / 2 * ∫ R in Ioi (0 : ℝ), 2 * π * R * sersicSigma P b R := by
  have hint : IntegrableOn (fun R => 2 * π * R * sersicSigma P b R) (Ioi 0) := by
    rw [(scale_Ioi _ hr).1]
    have hi := rpow_exp_integrable (a := 1) (s := b ^ P.sersicIndex) (c := 1) (ξ := 1 / P.sersicIndex) (by norm_num) (rpow_pos_of_pos hb _) one_pos (by positivity)
    refine IntegrableOn.congr_fun (hi.const_mul (2 * π * P.scaleRadius * P.surfaceDensity)) (fun x hx => ?_) measurableSet_Ioi
    have hx0 : (0:ℝ) < x := hx
    have e1 : P.scaleRadius * x / P.scaleRadius = x := by field_simp
    have e2 : (x * b ^ P.sersicIndex / 1) ^ (1 / P.sersicIndex) = b * x ^ (1 / P.sersicIndex) := by
      rw [div_one, mul_rpow hx0.le (by positivity), ← rpow_mul hb.le, mul_one_div_cancel hn.ne', rpow_one]; ring
    simp only [sersicSigma]
    rw [e1, e2, rpow_one]; ring_nf
  refine ⟨hint, ?_⟩
  have hsplit : ∫ R in Ioi (0 : ℝ), 2 * π * R * sersicSigma P b R =
      (∫ R in Ioc 0 P.scaleRadius, 2 * π * R * sersicSigma P b R) + ∫ R in Ioi P.scaleRadius, 2 * π * R * sersicSigma P b R := by
    rw [← Ioc_union_Ioi_eq_Ioi hr.le, setIntegral_union (Ioc_disjoint_Ioi le_rfl) measurableSet_Ioi
      (hint.mono_set Ioc_subset_Ioi_self) (hint.mono_set (Ioi_subset_Ioi hr.le))]
  have htot := C110_sersic_mass { P with axisRatioY := 1, axisRatioZ := 1 } b hb hn hr
  have hout := sersic_outer P hb hn hr
  have hs : ∀ R, sersicSigma { P with axisRatioY := 1, axisRatioZ := 1 } b R = sersicSigma P b R := fun R => rfl
  simp only [SersicParam.mass, hs, mul_one, one_mul] at htot
  rw [sersicBRootFinder] at hroot
  have hg : gammainc (2 * P.sersicIndex) b = Gamma (2 * P.sersicIndex) / 2 := by linarith
  rw [hg] at hout
  have hhalf : ∫ R in Ioi P.scaleRadius, 2 * π * R * sersicSigma P b R = 1 / 2 * ∫ R in Ioi (0 : ℝ), 2 * π * R * sersicSigma P b R := by
    rw [hout, ← htot]; ring
  linarith

/-- C110: the coefficient `b` is well defined: the equation solved by `b()` has exactly one positive root -/
theorem C110_sersic_unique (n : ℝ) (hn : 0 < n) : ∃! b : ℝ, 0 < b ∧ sersicBRootFinder n b = 0 := by
  have hi : IntegrableOn (fun t : ℝ => exp (-t) * t ^ (2 * n - 1)) (Ioi 0) := GammaIntegral_convergent (by positivity)
  have hgi : ∀ b, 0 ≤ b → gammainc (2 * n) b = Gamma (2 * n) - ∫ t in Ioc 0 b, exp (-t) * t ^ (2 * n - 1) := by
    intro b hb
    rw [Gamma_eq_integral (by positivity), gammainc, ← Ioc_union_Ioi_eq_Ioi hb, setIntegral_union (Ioc_disjoint_Ioi le_rfl) measurableSet_Ioi
      (hi.mono_set Ioc_subset_Ioi_self) (hi.mono_set (Ioi_subset_Ioi hb))]
    ring
  have hii : ∀ b, 0 ≤ b → IntervalIntegrable (fun t : ℝ => exp (-t) * t ^ (2 * n - 1)) volume 0 b := fun b hb =>
    (intervalIntegrable_iff_integrableOn_Ioc_of_le hb).mpr (hi.mono_set Ioc_subset_Ioi_self)
  have hF : ∀ b, 0 ≤ b → sersicBRootFinder n b = 2 * (∫ t in (0:ℝ)..b, exp (-t) * t ^ (2 * n - 1)) - Gamma (2 * n) := by
    intro b hb
    rw [sersicBRootFinder, hgi b hb, intervalIntegral.integral_of_le hb]; ring
  have hmono : ∀ a b, 0 ≤ a → a < b → sersicBRootFinder n a < sersicBRootFinder n b := by
    intro a b ha hab
    rw [hF a ha, hF b (ha.trans hab.le)]
    have h1 := intervalIntegral.integral_add_adjacent_intervals (hii a ha) ((hii a ha).symm.trans (hii b (ha.trans hab.le)))
    have h2 : 0 < ∫ t in a..b, exp (-t) * t ^ (2 * n - 1) :=
      intervalIntegral.intervalIntegral_pos_of_pos_on ((hii a ha).symm.trans (hii b (ha.trans hab.le)))
        (fun t ht => mul_pos (exp_pos _) (rpow_pos_of_pos (ha.trans_lt ht.1) _)) hab
    linarith
  have hG : 0 < Gamma (2 * n) := Gamma_pos_of_pos (by positivity)
  have hcont : ContinuousOn (sersicBRootFinder n) (Ici 0) := by
    have : ContinuousOn (fun b => 2 * (∫ t in (0:ℝ)..b, exp (-t) * t ^ (2 * n - 1)) - Gamma (2 * n)) (Ici 0) := by
      refine ContinuousOn.sub (ContinuousOn.const_mul ?_ _) continuousOn_const
      intro b hb
      have := intervalIntegral.continuousOn_primitive_interval (f := fun t : ℝ => exp (-t) * t ^ (2 * n - 1)) (a := 0) (b := b + 1) (μ := volume)
        (by rw [uIcc_of_le (by have : (0:ℝ) ≤ b := hb; linarith)]; exact (integrableOn_Icc_iff_integrableOn_Ioc).mpr (hi.mono_set Ioc_subset_Ioi_self))
      rw [uIcc_of_le (by have : (0:ℝ) ≤ b := hb; linarith)] at this
      refine (this b ⟨hb, by linarith⟩).mono_of_mem_nhdsWithin ?_
      rw [← Ici_inter_Iic]
      exact inter_mem self_mem_nhdsWithin (mem_nhdsWithin_of_mem_nhds (Iic_mem_nhds (by linarith)))
    exact this.congr fun b hb => hF b hb
  have hlim : Tendsto (fun b => ∫ t in (0:ℝ)..b, exp (-t) * t ^ (2 * n - 1)) atTop (𝓝 (Gamma (2 * n))) := by
    rw [Gamma_eq_integral (by positivity)]
    exact intervalIntegral_tendsto_integral_Ioi 0 hi tendsto_id
  obtain ⟨B, hB0, hB⟩ : ∃ B : ℝ, 0 < B ∧ 0 < sersicBRootFinder n B := by
    have h1 := (hlim.eventually (lt_mem_nhds (show Gamma (2 * n) / 2 < Gamma (2 * n) by linarith))).and (eventually_gt_atTop 0)
    obtain ⟨B, hB1, hB2⟩ := h1.exists
    exact ⟨B, hB2, by rw [hF B hB2.le]; linarith⟩
  have h0 : sersicBRootFinder n 0 < 0 := by rw [hF 0 le_rfl]; simp [hG]
  obtain ⟨b, hb, hb0⟩ := intermediate_value_Icc hB0.le (hcont.mono Icc_subset_Ici_self) (show (0:ℝ) ∈ Icc _ _ from ⟨h0.le, hB.le⟩)
  have hbpos : 0 < b := lt_of_le_of_ne hb.1 (by rintro rfl; rw [hb0] at h0; exact lt_irrefl _ h0)
  refine ⟨b, ⟨hbpos, hb0⟩, fun c ⟨hc, hc0⟩ => ?_⟩
  rcases lt_trichotomy c b with h | h | h
  · have := hmono c b hc.le h; rw [hb0, hc0] at this; exact absurd this (lt_irrefl _)
  · exact h
  · have := hmono b c hbpos.le h; rw [hb0, hc0] at this; exact absurd this (lt_irrefl _)

/-- the substitution in SersicIntegrand: `R = r cosh x` -/
theorem cosh_subst (g : ℝ → ℝ) {r : ℝ} (hr : 0 < r) : ∫ R in Ioi r, g R / √(R ^ 2 - r ^ 2) = ∫ x in Ioi (0 : ℝ), g (r * cosh x) := by
  have himg : (fun x : ℝ => r * cosh x) '' Ioi 0 = Ioi r := by
    ext R; constructor
    · rintro ⟨x, hx, rfl⟩
      have : 1 < cosh x := Real.one_lt_cosh.mpr (ne_of_gt hx)
      rw [mem_Ioi]; nlinarith
    · intro hR
      have h1 : 1 < R / r := (one_lt_div hr).mpr hR
      refine ⟨arcosh (R / r), arcosh_pos h1, ?_⟩
      simp only
      rw [cosh_arcosh h1.le]; field_simp
  have hder : ∀ x ∈ Ioi (0 : ℝ), HasDerivWithinAt (fun x : ℝ => r * cosh x) (r * sinh x) (Ioi 0) x :=
    fun x _ => ((Real.hasDerivAt_cosh x).const_mul r).hasDerivWithinAt
  have hinj : InjOn (fun x : ℝ => r * cosh x) (Ioi 0) := by
    intro x hx y hy hxy
    have h3 := mul_left_cancel₀ hr.ne' hxy
    exact cosh_strictMonoOn.injOn (Ioi_subset_Ici_self hx) (Ioi_subset_Ici_self hy) h3
  rw [← himg, integral_image_eq_integral_abs_deriv_smul measurableSet_Ioi hder hinj]
  refine setIntegral_congr_fun measurableSet_Ioi fun x hx => ?_
  have hs : 0 < sinh x := sinh_pos_iff.mpr hx
  simp only [smul_eq_mul]
  rw [abs_of_pos (by positivity)]
  have e : (r * cosh x) ^ 2 - r ^ 2 = (r * sinh x) ^ 2 := by rw [mul_pow, mul_pow, cosh_sq]; ring
  rw [e, sqrt_sq (by positivity)]
  field_simp

theorem sersicSigma_deriv (P : SersicParam) (b : ℝ) (hn : 0 < P.sersicIndex) (hr : 0 < P.scaleRadius) {X : ℝ} (hX : 0 < X) :
    HasDerivAt (sersicSigma P b) (-(P.surfaceDensity * b / (P.sersicIndex * P.scaleRadius) * (X ^ (1 / P.sersicIndex) / X) * exp (-b * X ^ (1 / P.sersicIndex))))
      (P.scaleRadius * X) := by
  have e : P.scaleRadius * X / P.scaleRadius = X := by field_simp
  have dX : HasDerivAt (fun R : ℝ => R / P.scaleRadius) (1 / P.scaleRadius) (P.scaleRadius * X) := (hasDerivAt_id _).div_const _
  have d1 := dX.rpow_const (p := 1 / P.sersicIndex) (Or.inl (by rw [e]; exact hX.ne'))
  rw [e, rpow_sub_one hX.ne'] at d1
  have d2 := ((d1.const_mul (-b)).exp).const_mul P.surfaceDensity
  rw [e] at d2
  refine d2.congr_deriv ?_
  field_simp

theorem sersic_integrable {k n : ℝ} (hk : 0 < k) (hn : 0 < n) :
    IntegrableOn (fun x => cosh x ^ (1 / n) / cosh x * exp (-k * cosh x ^ (1 / n))) (Ioi 0) := by
  have hi : IntegrableOn (fun x : ℝ => exp (-(2 / n) * x)) (Ioi 0) := exp_neg_integrableOn_Ioi 0 (by positivity)
  refine (hi.const_mul (6 / k ^ 3 * 2 ^ (2 / n))).mono' (by fun_prop) ?_
  refine (ae_restrict_iff' measurableSet_Ioi).mpr (Eventually.of_forall fun x hx => ?_)
  have hc := one_le_cosh x
  have hc0 := cosh_pos x
  set z := cosh x ^ (1 / n) with hz
  have hz0 : 0 < z := rpow_pos_of_pos hc0 _
  rw [norm_of_nonneg (by positivity)]
  have h1 : (k * z) ^ 3 / 6 ≤ exp (k * z) := by
    have := pow_div_factorial_le_exp (k * z) (by positivity) 3
    norm_num [Nat.factorial] at this; exact this
  have h2 : z * exp (-k * z) ≤ 6 / k ^ 3 * (z ^ 2)⁻¹ := by
    rw [neg_mul, exp_neg]
    have h3 : (exp (k * z))⁻¹ ≤ ((k * z) ^ 3 / 6)⁻¹ := inv_anti₀ (by positivity) h1
    calc z * (exp (k * z))⁻¹ ≤ z * ((k * z) ^ 3 / 6)⁻¹ := by gcongr
      _ = _ := by field_simp
  have h4 : (z ^ 2)⁻¹ ≤ 2 ^ (2 / n) * exp (-(2 / n) * x) := by
    have e1 : exp x / 2 ≤ cosh x := by rw [cosh_eq]; have := exp_pos (-x); linarith
    have e2 : z ^ 2 = cosh x ^ (2 / n) := by rw [hz, ← rpow_natCast, ← rpow_mul hc0.le]; congr 1; push_cast; ring
    have e3 : (exp x / 2) ^ (2 / n) ≤ cosh x ^ (2 / n) := rpow_le_rpow (by positivity) e1 (by positivity)
    have e4 : (exp x / 2) ^ (2 / n) = exp (2 / n * x) / 2 ^ (2 / n) := by
      rw [div_rpow (exp_pos _).le two_pos.le, ← exp_mul]; congr 2; ring
    rw [e2]
    calc (cosh x ^ (2 / n))⁻¹ ≤ ((exp x / 2) ^ (2 / n))⁻¹ := inv_anti₀ (by positivity) e3
      _ = _ := by rw [e4, neg_mul, exp_neg]; field_simp
  calc z / cosh x * exp (-k * z) ≤ z * exp (-k * z) := by
        gcongr; exact div_le_self hz0.le hc
    _ ≤ 6 / k ^ 3 * (z ^ 2)⁻¹ := h2
    _ ≤ 6 / k ^ 3 * (2 ^ (2 / n) * exp (-(2 / n) * x)) := by gcongr
    _ = _ := by ring

/-- C110: the density at the nodes of the Sersic spline approximates the deprojection of the documented surface density from below; the deprojection is the
integral of the same integrand, extended to infinity and without the limit on the argument of the exponent.
Missing: a bound on the part that is cut off. -/
theorem C110_sersic_deproject_partial (P : SersicParam) (b xmax y : ℝ) (hb : 0 < b) (hn : 0 < P.sersicIndex) (hr : 0 < P.scaleRadius)
    (hS : 0 ≤ P.surfaceDensity) (hx : 0 ≤ xmax) :
    abel (sersicSigma P b) (sersicGridR P y) = P.surfaceDensity * b / (π * P.sersicIndex * P.scaleRadius) * exp ((1 - P.sersicIndex) * y) *
      ∫ x in Ioi (0 : ℝ), cosh x ^ (1 / P.sersicIndex) / cosh x * exp (-(b * exp y) * cosh x ^ (1 / P.sersicIndex)) ∧
    0 ≤ sersicGridRho P b xmax y ∧ sersicGridRho P b xmax y ≤ abel (sersicSigma P b) (sersicGridR P y) := by
  set n := P.sersicIndex with hnd
  have hi := sersic_integrable (k := b * exp y) (by positivity) hn
  have habel : abel (sersicSigma P b) (sersicGridR P y) = P.surfaceDensity * b / (π * n * P.scaleRadius) * exp ((1 - n) * y) *
      ∫ x in Ioi (0 : ℝ), cosh x ^ (1 / n) / cosh x * exp (-(b * exp y) * cosh x ^ (1 / n)) := by
    have hR : 0 < sersicGridR P y := by rw [sersicGridR]; positivity
    rw [abel, cosh_subst _ hR]
    have key : ∀ x ∈ Ioi (0 : ℝ), deriv (sersicSigma P b) (sersicGridR P y * cosh x) =
        -(P.surfaceDensity * b / (n * P.scaleRadius) * exp ((1 - n) * y)) * (cosh x ^ (1 / n) / cosh x * exp (-(b * exp y) * cosh x ^ (1 / n))) := by
      intro x _
      have hc := cosh_pos x
      have hX : 0 < exp (n * y) * cosh x := by positivity
      have e1 : sersicGridR P y * cosh x = P.scaleRadius * (exp (n * y) * cosh x) := by rw [sersicGridR]; ring
      rw [e1, (sersicSigma_deriv P b hn hr hX).deriv, ← hnd, mul_rpow (exp_pos _).le hc.le, ← exp_mul]
      have e2 : n * y * (1 / n) = y := by field_simp
      have e3 : exp ((1 - n) * y) = exp y / exp (n * y) := by rw [← exp_sub]; congr 1; ring
      rw [e2, e3]
      have e4 : -b * (exp y * cosh x ^ (1 / n)) = -(b * exp y) * cosh x ^ (1 / n) := by ring
      rw [e4]; field_simp
    rw [setIntegral_congr_fun measurableSet_Ioi key, integral_const_mul, ← mul_assoc]
    congr 1
    field_simp
  have hpos : ∀ x, 0 ≤ cosh x ^ (1 / n) / cosh x * exp (-(b * exp y) * cosh x ^ (1 / n)) := fun x => by
    have hc := cosh_pos x
    positivity
  have hle : ∀ x, sersicIntegrand n (b * exp y) x ≤ cosh x ^ (1 / n) / cosh x * exp (-(b * exp y) * cosh x ^ (1 / n)) := fun x => by
    simp only [sersicIntegrand]
    split_ifs
    · exact hpos x
    · exact le_rfl
  have h0 : ∀ x, 0 ≤ sersicIntegrand n (b * exp y) x := fun x => by
    simp only [sersicIntegrand]
    split_ifs
    · exact le_rfl
    · exact hpos x
  have hcoef : 0 ≤ P.surfaceDensity * b / (π * n * P.scaleRadius) * exp ((1 - n) * y) := by positivity
  refine ⟨habel, ?_, ?_⟩
  · rw [sersicGridRho]
    exact mul_nonneg hcoef (intervalIntegral.integral_nonneg hx fun x _ => h0 x)
  · rw [habel, sersicGridRho]
    refine mul_le_mul_of_nonneg_left ?_ hcoef
    rw [← hnd, intervalIntegral.integral_of_le hx]
    have hmeas : Measurable (sersicIntegrand n (b * exp y)) := by
      unfold sersicIntegrand
      simp only
      exact Measurable.ite (measurableSet_lt measurable_const (by fun_prop)) measurable_const (by fun_prop)
    have hi1 : IntegrableOn (sersicIntegrand n (b * exp y)) (Ioi 0) :=
      hi.mono' hmeas.aestronglyMeasurable (Eventually.of_forall fun x => by rw [norm_of_nonneg (h0 x)]; exact hle x)
    calc ∫ x in Ioc 0 xmax, sersicIntegrand n (b * exp y) x ≤ ∫ x in Ioi (0 : ℝ), sersicIntegrand n (b * exp y) x :=
          setIntegral_mono_set hi1 (Eventually.of_forall h0) (Eventually.of_forall Ioc_subset_Ioi_self)
      _ ≤ _ := setIntegral_mono_on hi1 hi measurableSet_Ioi fun x _ => hle x

/-! ## the hypotheses can be met -/

example : (⟨1, 2, none, 2, 2, 3, 1, 1, 1 / 2⟩ : NukerParam).Ok ∧ (⟨1, 2, some 10, 2, 2, 3, 1, 1, 1 / 2⟩ : NukerParam).Ok := by
  refine ⟨⟨?_, ?_, ?_, ?_, ?_, ?_, ?_, ?_⟩, ⟨?_, ?_, ?_, ?_, ?_, ?_, ?_, ?_⟩⟩ <;> norm_num
  intro rc h; simp at h

/-- a de Vaucouleurs profile: its coefficient exists -/
example : ∃ b : ℝ, 0 < b ∧ sersicBRootFinder 4 b = 0 := (C110_sersic_unique 4 (by norm_num)).exists

end Verif.Pot
