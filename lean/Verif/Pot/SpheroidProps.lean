import Verif.Pot.SpheroidInt
import Mathlib.Analysis.SpecialFunctions.Integrability.Basic

/-! # C109: double-power-law spheroids -/

namespace Verif.Pot

open Real Verif.Coord MeasureTheory Set Filter Topology

/-- C109: the three coordinate systems give the same value at the same point, for every profile and every axis ratio -/
theorem C109_coords (f : ℝ → ℝ) (p q : ℝ) (c : PosCyl) (s : PosSph) (hs : 0 ≤ s.r) :
    let D := SpheroidDensity.make f p q
    D.densityCyl c = D.densityCar (cylToCar c) ∧ D.densitySph s = D.densityCar (sphToCar s) ∧
    ∀ x y z, D.densityCar ⟨x, y, z⟩ = f (√(x ^ 2 + (y / p) ^ 2 + (z / q) ^ 2)) := by
  intro D
  refine ⟨?_, ?_, fun x y z => ?_⟩
  · simp only [SpheroidDensity.densityCyl, SpheroidDensity.densityCar, cylToCar]
    congr 2
    have hsc := sin_sq_add_cos_sq c.phi
    split_ifs with h
    · rw [h]; linear_combination -c.R ^ 2 * hsc
    · linear_combination -c.R ^ 2 * hsc
  · simp only [SpheroidDensity.densitySph]
    split_ifs with h
    · simp only [SpheroidDensity.densityCar, h.1, h.2, div_one, sphToCar]
      congr 1
      have h1 := sin_sq_add_cos_sq s.phi
      have h2 := sin_sq_add_cos_sq s.theta
      rw [eq_comm, sqrt_eq_iff_mul_self_eq (by positivity) hs]
      linear_combination (s.r ^ 2 * sin s.theta ^ 2) * h1 + s.r ^ 2 * h2
    · rfl
  · simp only [SpheroidDensity.densityCar, D, SpheroidDensity.make, div_pow]

/-- C109: the symmetry announced by the density is one it has -/
theorem C109_symmetry (f : ℝ → ℝ) (p q : ℝ) :
    SymOk (SpheroidDensity.make f p q).symmetry (SpheroidDensity.make f p q).densityCar :=
  (C68_analytic 0 0 (p ^ 2) (q ^ 2) 0 0 f).2.2

/-- the conditions on the parameters, in words of the documentation -/
structure SpheroidParam.Ok (P : SpheroidParam) : Prop where
  radius : 0 < P.scaleRadius
  axisY : 0 < P.axisRatioY
  axisZ : 0 < P.axisRatioZ
  cutoff : ∀ rcut, P.outerCutoffRadius = some rcut → 0 < rcut ∧ 0 < P.cutoffStrength
  alpha : 0 < P.alpha
  beta : P.outerCutoffRadius = none → 2 < P.beta
  gamma : P.gamma < 3
  order : P.gamma ≤ P.beta

/-- C109: exactly the admissible parameters are accepted, and then the density is the documented one -/
theorem C109_accepts (P : SpheroidParam) :
    ((∃ f, createSpheroidDensity P = some f) ↔ P.Ok) ∧ ∀ f, createSpheroidDensity P = some f → ∀ r, f r = spheroidRho P r := by
  constructor
  · unfold createSpheroidDensity
    constructor
    · rintro ⟨f, hf⟩
      split_ifs at hf with h1 h2 h3 h4 h5 h6 h7 h8
      push Not at h3 h8
      refine ⟨h1, h2.1, h2.2, fun rcut hr => ⟨h3 rcut hr, ?_⟩, h4, fun hn => ?_, h6, h7⟩
      · by_contra hc
        rw [h8 (not_lt.mp hc)] at hr; simp at hr
      · exact h5.resolve_right (by simp [hn])
    · intro h
      rw [if_neg (not_not.mpr h.radius), if_neg (not_not.mpr ⟨h.axisY, h.axisZ⟩), if_neg, if_neg (not_not.mpr h.alpha), if_neg,
        if_neg (not_not.mpr h.gamma), if_neg (not_not.mpr h.order), if_neg]
      · exact ⟨_, rfl⟩
      · rintro ⟨h1, h2⟩
        obtain ⟨rc, hrc⟩ := Option.ne_none_iff_exists'.mp h2
        exact h1 (h.cutoff rc hrc).2
      · push Not
        by_cases hn : P.outerCutoffRadius = none
        · exact Or.inl (h.beta hn)
        · exact Or.inr hn
      · rintro ⟨rc, hrc, hneg⟩
        exact hneg (h.cutoff rc hrc).1
  · intro f hf r
    unfold createSpheroidDensity at hf
    split_ifs at hf
    rw [← Option.some.inj hf]
    simp only [spheroidDensityFnc, spheroidRho]
    cases P.outerCutoffRadius <;> simp

/-! ## total mass -/

/-- the factor of the exponential cutoff, in units of the scale radius -/
private noncomputable def cutFac (P : SpheroidParam) (x : ℝ) : ℝ :=
  match P.outerCutoffRadius with
  | none => 1
  | some rcut => exp (-(x * P.scaleRadius / rcut) ^ P.cutoffStrength)

/-- dimensionless integrand -/
private noncomputable def zhaoI (P : SpheroidParam) (x : ℝ) : ℝ :=
  x ^ (3 - 1 - P.gamma) * (1 + x ^ P.alpha) ^ ((P.gamma - P.beta) / P.alpha) * cutFac P x

private theorem rho_scaled (P : SpheroidParam) (h0 : 0 < P.scaleRadius) {x : ℝ} (hx : 0 < x) :
    (P.scaleRadius * x) ^ 2 * spheroidRho P (P.scaleRadius * x) = P.densityNorm * P.scaleRadius ^ 2 * zhaoI P x := by
  have e : P.scaleRadius * x / P.scaleRadius = x := by field_simp
  have e2 : x ^ (3 - 1 - P.gamma) = x ^ 2 * x ^ (-P.gamma) := by
    rw [← rpow_natCast x 2, ← rpow_add hx]; congr 1; push_cast; ring
  simp only [spheroidRho, zhaoI, cutFac]
  rw [e, e2]
  cases P.outerCutoffRadius
  · simp only; ring
  · simp only; rw [mul_comm x P.scaleRadius]; ring

private theorem rho_radial (P : SpheroidParam) (h0 : 0 < P.scaleRadius) :
    (P.densityNorm ≠ 0 → (IntegrableOn (fun r => r ^ 2 * spheroidRho P r) (Ioi 0) ↔ IntegrableOn (zhaoI P) (Ioi 0))) ∧
    (IntegrableOn (zhaoI P) (Ioi 0) → IntegrableOn (fun r => r ^ 2 * spheroidRho P r) (Ioi 0)) ∧
    ∫ r in Ioi (0 : ℝ), r ^ 2 * spheroidRho P r = P.densityNorm * P.scaleRadius ^ 3 * ∫ x in Ioi (0 : ℝ), zhaoI P x := by
  obtain ⟨h1, h2⟩ := scale_Ioi (fun r => r ^ 2 * spheroidRho P r) h0
  have e : IntegrableOn (fun x => (P.scaleRadius * x) ^ 2 * spheroidRho P (P.scaleRadius * x)) (Ioi 0) ↔
      IntegrableOn (fun x => P.densityNorm * P.scaleRadius ^ 2 * zhaoI P x) (Ioi 0) :=
    integrableOn_congr_fun (fun x hx => rho_scaled P h0 hx) measurableSet_Ioi
  refine ⟨fun hn => ?_, fun hi => ?_, ?_⟩
  · rw [h1, e]
    exact integrable_const_mul_iff (IsUnit.mk0 _ (by positivity)) _
  · rw [h1, e]; exact hi.const_mul _
  · rw [h2, setIntegral_congr_fun measurableSet_Ioi fun x hx => rho_scaled P h0 hx, integral_const_mul]; ring

private theorem zhaoI_none {P : SpheroidParam} (hn : P.outerCutoffRadius = none) :
    zhaoI P = fun x => x ^ (3 - 1 - P.gamma) * (1 + x ^ P.alpha) ^ ((P.gamma - P.beta) / P.alpha) := by
  funext x; simp [zhaoI, cutFac, hn]

private theorem zhaoI_some {P : SpheroidParam} {rc : ℝ} (hn : P.outerCutoffRadius = some rc) :
    zhaoI P = fun x => x ^ (3 - 1 - P.gamma) * (1 + x ^ P.alpha) ^ ((P.gamma - P.beta) / P.alpha) * exp (-(x * P.scaleRadius / rc) ^ P.cutoffStrength) := by
  funext x; simp [zhaoI, cutFac, hn]

private theorem zhaoI_meas (P : SpheroidParam) : Measurable (zhaoI P) := by
  cases hn : P.outerCutoffRadius with
  | none => rw [zhaoI_none hn]; fun_prop
  | some rc => rw [zhaoI_some hn]; fun_prop

/-- stretched exponentials times powers are integrable -/
theorem rpow_exp_integrable {a s c ξ : ℝ} (ha : -1 < a) (hs : 0 < s) (hc : 0 < c) (hξ : 0 < ξ) :
    IntegrableOn (fun x : ℝ => x ^ a * exp (-(x * s / c) ^ ξ)) (Ioi 0) := by
  have hb : 0 < (s / c) ^ ξ := rpow_pos_of_pos (by positivity) _
  have hv := integral_rpow_mul_exp_neg_mul_rpow hξ ha hb
  have hi : IntegrableOn (fun x : ℝ => x ^ a * exp (-((s / c) ^ ξ) * x ^ ξ)) (Ioi 0) := by
    by_contra hni
    have h0 := integral_undef hni
    rw [hv] at h0
    have h1 : 0 < Gamma ((a + 1) / ξ) := Gamma_pos_of_pos (div_pos (by linarith) hξ)
    have h2 : 0 < ((s / c) ^ ξ) ^ (-(a + 1) / ξ) := rpow_pos_of_pos hb _
    have : 0 < ((s / c) ^ ξ) ^ (-(a + 1) / ξ) * (1 / ξ) * Gamma ((a + 1) / ξ) := by positivity
    exact this.ne' h0
  refine hi.congr_fun (fun x hx => ?_) measurableSet_Ioi
  have hx0 : (0:ℝ) < x := hx
  simp only
  rw [mul_div_assoc, mul_rpow hx0.le (by positivity)]
  congr 2; ring

private theorem zhaoI_integrable_cut {P : SpheroidParam} (h : P.Ok) {rc : ℝ} (hn : P.outerCutoffRadius = some rc) : IntegrableOn (zhaoI P) (Ioi 0) := by
  have hc := h.cutoff rc hn
  have hg := h.gamma
  refine (rpow_exp_integrable (a := 3 - 1 - P.gamma) (by linarith) h.radius hc.1 hc.2).mono' (zhaoI_meas P).aestronglyMeasurable ?_
  refine (ae_restrict_iff' measurableSet_Ioi).mpr (Eventually.of_forall fun x hx => ?_)
  have hx0 : (0:ℝ) < x := hx
  rw [zhaoI_some hn]
  have h1 : 0 < x ^ P.alpha := rpow_pos_of_pos hx0 _
  have h2 : (1 + x ^ P.alpha) ^ ((P.gamma - P.beta) / P.alpha) ≤ 1 :=
    rpow_le_one_of_one_le_of_nonpos (by linarith) (div_nonpos_of_nonpos_of_nonneg (by linarith [h.order]) h.alpha.le)
  have h3 : 0 < (1 + x ^ P.alpha) ^ ((P.gamma - P.beta) / P.alpha) := rpow_pos_of_pos (by linarith) _
  have h4 : 0 < x ^ (3 - 1 - P.gamma) := rpow_pos_of_pos hx0 _
  rw [norm_of_nonneg (by positivity)]
  calc _ ≤ x ^ (3 - 1 - P.gamma) * 1 * exp (-(x * P.scaleRadius / rc) ^ P.cutoffStrength) :=
        mul_le_mul_of_nonneg_right (mul_le_mul_of_nonneg_left h2 h4.le) (exp_pos _).le
    _ = _ := by rw [mul_one]

/-- C109: for every accepted set of parameters with a finite mass, `mass()` is the integral of the density over the whole space, which converges -/
theorem C109_mass (P : SpheroidParam) (f : ℝ → ℝ) (hf : createSpheroidDensity P = some f) (hm : 3 < P.beta ∨ P.outerCutoffRadius ≠ none) :
    ∃ m, P.mass = .val m ∧
      Integrable (fun v : EuclideanSpace ℝ (Fin 3) => (SpheroidDensity.make f P.axisRatioY P.axisRatioZ).densityCar ⟨v 0, v 1, v 2⟩) ∧
      ∫ v : EuclideanSpace ℝ (Fin 3), (SpheroidDensity.make f P.axisRatioY P.axisRatioZ).densityCar ⟨v 0, v 1, v 2⟩ = m := by
  have ok : P.Ok := (C109_accepts P).1.mp ⟨f, hf⟩
  have ef : f = spheroidRho P := funext ((C109_accepts P).2 f hf)
  have e : (fun v : EuclideanSpace ℝ (Fin 3) => (SpheroidDensity.make f P.axisRatioY P.axisRatioZ).densityCar ⟨v 0, v 1, v 2⟩) =
      ellipsoidal (spheroidRho P) P.axisRatioY P.axisRatioZ := by
    funext v
    rw [(C109_coords f P.axisRatioY P.axisRatioZ ⟨0, 0, 0⟩ ⟨0, 0, 0⟩ le_rfl).2.2, ef]; rfl
  obtain ⟨i1, i2⟩ := ellipsoidal_integral (spheroidRho P) ok.axisY ok.axisZ
  obtain ⟨-, r1, r2⟩ := rho_radial P ok.radius
  rw [e]
  have hg := ok.gamma
  cases hn : P.outerCutoffRadius with
  | none =>
    have hb : 3 < P.beta := hm.resolve_right (by simp [hn])
    obtain ⟨z1, z2⟩ := zhao_integral (n := 3) ok.alpha ok.gamma hb
    rw [← zhaoI_none hn] at z1
    have hmass : P.mass = .val (4 * π * P.densityNorm * P.scaleRadius ^ 3 * P.axisRatioY * P.axisRatioZ *
        (Gamma ((P.beta - 3) / P.alpha) * Gamma ((3 - P.gamma) / P.alpha) / Gamma ((P.beta - P.gamma) / P.alpha) / P.alpha)) := by
      rw [SpheroidParam.mass, if_neg (by rintro ⟨h, -⟩; linarith), if_neg (by push Not; exact ⟨hg, ok.alpha⟩)]
      simp only [hn]
    refine ⟨_, hmass, i1.mpr (r1 z1), ?_⟩
    rw [i2, r2, zhaoI_none hn, z2]; ring
  | some rc =>
    have hmass : P.mass = .val (4 * π * P.densityNorm * P.scaleRadius ^ 3 * P.axisRatioY * P.axisRatioZ *
        ∫ x in (0 : ℝ)..1, spheroidMassIntegrand P rc x) := by
      rw [SpheroidParam.mass, if_neg (by rintro ⟨-, h⟩; simp [hn] at h), if_neg (by push Not; exact ⟨hg, ok.alpha⟩)]
      simp only [hn]
    refine ⟨_, hmass, i1.mpr (r1 (zhaoI_integrable_cut ok hn)), ?_⟩
    · rw [i2, r2, expSubst_integral]
      have : ∀ x : ℝ, spheroidMassIntegrand P rc x = if x = 0 ∨ x = 1 then 0 else
          exp (1 / (1 - x) - 1 / x) * (1 / (1 - x) ^ 2 + 1 / x ^ 2) * zhaoI P (exp (1 / (1 - x) - 1 / x)) := by
        intro x
        unfold spheroidMassIntegrand
        split_ifs with hx
        · rfl
        · rw [zhaoI_some hn]
          simp only
          generalize hE : exp (1 / (1 - x) - 1 / x) = E
          have hE0 : 0 < E := hE ▸ exp_pos _
          have e2 : E ^ (3 - 1 - P.gamma) = E ^ 2 * E ^ (-P.gamma) := by
            rw [← rpow_natCast E 2, ← rpow_add hE0]; congr 1; push_cast; ring
          rw [e2]; ring
      simp_rw [this]
      ring

/-- C109: without a cutoff and with an outer slope not steeper than 3, `mass()` is infinite, and indeed the density has no finite integral -/
theorem C109_infinite (P : SpheroidParam) (f : ℝ → ℝ) (hf : createSpheroidDensity P = some f) (hb : P.beta ≤ 3) (hn : P.outerCutoffRadius = none)
    (h0 : P.densityNorm ≠ 0) :
    P.mass = .inf ∧
    ¬Integrable (fun v : EuclideanSpace ℝ (Fin 3) => (SpheroidDensity.make f P.axisRatioY P.axisRatioZ).densityCar ⟨v 0, v 1, v 2⟩) := by
  have ok : P.Ok := (C109_accepts P).1.mp ⟨f, hf⟩
  have ef : f = spheroidRho P := funext ((C109_accepts P).2 f hf)
  refine ⟨by rw [SpheroidParam.mass, if_pos ⟨hb, hn⟩], ?_⟩
  have e : (fun v : EuclideanSpace ℝ (Fin 3) => (SpheroidDensity.make f P.axisRatioY P.axisRatioZ).densityCar ⟨v 0, v 1, v 2⟩) =
      ellipsoidal (spheroidRho P) P.axisRatioY P.axisRatioZ := by
    funext v
    rw [(C109_coords f P.axisRatioY P.axisRatioZ ⟨0, 0, 0⟩ ⟨0, 0, 0⟩ le_rfl).2.2, ef]; rfl
  rw [e, (ellipsoidal_integral _ ok.axisY ok.axisZ).1, (rho_radial P ok.radius).1 h0, zhaoI_none hn]
  intro hi
  have ha := ok.alpha
  have hk : (P.gamma - P.beta) / P.alpha ≤ 0 := div_nonpos_of_nonpos_of_nonneg (by linarith [ok.order]) ha.le
  have h2 : 0 < (2 : ℝ) ^ ((P.gamma - P.beta) / P.alpha) := rpow_pos_of_pos two_pos _
  have hi1 := (hi.mono_set (Ioi_subset_Ioi zero_le_one)).const_mul ((2 : ℝ) ^ ((P.gamma - P.beta) / P.alpha))⁻¹
  refine not_integrableOn_Ioi_inv (a := 1) (hi1.mono' (by fun_prop) ?_)
  refine (ae_restrict_iff' measurableSet_Ioi).mpr (Eventually.of_forall fun x hx => ?_)
  have hx1 : (1:ℝ) < x := hx
  have hx0 : (0:ℝ) < x := by linarith
  have hxa : 1 ≤ x ^ P.alpha := one_le_rpow hx1.le ha.le
  have c1 : (2 * x ^ P.alpha) ^ ((P.gamma - P.beta) / P.alpha) ≤ (1 + x ^ P.alpha) ^ ((P.gamma - P.beta) / P.alpha) :=
    rpow_le_rpow_of_nonpos (by linarith) (by linarith) hk
  have c2 : (2 * x ^ P.alpha) ^ ((P.gamma - P.beta) / P.alpha) = 2 ^ ((P.gamma - P.beta) / P.alpha) * x ^ (P.gamma - P.beta) := by
    rw [mul_rpow two_pos.le (by positivity), ← rpow_mul hx0.le]; congr 2; field_simp
  have c3 : x⁻¹ ≤ x ^ (3 - 1 - P.gamma) * x ^ (P.gamma - P.beta) := by
    rw [← rpow_neg_one, ← rpow_add hx0]
    exact rpow_le_rpow_of_exponent_le hx1.le (by linarith)
  have c4 : 0 < x ^ (3 - 1 - P.gamma) := rpow_pos_of_pos hx0 _
  rw [norm_of_nonneg (by positivity)]
  calc x⁻¹ ≤ x ^ (3 - 1 - P.gamma) * x ^ (P.gamma - P.beta) := c3
    _ = (2 ^ ((P.gamma - P.beta) / P.alpha))⁻¹ * (x ^ (3 - 1 - P.gamma) * (2 * x ^ P.alpha) ^ ((P.gamma - P.beta) / P.alpha)) := by
        rw [c2]; field_simp
    _ ≤ _ := by gcongr

/-- C109: central cusps with a slope of 3 or steeper are rejected, `mass()` does not return a number, and the documented density has no finite integral -/
theorem C109_cusp (P : SpheroidParam) (h0 : P.densityNorm ≠ 0) (hr : 0 < P.scaleRadius) (hp : 0 < P.axisRatioY) (hq : 0 < P.axisRatioZ) (ha : 0 < P.alpha)
    (hc : ∀ rcut, P.outerCutoffRadius = some rcut → 0 < rcut ∧ 0 < P.cutoffStrength) (hg : 3 ≤ P.gamma) :
    createSpheroidDensity P = none ∧ (∀ m, P.mass ≠ .val m) ∧ ¬Integrable (ellipsoidal (spheroidRho P) P.axisRatioY P.axisRatioZ) := by
  refine ⟨?_, fun m => ?_, ?_⟩
  · by_contra hne
    obtain ⟨f, hf⟩ := Option.ne_none_iff_exists'.mp hne
    exact absurd ((C109_accepts P).1.mp ⟨f, hf⟩).gamma (by linarith)
  · rw [SpheroidParam.mass]
    split_ifs with h1 h2
    · simp
    · simp
    · exact absurd (Or.inl hg) h2
  rw [(ellipsoidal_integral _ hp hq).1, (rho_radial P hr).1 h0]
  intro hi
  -- a positive lower bound of the remaining factors for 0 < x < 1
  obtain ⟨k, hk, hkb⟩ : ∃ k : ℝ, 0 < k ∧ ∀ x, 0 < x → x < 1 → k ≤ (1 + x ^ P.alpha) ^ ((P.gamma - P.beta) / P.alpha) * cutFac P x := by
    have e1 : ∀ x, 0 < x → x < 1 → min 1 ((2:ℝ) ^ ((P.gamma - P.beta) / P.alpha)) ≤ (1 + x ^ P.alpha) ^ ((P.gamma - P.beta) / P.alpha) := by
      intro x hx hx1
      have a1 : 0 < x ^ P.alpha := rpow_pos_of_pos hx _
      have a2 : x ^ P.alpha ≤ 1 := rpow_le_one hx.le hx1.le ha.le
      rcases le_total 0 ((P.gamma - P.beta) / P.alpha) with hh | hh
      · exact (min_le_left _ _).trans (one_le_rpow (by linarith) hh)
      · exact (min_le_right _ _).trans (rpow_le_rpow_of_nonpos (by linarith) (by linarith) hh)
    have e0 : 0 < min 1 ((2:ℝ) ^ ((P.gamma - P.beta) / P.alpha)) := lt_min one_pos (rpow_pos_of_pos two_pos _)
    cases hn : P.outerCutoffRadius with
    | none => exact ⟨_, e0, fun x hx hx1 => by simp only [cutFac, hn, mul_one]; exact e1 x hx hx1⟩
    | some rc =>
      obtain ⟨hrc, hs⟩ := hc rc hn
      refine ⟨min 1 ((2:ℝ) ^ ((P.gamma - P.beta) / P.alpha)) * exp (-(P.scaleRadius / rc) ^ P.cutoffStrength), by positivity, fun x hx hx1 => ?_⟩
      simp only [cutFac, hn]
      refine mul_le_mul (e1 x hx hx1) ?_ (exp_pos _).le (e0.le.trans (e1 x hx hx1))
      refine exp_le_exp.mpr (neg_le_neg (rpow_le_rpow (by positivity) ?_ hs.le))
      gcongr
      nlinarith
  have hi1 := (hi.mono_set (show Ioo (0:ℝ) 1 ⊆ Ioi 0 from fun x hx => hx.1)).const_mul k⁻¹
  have hni : ¬IntegrableOn (fun x : ℝ => x⁻¹) (Ioo 0 1) := by
    intro h
    have h2 : IntervalIntegrable (fun x : ℝ => x⁻¹) volume 0 1 :=
      (intervalIntegrable_iff_integrableOn_Ioo_of_le zero_le_one).mpr h
    rw [intervalIntegrable_inv_iff] at h2
    rcases h2 with h2 | h2
    · exact zero_ne_one h2
    · exact h2 (by simp)
  refine hni (hi1.mono' (by fun_prop) ?_)
  refine (ae_restrict_iff' measurableSet_Ioo).mpr (Eventually.of_forall fun x hx => ?_)
  have hx0 : (0:ℝ) < x := hx.1
  have c3 : x⁻¹ ≤ x ^ (3 - 1 - P.gamma) := by
    rw [← rpow_neg_one]
    exact rpow_le_rpow_of_exponent_ge hx0 hx.2.le (by linarith)
  rw [norm_of_nonneg (by positivity)]
  calc x⁻¹ = k⁻¹ * (x⁻¹ * k) := by field_simp
    _ ≤ k⁻¹ * (x ^ (3 - 1 - P.gamma) * ((1 + x ^ P.alpha) ^ ((P.gamma - P.beta) / P.alpha) * cutFac P x)) := by
        gcongr; exact hkb x hx0 hx.2
    _ = _ := by rw [zhaoI, mul_assoc (x ^ _)]

/-! ## shape of the profile -/

/-- C109: the density is positive, and a profile with a non-negative inner slope decreases outwards -/
theorem C109_monotone (P : SpheroidParam) (f : ℝ → ℝ) (hf : createSpheroidDensity P = some f) (h0 : 0 < P.densityNorm) :
    (∀ r, 0 < r → 0 < f r) ∧ (0 ≤ P.gamma → AntitoneOn f (Ioi 0)) := by
  have ok : P.Ok := (C109_accepts P).1.mp ⟨f, hf⟩
  have ef : f = spheroidRho P := funext ((C109_accepts P).2 f hf)
  have hr := ok.radius
  have hpos : ∀ r, 0 < r → 0 < 1 + (r / P.scaleRadius) ^ P.alpha := fun r hr' => by
    have := rpow_pos_of_pos (div_pos hr' hr) P.alpha; linarith
  have hk : (P.gamma - P.beta) / P.alpha ≤ 0 := div_nonpos_of_nonpos_of_nonneg (by linarith [ok.order]) ok.alpha.le
  have hcutpos : ∀ r, 0 < r → 0 < (match P.outerCutoffRadius with | none => (1:ℝ) | some rcut => exp (-(r / rcut) ^ P.cutoffStrength)) := by
    intro r _; cases P.outerCutoffRadius <;> simp [exp_pos]
  subst ef
  have hp : ∀ r, 0 < r → 0 < spheroidRho P r := by
    intro r hr'
    rw [spheroidRho]
    have h1 := rpow_pos_of_pos (div_pos hr' hr) (-P.gamma)
    have h2 := rpow_pos_of_pos (hpos r hr') ((P.gamma - P.beta) / P.alpha)
    exact mul_pos (by positivity) (hcutpos r hr')
  refine ⟨hp, fun hg a ha b hb hab => ?_⟩
  have ha0 : (0:ℝ) < a := ha
  have hb0 : (0:ℝ) < b := hb
  have hd : a / P.scaleRadius ≤ b / P.scaleRadius := by gcongr
  have q1 : (b / P.scaleRadius) ^ (-P.gamma) ≤ (a / P.scaleRadius) ^ (-P.gamma) := rpow_le_rpow_of_nonpos (by positivity) hd (by linarith)
  have q2 : (1 + (b / P.scaleRadius) ^ P.alpha) ^ ((P.gamma - P.beta) / P.alpha) ≤ (1 + (a / P.scaleRadius) ^ P.alpha) ^ ((P.gamma - P.beta) / P.alpha) :=
    rpow_le_rpow_of_nonpos (hpos a ha0) (by have := rpow_le_rpow (by positivity) hd ok.alpha.le; linarith) hk
  have q3 : (match P.outerCutoffRadius with | none => (1:ℝ) | some rcut => exp (-(b / rcut) ^ P.cutoffStrength)) ≤
      (match P.outerCutoffRadius with | none => (1:ℝ) | some rcut => exp (-(a / rcut) ^ P.cutoffStrength)) := by
    cases hn : P.outerCutoffRadius with
    | none => exact le_rfl
    | some rc =>
      obtain ⟨hrc, hs⟩ := ok.cutoff rc hn
      simp only
      refine exp_le_exp.mpr (neg_le_neg (rpow_le_rpow (by positivity) (by gcongr) hs.le))
  have w1 := rpow_pos_of_pos (div_pos ha0 hr) (-P.gamma)
  have w1' := rpow_pos_of_pos (div_pos hb0 hr) (-P.gamma)
  have w2 := rpow_pos_of_pos (hpos a ha0) ((P.gamma - P.beta) / P.alpha)
  have w2' := rpow_pos_of_pos (hpos b hb0) ((P.gamma - P.beta) / P.alpha)
  rw [spheroidRho, spheroidRho]
  refine mul_le_mul ?_ q3 (hcutpos b hb0).le (by positivity)
  refine mul_le_mul ?_ q2 w2'.le (by positivity)
  exact mul_le_mul_of_nonneg_left q1 h0.le

/-- C109: `gamma` is the slope of the density at small radii, and without a cutoff `beta` is the slope at large radii -/
theorem C109_slopes (P : SpheroidParam) (f : ℝ → ℝ) (hf : createSpheroidDensity P = some f) :
    Tendsto (fun r => f r * (r / P.scaleRadius) ^ P.gamma) (𝓝[>] 0) (𝓝 P.densityNorm) ∧
    (P.outerCutoffRadius = none → Tendsto (fun r => f r * (r / P.scaleRadius) ^ P.beta) atTop (𝓝 P.densityNorm)) := by
  have ok : P.Ok := (C109_accepts P).1.mp ⟨f, hf⟩
  have ef : f = spheroidRho P := funext ((C109_accepts P).2 f hf)
  subst ef
  have hr := ok.radius
  have ha := ok.alpha
  constructor
  · have hx : Tendsto (fun r : ℝ => r / P.scaleRadius) (𝓝[>] 0) (𝓝 0) := by
      have : Tendsto (fun r : ℝ => r / P.scaleRadius) (𝓝 0) (𝓝 (0 / P.scaleRadius)) := (continuous_id.div_const _).tendsto 0
      rw [zero_div] at this; exact this.mono_left nhdsWithin_le_nhds
    have hxa : Tendsto (fun r : ℝ => (1 + (r / P.scaleRadius) ^ P.alpha) ^ ((P.gamma - P.beta) / P.alpha)) (𝓝[>] 0) (𝓝 1) := by
      have h1 : Tendsto (fun r : ℝ => 1 + (r / P.scaleRadius) ^ P.alpha) (𝓝[>] 0) (𝓝 (1 + 0 ^ P.alpha)) :=
        (hx.rpow_const (Or.inr ha.le)).const_add 1
      rw [zero_rpow ha.ne', add_zero] at h1
      have := h1.rpow_const (p := (P.gamma - P.beta) / P.alpha) (Or.inl one_ne_zero)
      rwa [one_rpow] at this
    have hcut : Tendsto (fun r : ℝ => (match P.outerCutoffRadius with | none => (1:ℝ) | some rcut => exp (-(r / rcut) ^ P.cutoffStrength))) (𝓝[>] 0) (𝓝 1) := by
      cases hn : P.outerCutoffRadius with
      | none => exact tendsto_const_nhds
      | some rc =>
        obtain ⟨hrc, hs⟩ := ok.cutoff rc hn
        have hx' : Tendsto (fun r : ℝ => r / rc) (𝓝[>] 0) (𝓝 0) := by
          have : Tendsto (fun r : ℝ => r / rc) (𝓝 0) (𝓝 (0 / rc)) := (continuous_id.div_const _).tendsto 0
          rw [zero_div] at this; exact this.mono_left nhdsWithin_le_nhds
        have h1 := (hx'.rpow_const (p := P.cutoffStrength) (Or.inr hs.le)).neg
        rw [zero_rpow hs.ne', neg_zero] at h1
        have := (continuous_exp.tendsto 0).comp h1
        rw [exp_zero] at this; exact this
    have hlim := ((hxa.mul hcut).const_mul P.densityNorm)
    rw [mul_one, mul_one] at hlim
    refine hlim.congr' ?_
    filter_upwards [self_mem_nhdsWithin] with r hr'
    have hx0 : 0 < r / P.scaleRadius := div_pos hr' hr
    have : (r / P.scaleRadius) ^ (-P.gamma) * (r / P.scaleRadius) ^ P.gamma = 1 := by rw [← rpow_add hx0, neg_add_cancel, rpow_zero]
    rw [spheroidRho]
    cases P.outerCutoffRadius with
    | none => simp only; linear_combination (-(P.densityNorm * (1 + (r / P.scaleRadius) ^ P.alpha) ^ ((P.gamma - P.beta) / P.alpha))) * this
    | some rc =>
      simp only
      linear_combination (-(P.densityNorm * (1 + (r / P.scaleRadius) ^ P.alpha) ^ ((P.gamma - P.beta) / P.alpha) *
        exp (-(r / rc) ^ P.cutoffStrength))) * this
  · intro hn
    have hx : Tendsto (fun r : ℝ => (r / P.scaleRadius)⁻¹) atTop (𝓝 0) :=
      tendsto_inv_atTop_zero.comp (tendsto_id.atTop_div_const hr)
    have h1 : Tendsto (fun r : ℝ => ((r / P.scaleRadius)⁻¹) ^ P.alpha + 1) atTop (𝓝 (0 ^ P.alpha + 1)) :=
      (hx.rpow_const (Or.inr ha.le)).add_const 1
    rw [zero_rpow ha.ne', zero_add] at h1
    have h2 := (h1.rpow_const (p := (P.gamma - P.beta) / P.alpha) (Or.inl one_ne_zero)).const_mul P.densityNorm
    rw [one_rpow, mul_one] at h2
    refine h2.congr' ?_
    filter_upwards [eventually_gt_atTop 0] with r hr'
    have hx0 : 0 < r / P.scaleRadius := div_pos hr' hr
    set x := r / P.scaleRadius with hxd
    have hxa := rpow_pos_of_pos hx0 P.alpha
    have e1 : x⁻¹ ^ P.alpha + 1 = (1 + x ^ P.alpha) * (x ^ P.alpha)⁻¹ := by rw [inv_rpow hx0.le]; field_simp
    have e2 : ((x ^ P.alpha)⁻¹) ^ ((P.gamma - P.beta) / P.alpha) = x ^ (P.beta - P.gamma) := by
      rw [← rpow_neg hx0.le, ← rpow_mul hx0.le]; congr 1; field_simp; ring
    have e3 : x ^ (P.beta - P.gamma) = x ^ (-P.gamma) * x ^ P.beta := by rw [← rpow_add hx0]; congr 1; ring
    rw [spheroidRho, hn, e1, mul_rpow (by positivity) (by positivity), e2, e3, ← hxd]
    ring

/-! ## the hypotheses can be met -/

/-- an NFW profile with axis ratios 0.9 and 0.6 -/
noncomputable def exNFW : SpheroidParam := ⟨2, 3, none, 2, 1, 3, 1, 9 / 10, 3 / 5⟩
/-- the same with an exponential cutoff -/
noncomputable def exCut : SpheroidParam := { exNFW with outerCutoffRadius := some 20 }
/-- a Hernquist profile -/
noncomputable def exHernquist : SpheroidParam := { exNFW with beta := 4 }

example : exNFW.Ok ∧ exCut.Ok ∧ exHernquist.Ok := by
  refine ⟨⟨?_, ?_, ?_, ?_, ?_, ?_, ?_, ?_⟩, ⟨?_, ?_, ?_, ?_, ?_, ?_, ?_, ?_⟩, ⟨?_, ?_, ?_, ?_, ?_, ?_, ?_, ?_⟩⟩ <;>
    simp [exNFW, exCut, exHernquist] <;> norm_num

example : exNFW.mass = .inf := by
  obtain ⟨f, hf⟩ := (C109_accepts exNFW).1.mpr (by refine ⟨?_, ?_, ?_, ?_, ?_, ?_, ?_, ?_⟩ <;> simp [exNFW]; norm_num)
  exact (C109_infinite exNFW f hf (by norm_num [exNFW]) rfl (by norm_num [exNFW])).1

/-- the mass of the Hernquist profile is `2 pi rho0 a^3 p q` -/
example : exHernquist.mass = .val (2 * π * 2 * 3 ^ 3 * (9 / 10) * (3 / 5)) := by
  rw [SpheroidParam.mass, if_neg (by norm_num [exHernquist]), if_neg (by norm_num [exHernquist, exNFW])]
  simp only [exHernquist, exNFW]
  norm_num
  ring

end Verif.Pot
