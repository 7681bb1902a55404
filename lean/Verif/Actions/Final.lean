import Verif.Actions.RoundTrip2
import Mathlib.MeasureTheory.Integral.IntervalIntegral.FundThmCalculus

/-! Isochrone: frequencies, radial action, and the cases in which the transformation fails; C90 -/

namespace Verif.Actions

open Real Verif.Coord Verif.Core Verif.Pot

noncomputable section

variable {M b L L1 J0 j e : ℝ} {a : Act} {t : Ang} {solve : ℝ → ℝ → ℝ}

theorem hamJr_deriv {M L x : ℝ} (hx : x + L ≠ 0) : HasDerivAt (fun x => -M ^ 2 / (2 * (x + L) ^ 2)) (M ^ 2 / (x + L) ^ 3) x := by
  have h1 : HasDerivAt (fun x => 2 * (x + L) ^ 2) (2 * (2 * (x + L) ^ (2 - 1) * 1)) x := (((hasDerivAt_id x).add_const L).pow 2).const_mul 2
  refine ((hasDerivAt_const x (-M ^ 2)).div h1 (by positivity)).congr_deriv ?_
  field_simp
  ring

theorem hamL_deriv {M b Jr L : ℝ} (hM : 0 < M) (hb : 0 ≤ b) (hr : 0 ≤ Jr) (hL : 0 < L) :
    HasDerivAt (fun x => -M ^ 2 / (2 * (Jr + (x + √(x ^ 2 + 4 * M * b)) / 2) ^ 2)) (M ^ 2 / (Jr + 0.5 * (L + L1Of M b L)) ^ 3 * (0.5 + 0.5 * L / L1Of M b L)) L := by
  have hpos : 0 < L ^ 2 + 4 * M * b := by positivity
  have e1 : L1Of M b L = √(L ^ 2 + 4 * M * b) := by rw [L1Of]; ring_nf
  have hs : HasDerivAt (fun x : ℝ => x ^ 2 + 4 * M * b) (2 * L) L := by
    have := (hasDerivAt_pow 2 L).add_const (4 * M * b)
    simpa using this
  have h2 := hs.sqrt hpos.ne'
  have h3 : HasDerivAt (fun x : ℝ => (x + √(x ^ 2 + 4 * M * b)) / 2) ((1 + 2 * L / (2 * √(L ^ 2 + 4 * M * b))) / 2) L := ((hasDerivAt_id L).add h2).div_const 2
  have hp : 0 < Jr + (L + √(L ^ 2 + 4 * M * b)) / 2 := by positivity
  have h4 := (hamJr_deriv (M := M) (L := Jr) (x := (L + √(L ^ 2 + 4 * M * b)) / 2) (by linarith)).comp L h3
  rw [e1]
  have h5 : (fun x => -M ^ 2 / (2 * (Jr + (x + √(x ^ 2 + 4 * M * b)) / 2) ^ 2)) = (fun y => -M ^ 2 / (2 * (y + Jr) ^ 2)) ∘ fun x => (x + √(x ^ 2 + 4 * M * b)) / 2 := by
    funext x; simp only [Function.comp]; rw [add_comm]
  rw [h5]
  refine h4.congr_deriv ?_
  have hsq : 0 < √(L ^ 2 + 4 * M * b) := sqrt_pos.2 hpos
  generalize √(L ^ 2 + 4 * M * b) = w at *
  rw [show (L + w) / 2 + Jr = Jr + 0.5 * (L + w) by ring]
  congr 1
  field_simp
  ring

/-- C90. The frequencies are the derivatives of the Hamiltonian with respect to the actions. -/
theorem C90_frequencies (h : Regular M b a) : ∃ Ω, mapFreq M b a = some Ω ∧
    HasDerivAt (fun x => hamiltonian M b { a with Jr := x }) Ω.Omegar a.Jr ∧
    HasDerivAt (fun x => hamiltonian M b { a with Jz := x }) Ω.Omegaz a.Jz ∧
    HasDerivAt (fun x => hamiltonian M b { a with Jphi := x }) Ω.Omegaphi a.Jphi := by
  have hneg : ¬ (a.Jr < 0 ∨ a.Jz < 0) := by have := h.hr; have := h.hz; push Not; constructor <;> linarith
  have hP := map_par h
  have hmL := mapL_eq h.hphi
  refine ⟨_, by rw [mapFreq, if_neg hneg], ?_, ?_, ?_⟩
  · have := hamJr_deriv (M := M) (L := (a.Jz + |a.Jphi| + √((a.Jz + |a.Jphi|) ^ 2 + 4 * M * b)) / 2) (x := a.Jr) (by
      have h1 := h.hr; have h2 := h.hz; have h3 := abs_pos.2 h.hphi; positivity)
    refine this.congr_deriv ?_
    rw [mapJ0, hmL, L1Of]
    congr 2
    ring_nf
  · have h1 := hamL_deriv h.hM h.hb h.hr hP.hL
    rw [hmL] at h1
    have h2 : HasDerivAt (fun x : ℝ => x + |a.Jphi|) 1 a.Jz := (hasDerivAt_id _).add_const _
    have := HasDerivAt.comp a.Jz h1 h2
    refine this.congr_deriv ?_
    rw [mul_one, mapJ0, mapLL1, hmL]
  · have h1 := hamL_deriv h.hM h.hb h.hr hP.hL
    rw [hmL] at h1
    have h2 : HasDerivAt (fun x : ℝ => a.Jz + |x|) (sign a.Jphi) a.Jphi := by
      refine (HasDerivAt.const_add _ ?_)
      rcases lt_or_gt_of_ne h.hphi with hs | hs
      · rw [sign_neg hs]; exact (hasDerivAt_neg _).congr_of_eventuallyEq (Filter.eventuallyEq_of_mem (Iio_mem_nhds hs) fun x hx => abs_of_neg hx)
      · rw [sign_pos hs]; exact (hasDerivAt_id _).congr_of_eventuallyEq (Filter.eventuallyEq_of_mem (Ioi_mem_nhds hs) fun x hx => abs_of_pos hx)
    have := HasDerivAt.comp a.Jphi h1 h2
    refine this.congr_deriv ?_
    rw [mapJ0, mapLL1, hmL]

/-- Antiderivative of the squared radial velocity -/
def radialW (L L1 J0 j e η : ℝ) : ℝ := J0 * (η + e * sin η) - L * g (Par.f1 J0 L j e) η - L1 * g (Par.f2 J0 L1 j e) η

theorem Par.radialW_deriv (hP : Par M b L L1 J0 j e) {η : ℝ → ℝ} {T : ℝ} (hη : HasDerivAt η (M ^ 2 / J0 ^ 3 / (1 - e * cos (η T))) T) :
    HasDerivAt (fun T => radialW L L1 J0 j e (η T)) ((J0 * e * sin (η T) / rS M b J0 e (η T)) ^ 2) T := by
  have hJ := hP.hJ
  have hM := hP.hM
  have d : HasDerivAt (radialW L L1 J0 j e) (J0 * (1 + e * cos (η T)) - L * (L / J0 / (2 * (1 - e * cos (η T) - j))) - L1 * (L1 / J0 / (2 * (1 - e * cos (η T) + j)))) (η T) :=
    ((((hasDerivAt_id _).add ((hasDerivAt_sin _).const_mul e)).const_mul J0).sub ((hP.g1_deriv (η T)).const_mul L)).sub ((hP.g2_deriv (η T)).const_mul L1)
  refine (d.comp T hη).congr_deriv ?_
  have hx := hP.ra_j (η T)
  have hj0 := hP.j0
  have hsc := sin_sq_add_cos_sq (η T)
  obtain ⟨hr2, hr⟩ := hP.rS_sq (η T)
  rw [div_pow, hr2]
  have hs : (J0 * e * sin (η T)) ^ 2 = J0 ^ 2 * (e ^ 2 - (1 - (1 - e * cos (η T))) ^ 2) := by linear_combination J0 ^ 2 * e ^ 2 * hsc
  have hL2 : L * (L / J0 / (2 * (1 - e * cos (η T) - j))) = J0 * ((1 - j) ^ 2 - e ^ 2) / (2 * (1 - e * cos (η T) - j)) := by rw [hP.sq]; field_simp
  have hL3 : L1 * (L1 / J0 / (2 * (1 - e * cos (η T) + j))) = J0 * ((1 + j) ^ 2 - e ^ 2) / (2 * (1 - e * cos (η T) + j)) := by rw [hP.sq2]; field_simp
  rw [hs, hL2, hL3, show 1 + e * cos (η T) = 2 - (1 - e * cos (η T)) by ring]
  generalize 1 - e * cos (η T) = ra at *
  have hy : 0 < ra + j := by linarith
  have hra : ra ≠ 0 := by linarith
  have hx0 := hx.ne'
  have hy0 := hy.ne'
  field_simp
  ring

/-- C90. The radial action is the integral of the radial velocity along the orbit over the period of radial oscillations, divided by 2π. -/
theorem C90_radial_action (h : Regular M b a) (hk : Kepler solve (mapEcc M b a)) (t : Ang) {Ω : Freq} (hΩ : mapFreq M b a = some Ω) :
    ∃ q : ℝ → PosVelCyl, (∀ T, mapIsochrone solve M b a ⟨wrap (t.thetar + Ω.Omegar * T), wrap (t.thetaz + Ω.Omegaz * T), wrap (t.thetaphi + Ω.Omegaphi * T)⟩ = some (q T)) ∧
      ∫ T in (0 : ℝ)..(2 * π / Ω.Omegar), (vCylToSph (q T)).vr ^ 2 = 2 * π * a.Jr := by
  have hP := map_par h
  have hM := hP.hM
  have hJ := hP.hJ
  obtain ⟨E, hE⟩ := exists_solvesKepler (mapEcc M b a)
  have hneg : ¬ (a.Jr < 0 ∨ a.Jz < 0) := by have := h.hr; have := h.hz; push Not; constructor <;> linarith
  rw [mapFreq, if_neg hneg] at hΩ
  simp only [Option.some.injEq] at hΩ
  have o1 : Ω.Omegar = M ^ 2 / mapJ0 M b a ^ 3 := by rw [← hΩ]
  have hop : 0 < Ω.Omegar := by rw [o1]; positivity
  have dη : ∀ T, HasDerivAt (fun T => E (t.thetar + Ω.Omegar * T)) (M ^ 2 / mapJ0 M b a ^ 3 / (1 - mapEcc M b a * cos (E (t.thetar + Ω.Omegar * T)))) T := fun T => by
    have d1 : HasDerivAt (fun T => t.thetar + Ω.Omegar * T) Ω.Omegar T := by
      have := ((hasDerivAt_id T).const_mul Ω.Omegar).const_add t.thetar
      rwa [mul_one] at this
    exact ((kepler_hasDerivAt hP.he hP.e1 E hE (t.thetar + Ω.Omegar * T)).comp T d1).congr_deriv (by rw [o1, div_eq_mul_inv _ (1 - _), mul_comm])
  have key : ∀ T, ∃ p, mapIsochrone solve M b a ⟨wrap (t.thetar + Ω.Omegar * T), wrap (t.thetaz + Ω.Omegaz * T), wrap (t.thetaphi + Ω.Omegaphi * T)⟩ = some p ∧
      (vCylToSph p).vr = mapJ0 M b a * mapEcc M b a * sin (E (t.thetar + Ω.Omegar * T)) / rS M b (mapJ0 M b a) (mapEcc M b a) (E (t.thetar + Ω.Omegar * T)) := by
    intro T
    obtain ⟨w0, w1, n, hn⟩ := wrap_spec (t.thetar + Ω.Omegar * T)
    obtain ⟨chi, st, c1, c2, c3, c4, r, vr, vt, hr, hvr, hvt, hm⟩ := map_spec (t := ⟨wrap (t.thetar + Ω.Omegar * T), wrap (t.thetaz + Ω.Omegaz * T), wrap (t.thetaphi + Ω.Omegaphi * T)⟩) h hk w0 w1
    have hsol : E (t.thetar + Ω.Omegar * T) = solve (mapEcc M b a) (wrap (t.thetar + Ω.Omegar * T)) + n * (2 * π) := by
      refine kepler_inj hP.he hP.e1 ?_
      rw [hE, sin_add_int_mul_two_pi]
      have := hk _ w0 w1
      linarith
    have hrp : 0 < r := by rw [hr]; exact (hP.rS_sq _).2
    refine ⟨_, hm, ?_⟩
    have := vCylToSph_sphPoint (φ := wrap (wrap (t.thetaphi + Ω.Omegaphi * T) + (chi - wrap (t.thetaz + Ω.Omegaz * T)) * sign a.Jphi)) (vr := vr) (vt := vt) (vφ := a.Jphi / (r * st)) hrp c4
    simp only [sphPoint] at this
    rw [this]
    simp only
    rw [hvr, hsol, sin_add_int_mul_two_pi, hr]
    simp only [rS, cos_add_int_mul_two_pi]
  choose q hq1 hq2 using key
  refine ⟨q, hq1, ?_⟩
  have dW := fun T => hP.radialW_deriv (dη T)
  have hcont : Continuous fun T => (mapJ0 M b a * mapEcc M b a * sin (E (t.thetar + Ω.Omegar * T)) / rS M b (mapJ0 M b a) (mapEcc M b a) (E (t.thetar + Ω.Omegar * T))) ^ 2 := by
    have hc : Continuous fun T => E (t.thetar + Ω.Omegar * T) := continuous_iff_continuousAt.2 fun T => (dη T).continuousAt
    refine Continuous.pow (Continuous.div ?_ ?_ fun T => (hP.rS_sq _).2.ne') 2
    · exact continuous_const.mul (continuous_sin.comp hc)
    · unfold rS
      exact continuous_sqrt.comp (((((continuous_const.sub (continuous_const.mul (continuous_cos.comp hc))).mul continuous_const).mul continuous_const).div_const M).pow 2 |>.sub continuous_const)
  have e0 : ∀ T, (vCylToSph (q T)).vr ^ 2 = (mapJ0 M b a * mapEcc M b a * sin (E (t.thetar + Ω.Omegar * T)) / rS M b (mapJ0 M b a) (mapEcc M b a) (E (t.thetar + Ω.Omegar * T))) ^ 2 := fun T => by rw [hq2]
  simp only [e0]
  rw [intervalIntegral.integral_eq_sub_of_hasDerivAt (fun T _ => dW T) (hcont.intervalIntegrable _ _)]
  have hper : E (t.thetar + Ω.Omegar * (2 * π / Ω.Omegar)) = E (t.thetar + Ω.Omegar * 0) + ((1 : ℤ) : ℝ) * (2 * π) := by
    refine kepler_inj hP.he hP.e1 ?_
    rw [hE, sin_add_int_mul_two_pi]
    have := hE (t.thetar + Ω.Omegar * 0)
    have h2 : Ω.Omegar * (2 * π / Ω.Omegar) = 2 * π := by field_simp
    rw [h2]
    push_cast
    linarith
  rw [hper]
  simp only [radialW, g_add, sin_add_int_mul_two_pi]
  have : a.Jr = mapJ0 M b a - 0.5 * (mapL a + L1Of M b (mapL a)) := by rw [mapJ0]; ring
  rw [this]
  push_cast
  ring

theorem kepler_example (e : ℝ) : ∃ solve, Kepler solve e := by
  obtain ⟨E, hE⟩ := exists_solvesKepler e
  exact ⟨fun _ => E, fun x _ _ => hE x⟩

/-- A solver for all eccentricities -/
theorem kepler_example_all : ∃ solve, ∀ e, 0 ≤ e → e < 1 → Kepler solve e := by
  choose E hE using exists_solvesKepler
  exact ⟨E, fun e _ _ x _ _ => hE e x⟩

example : ∃ solve, Regular 2 1 ⟨1, 3, -2⟩ ∧ Kepler solve (mapEcc 2 1 ⟨1, 3, -2⟩) ∧ ∃ Ω, mapFreq 2 1 ⟨1, 3, -2⟩ = some Ω := by
  obtain ⟨solve, hs⟩ := kepler_example (mapEcc 2 1 ⟨1, 3, -2⟩)
  have hr : Regular 2 1 ⟨1, 3, -2⟩ := ⟨by norm_num, by norm_num, by norm_num, by norm_num, by norm_num⟩
  obtain ⟨Ω, h, -⟩ := C90_frequencies hr
  exact ⟨solve, hr, hs, Ω, h⟩

/-- The hypotheses of C90_eval_map: a point moving in all three directions -/
example : ∃ (solve : ℝ → ℝ → ℝ) (p : PosVelCyl), (∀ e, 0 ≤ e → e < 1 → Kepler solve e) ∧ 0 < p.R ∧ p.vphi ≠ 0 ∧ p.vR ≠ 0 ∧ p.vz ≠ 0 ∧ p.z ≠ 0 ∧ energyOf 100 1 p < 0 := by
  obtain ⟨solve, hs⟩ := kepler_example_all
  have h : (3 / 5 : ℝ) ^ 2 + (4 / 5) ^ 2 = 1 := by norm_num
  refine ⟨solve, sphPoint 5 (3 / 5) (4 / 5) 2 1 2 (-3), hs, by norm_num [sphPoint], by norm_num [sphPoint], by norm_num [sphPoint], by norm_num [sphPoint], by norm_num [sphPoint], ?_⟩
  rw [energyOf_sphPoint (by norm_num) h]
  have h1 : √(1 * 1 + 5 ^ 2) < 6 := by rw [sqrt_lt' (by norm_num)]; norm_num
  have h2 : 0 ≤ √(1 * 1 + (5 : ℝ) ^ 2) := sqrt_nonneg _
  have h3 : 7 < 100 / (1 + √(1 * 1 + (5 : ℝ) ^ 2)) := by rw [lt_div_iff₀ (by positivity)]; linarith
  rw [neg_div]
  linarith

/-- C90 fails for unwrapped angles: a full turn in the radial angle changes the position, although the angle is the same. (A circular orbit in the isochrone potential with M=4, b=1: the radial angle is
0 or 2π, and the solution of Kepler's equation by the code is 0 in both cases.) -/
theorem C90_refuted_unwrapped (fuel : ℕ) (hs : ∀ x, solveKepler (fuel + 1) 0 x = some (solve 0 x)) :
    ∃ p p', mapIsochrone solve 4 1 ⟨0, 0, 3⟩ ⟨0, 0, 0⟩ = some p ∧ mapIsochrone solve 4 1 ⟨0, 0, 3⟩ ⟨2 * π, 0, 0⟩ = some p' ∧ p.phi = 0 ∧ p'.phi = 2 * π / 5 := by
  have hpi := pi_pos
  have s0 : solve 0 0 = 0 := by
    have := hs 0
    rw [C66_solveKepler_circular] at this
    simpa using (Option.some.inj this).symm
  have s1 : solve 0 (2 * π) = 0 := by
    have := hs (2 * π)
    rw [C66_solveKepler_circular, show 1 / (2 * π) * (2 * π) = 1 by field_simp] at this
    simpa using (Option.some.inj this).symm
  have hL : mapL ⟨0, 0, 3⟩ = 3 := by rw [mapL]; simp only; rw [sign_pos (by norm_num)]; norm_num
  have hL1 : L1Of 4 1 3 = 5 := by rw [L1Of, show (3 : ℝ) * 3 + 4 * 4 * 1 = 5 ^ 2 by norm_num, sqrt_sq (by norm_num)]
  have he : mapEcc 4 1 ⟨0, 0, 3⟩ = 0 := by rw [mapEcc]; simp
  have hLL : mapLL1 4 1 ⟨0, 0, 3⟩ = 4 / 5 := by rw [mapLL1, hL, hL1]; norm_num
  have hn : ¬ ((0 : ℝ) < 0 ∨ (0 : ℝ) < 0) := by norm_num
  refine ⟨_, _, by rw [mapIsochrone, if_neg hn], by rw [mapIsochrone, if_neg hn], ?_, ?_⟩
  · simp only [he, s0, hLL, hL, hL1]
    rw [if_neg (by norm_num), if_neg (by linarith), if_neg (by norm_num)]
    simp [atanFac]
    exact wrap_self le_rfl (by linarith)
  · simp only [he, s1, hLL, hL, hL1]
    rw [if_neg (by norm_num), if_neg (by linarith), if_neg (by norm_num), sign_pos (by norm_num)]
    simp only [atanFac, sin_zero, zero_div, mul_zero, arctan_zero]
    exact wrap_unique (-1) (by push_cast; ring) (by positivity) (by linarith)

example : ∃ solve : ℝ → ℝ → ℝ, ∀ x, solveKepler (3 + 1) 0 x = some (solve 0 x) := ⟨fun _ x => x - 2 * π * ⌊1 / (2 * π) * x⌋, fun x => C66_solveKepler_circular 3 x⟩

/-- C90 fails for orbits with zero angular momentum about the z axis: a point on the polar circular orbit in the Kepler potential, moving downwards, is not recovered from its actions and angles, but is
put on the other side of the axis. -/
theorem C90_refuted_polar (fuel : ℕ) (hs : ∀ x, solveKepler (fuel + 1) 0 x = some (solve 0 x)) :
    evalActions 1 0 ⟨1, 0, 0, 0, -1, 0⟩ = (some 0, 1, 0) ∧ evalAngles 1 0 ⟨1, 0, 0, 0, -1, 0⟩ = some ⟨0, π, π⟩ ∧
      mapIsochrone solve 1 0 ⟨0, 1, 0⟩ ⟨0, π, π⟩ = some ⟨1, 0, π, 0, -1, 0⟩ := by
  have hpi := pi_pos
  have s0 : solve 0 0 = 0 := by
    have := hs 0
    rw [C66_solveKepler_circular] at this
    simpa using (Option.some.inj this).symm
  have hp : (⟨1, 0, 0, 0, -1, 0⟩ : PosVelCyl) = sphPoint 1 1 0 0 0 1 0 := by simp [sphPoint]
  have h1 : (0 : ℝ) < 1 := one_pos
  have h2 : (1 : ℝ) ^ 2 + 0 ^ 2 = 1 := by norm_num
  have hL : totalL ⟨1, 0, 0, 0, -1, 0⟩ = 1 := by rw [hp, totalL_sphPoint h1 h2]; simp
  have hrb : rbOf 0 ⟨1, 0, 0, 0, -1, 0⟩ = 1 := by rw [hp, rbOf_sphPoint h1 h2]; simp
  have hL1 : L1Of 1 0 1 = 1 := by rw [L1Of]; simp
  have hE : energyOf 1 0 ⟨1, 0, 0, 0, -1, 0⟩ = -1 / 2 := by rw [hp, energyOf_sphPoint h1 h2]; norm_num
  have hJ : J0Of 1 (-1 / 2) = 1 := by rw [J0Of]; norm_num
  have hsg : sign 0 = 0 := by simp [sign]
  have ha0 : atan2 0 0 = 0 := by simp [atan2, show (⟨0, 0⟩ : ℂ) = 0 from rfl]
  have ha1 : atan2 0 (-1) = π := by
    rw [atan2, show (⟨-1, 0⟩ : ℂ) = -1 by apply Complex.ext <;> simp]; exact Complex.arg_neg_one
  have hsph : vCylToSph ⟨1, 0, 0, 0, -1, 0⟩ = ⟨1, atan2 (1 * 1) (1 * 0), 0, 0, 1, 0⟩ := by rw [hp, vCylToSph_sphPoint h1 h2]
  refine ⟨?_, ?_, ?_⟩
  · rw [evalActions, hL, hE, hJ, hL1]
    norm_num
  · rw [evalAngles]
    simp only [hsph, hL, hE, hJ, hL1, hrb]
    norm_num [ha0, ha1, atanFac, hsg]
    refine ⟨wrap_self le_rfl (by linarith), ?_, ?_⟩
    · rw [wrap_self le_rfl (by linarith)]
      norm_num
      exact wrap_self hpi.le (by linarith)
    · exact wrap_unique (-1) (by push_cast; ring) hpi.le (by linarith)
  · have hmL : mapL ⟨0, 1, 0⟩ = 1 := by rw [mapL]; norm_num
    have hmJ : mapJ0 1 0 ⟨0, 1, 0⟩ = 1 := by rw [mapJ0, hmL, hL1]; norm_num
    have he : mapEcc 1 0 ⟨0, 1, 0⟩ = 0 := by rw [mapEcc]; simp
    have hLL : mapLL1 1 0 ⟨0, 1, 0⟩ = 1 := by rw [mapLL1, hmL, hL1]; norm_num
    rw [mapIsochrone, if_neg (by norm_num)]
    simp only [hmL, hmJ, he, s0, hLL, hL1, hsg]
    norm_num [atanFac, not_lt.2 hpi.le]
    exact wrap_self hpi.le (by linarith)

end

end Verif.Actions
