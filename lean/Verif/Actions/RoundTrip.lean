import Verif.Actions.Eval
import Verif.Actions.Motion2

/-! Isochrone: the transformations in the two directions are inverse to each other; C90 -/

namespace Verif.Actions

open Real Verif.Coord Verif.Core

noncomputable section

variable {M b L L1 J0 j e : ℝ} {a : Act} {t : Ang} {solve : ℝ → ℝ → ℝ}

/-- The Hamiltonian as a function of actions -/
def hamiltonian (M b : ℝ) (a : Act) : ℝ := -M ^ 2 / (2 * (a.Jr + (a.Jz + |a.Jphi| + √((a.Jz + |a.Jphi|) ^ 2 + 4 * M * b)) / 2) ^ 2)

theorem mapJ0_eq (h : a.Jphi ≠ 0) : hamiltonian M b a = -M ^ 2 / (2 * mapJ0 M b a ^ 2) := by
  rw [hamiltonian, mapJ0, mapL_eq h, L1Of]
  congr 4
  ring_nf

theorem Par.energy {L1 r vr : ℝ} (hP : Par M b L L1 J0 j e) (η : ℝ) (hrsq : r ^ 2 = (J0 ^ 2 / M) ^ 2 * ((1 - e * cos η - j) * (1 - e * cos η + j))) (hvr : vr = J0 * e * sin η / r) :
    -M / (b + (1 - e * cos η) * J0 ^ 2 / M) + 0.5 * (vr ^ 2 + (L / r) ^ 2) = -M ^ 2 / (2 * J0 ^ 2) := by
  have hsc := sin_sq_add_cos_sq η
  have hx := hP.ra_j η
  have hj0 := hP.j0
  have hM := hP.hM
  have hJ := hP.hJ
  have hb : b = j * J0 ^ 2 / M := by rw [hP.jm]; field_simp
  have hv2 : vr ^ 2 + (L / r) ^ 2 = J0 ^ 2 * ((1 - j) ^ 2 - (1 - (1 - e * cos η)) ^ 2) / r ^ 2 := by
    have hL2 : L ^ 2 = J0 ^ 2 * ((1 - j) ^ 2 - e ^ 2) := by rw [hP.sq]; field_simp
    rw [hvr, div_pow, div_pow, hL2, ← add_div]
    congr 1
    linear_combination J0 ^ 2 * e ^ 2 * hsc
  rw [hv2, hrsq, hb]
  generalize 1 - e * cos η = ra at *
  have hy : 0 < ra + j := by linarith
  have e1 : j * J0 ^ 2 / M + ra * J0 ^ 2 / M = J0 ^ 2 / M * (ra + j) := by ring
  rw [e1]
  have hxy : (1 - j) ^ 2 - (1 - ra) ^ 2 = (ra - j) * (2 - (ra + j)) := by ring
  rw [hxy]
  generalize ra - j = x at *
  generalize ra + j = y at *
  field_simp
  ring

theorem Par.circ (hP : Par M b L L1 J0 j 0) : Par.f1 J0 L j 0 = 1 ∧ Par.f2 J0 L1 j 0 = 1 := by
  have hJ := hP.hJ
  have hL := hP.hL
  have hL1 := hP.L1pos
  have a1 := hP.sq
  have a2 := hP.sq2
  have h1 : (1 - j) = L / J0 := by
    have h2 : 0 < 1 - j := by linarith [hP.lt]
    have h3 : 0 < L / J0 := div_pos hL hJ
    nlinarith
  have h4 : (1 + j) = L1 / J0 := by
    have h2 : 0 < 1 + j := by linarith [hP.j0]
    have h3 : 0 < L1 / J0 := div_pos hL1 hJ
    nlinarith
  constructor
  · rw [Par.f1, add_zero, h1]; field_simp
  · rw [Par.f2, add_zero, h4]; field_simp

theorem map_some (h : Regular M b a) (hk : Kepler solve (mapEcc M b a)) (h0 : 0 ≤ t.thetar) (h1 : t.thetar < 2 * π) : ∃ p, mapIsochrone solve M b a t = some p := by
  obtain ⟨_, _, _, _, _, _, _, _, _, _, _, _, hm⟩ := map_spec (t := t) h hk h0 h1
  exact ⟨_, hm⟩

/-- The properties of the mapped point -/
theorem map_point (h : Regular M b a) (hk : Kepler solve (mapEcc M b a)) (h0 : 0 ≤ t.thetar) (h1 : t.thetar < 2 * π) {p : PosVelCyl} (hm : mapIsochrone solve M b a t = some p) :
    ∃ chi r st vr vt, 0 < r ∧ 0 < st ∧ st ^ 2 + (siOf a * sin (mapPsi solve M b a t)) ^ 2 = 1 ∧ st * cos chi = cos (mapPsi solve M b a t) ∧ st * sin chi = ciOf a * sin (mapPsi solve M b a t) ∧
      r * vr = mapJ0 M b a * mapEcc M b a * sin (solve (mapEcc M b a) t.thetar) ∧ vt = -mapL a * siOf a * cos (mapPsi solve M b a t) / (r * st) ∧
      p = sphPoint r st (siOf a * sin (mapPsi solve M b a t)) (wrap (t.thetaphi + (chi - t.thetaz) * sign a.Jphi)) vr vt (a.Jphi / (r * st)) ∧
      rbOf b p = (1 - mapEcc M b a * cos (solve (mapEcc M b a) t.thetar)) * mapJ0 M b a ^ 2 / M ∧ totalL p = mapL a ∧ energyOf M b p = -M ^ 2 / (2 * mapJ0 M b a ^ 2) := by
  have hP := map_par h
  obtain ⟨chi, st, c1, c2, c3, c4, r, vr, vt, hr, hvr, hvt, hm'⟩ := map_spec (t := t) h hk h0 h1
  obtain ⟨-, -, i3, -, -, i6⟩ := incl h
  obtain ⟨s1, s2, s3⟩ := sign_cases h.hphi
  have hrp : 0 < r := by rw [hr]; exact (hP.rS_sq _).2
  have hp : p = sphPoint r st (siOf a * sin (mapPsi solve M b a t)) (wrap (t.thetaphi + (chi - t.thetaz) * sign a.Jphi)) vr vt (a.Jphi / (r * st)) := by
    rw [hm'] at hm
    exact (Option.some.inj hm).symm
  have hrb : rbOf b p = (1 - mapEcc M b a * cos (solve (mapEcc M b a) t.thetar)) * mapJ0 M b a ^ 2 / M := by
    rw [hp, rbOf_sphPoint hrp c4, hr, ← hP.rb_eq, ← pow_two, add_comm]
  have hrv : r * vr = mapJ0 M b a * mapEcc M b a * sin (solve (mapEcc M b a) t.thetar) := by rw [hvr]; field_simp
  have hv2 : vt ^ 2 + (a.Jphi / (r * st)) ^ 2 = (mapL a / r) ^ 2 := by
    have hJ2 : a.Jphi ^ 2 = (ciOf a * mapL a) ^ 2 := by rw [i6, sq_abs]
    have hsc := sin_sq_add_cos_sq (mapPsi solve M b a t)
    rw [hvt, div_pow, div_pow, hJ2]
    have hst2 : st ^ 2 = 1 - siOf a ^ 2 * sin (mapPsi solve M b a t) ^ 2 := by rw [← mul_pow]; linarith
    have hst0 := c1.ne'
    field_simp
    rw [hst2]
    linear_combination mapL a ^ 2 * (hsc * siOf a ^ 2 + i3)
  have hL : totalL p = mapL a := by
    rw [hp, totalL_sphPoint hrp c4, hv2, sqrt_sq (div_nonneg hP.hL.le hrp.le)]
    field_simp
  refine ⟨chi, r, st, vr, vt, hrp, c1, c4, c2, c3, hrv, hvt, hp, hrb, hL, ?_⟩
  have hen : energyOf M b p = -M / (b + rbOf b p) + 0.5 * (vr ^ 2 + (mapL a / r) ^ 2) := by
    rw [hp, energyOf_sphPoint hrp c4, rbOf_sphPoint hrp c4, ← hv2]; ring
  rw [hen, hrb]
  refine hP.energy (solve (mapEcc M b a) t.thetar) ?_ hvr
  rw [hr]; exact (hP.rS_sq (solve (mapEcc M b a) t.thetar)).1

/-- C90. The actions and frequencies computed for the mapped point are those which were given; its energy is the Hamiltonian. -/
theorem C90_map_eval_actions (h : Regular M b a) (hk : Kepler solve (mapEcc M b a)) (h0 : 0 ≤ t.thetar) (h1 : t.thetar < 2 * π) : ∃ p, mapIsochrone solve M b a t = some p ∧
    evalActions M b p = (some a.Jr, a.Jz, a.Jphi) ∧ evalFreq M b p = mapFreq M b a ∧ energyOf M b p = hamiltonian M b a := by
  obtain ⟨p, hm⟩ := map_some (t := t) h hk h0 h1
  obtain ⟨chi, r, st, vr, vt, hr, hst, c4, c2, c3, hrv, hvt, hp, hrb, hL, hE⟩ := map_point h hk h0 h1 hm
  refine ⟨p, hm, ?_⟩
  have hP := map_par h
  have hM := hP.hM
  have hJ := hP.hJ
  have hneg : ¬ (a.Jr < 0 ∨ a.Jz < 0) := by have := h.hr; have := h.hz; push Not; constructor <;> linarith
  have hE0 : energyOf M b p < 0 := by rw [hE, neg_div]; exact neg_lt_zero.2 (by positivity)
  have hJ0 : J0Of M (energyOf M b p) = mapJ0 M b a := by
    rw [J0Of, hE, show -2 * (-M ^ 2 / (2 * mapJ0 M b a ^ 2)) = (M / mapJ0 M b a) ^ 2 by field_simp, sqrt_sq (by positivity)]
    field_simp
  have hLz : p.R * p.vphi = a.Jphi := by rw [hp]; simp only [sphPoint]; field_simp
  have hzv : (p.z = 0 ∧ p.vz = 0) → a.Jz = 0 := by
    rintro ⟨hz, hv⟩
    by_contra hne
    have hsi := (incl h).2.2.2.2.1 (lt_of_le_of_ne h.hz (Ne.symm hne))
    rw [hp] at hz hv
    simp only [sphPoint] at hz hv
    have hs0 : siOf a * sin (mapPsi solve M b a t) = 0 := by rcases mul_eq_zero.1 hz with h | h; exacts [absurd h hr.ne', h]
    rw [hs0, mul_zero, zero_sub, neg_eq_zero] at hv
    have hv0 : vt = 0 := by rcases mul_eq_zero.1 hv with h | h; exacts [h, absurd h hst.ne']
    have hsin : sin (mapPsi solve M b a t) = 0 := by rcases mul_eq_zero.1 hs0 with h | h; exacts [absurd h hsi.ne', h]
    have hcos : cos (mapPsi solve M b a t) ≠ 0 := by
      intro hc
      have := sin_sq_add_cos_sq (mapPsi solve M b a t)
      rw [hc, hsin] at this; norm_num at this
    rw [hvt] at hv0
    have hLp := hP.hL
    have : -mapL a * siOf a * cos (mapPsi solve M b a t) ≠ 0 := mul_ne_zero (mul_ne_zero (neg_ne_zero.2 hLp.ne') hsi.ne') hcos
    exact (div_ne_zero this (mul_pos hr hst).ne') hv0
  refine ⟨?_, ?_, by rw [hE, mapJ0_eq h.hphi]⟩
  · rw [evalActions, if_neg (not_le.2 hE0), hJ0, hL, hLz]
    have e1 : mapJ0 M b a - 0.5 * (mapL a + L1Of M b (mapL a)) = a.Jr := by rw [mapJ0]; ring
    have e2 : mapL a - |a.Jphi| = a.Jz := by rw [mapL_eq h.hphi]; ring
    rw [e1, e2, max_eq_right h.hr, max_eq_right h.hz]
    split_ifs with hc
    · rw [hzv hc]
    · rfl
  · rw [evalFreq, mapFreq, if_neg hneg]
    simp only [hJ0, hL, hLz, if_neg (not_le.2 hE0), mapLL1]
    congr 2
    · ring
    · ring

set_option maxHeartbeats 1000000 in
/-- C90. The angles computed for the mapped point are those which were given, except those which are meaningless: the radial angle of a circular orbit and the vertical angle of a planar orbit are zero. -/
theorem C90_map_eval_angles (h : Regular M b a) (hk : Kepler solve (mapEcc M b a)) (h0 : 0 ≤ t.thetar) (h1 : t.thetar < 2 * π) (h2 : 0 ≤ t.thetaz) (h3 : t.thetaz < 2 * π) (h4 : 0 ≤ t.thetaphi)
    (h5 : t.thetaphi < 2 * π) : ∃ p, mapIsochrone solve M b a t = some p ∧
    evalAngles M b p = some ⟨if a.Jr = 0 then 0 else t.thetar, if a.Jz = 0 then 0 else t.thetaz, t.thetaphi⟩ := by
  obtain ⟨p, hm⟩ := map_some (t := t) h hk h0 h1
  obtain ⟨chi, r, st, vr, vt, hr, hst, c4, c2, c3, hrv, hvt, hp, hrb, hL, hE⟩ := map_point h hk h0 h1 hm
  refine ⟨p, hm, ?_⟩
  have hP := map_par h
  have hM := hP.hM
  have hJ := hP.hJ
  obtain ⟨s1, s2, s3⟩ := sign_cases h.hphi
  obtain ⟨i1, i2, i3, i4, i5, i6⟩ := incl h
  have hE0 : energyOf M b p < 0 := by rw [hE, neg_div]; exact neg_lt_zero.2 (by positivity)
  have hJ0 : mapJ0 M b a = J0Of M (energyOf M b p) := by
    rw [J0Of, hE, show -2 * (-M ^ 2 / (2 * mapJ0 M b a ^ 2)) = (M / mapJ0 M b a) ^ 2 by field_simp, sqrt_sq (by positivity)]
    field_simp
  have hLz : p.R * p.vphi = a.Jphi := by rw [hp]; simp only [sphPoint]; field_simp
  have hecc : mapEcc M b a = √((1 - mapj M b a) ^ 2 - (totalL p / mapJ0 M b a) ^ 2) := by
    rw [hL, ← hP.sq, show (1 - mapj M b a) ^ 2 - ((1 - mapj M b a) ^ 2 - mapEcc M b a ^ 2) = mapEcc M b a ^ 2 by ring, sqrt_sq hP.he]
  have hk2 : mapJ0 M b a - M * rbOf b p / mapJ0 M b a = mapJ0 M b a * mapEcc M b a * cos (solve (mapEcc M b a) t.thetar) := by
    rw [hrb]; field_simp; ring
  have hsolve := hk _ h0 h1
  set η := solve (mapEcc M b a) t.thetar with hη
  set η' := atan2 (r * vr) (mapJ0 M b a - M * rbOf b p / mapJ0 M b a) with hη'
  set ψ := mapPsi solve M b a t with hψ
  have hP' : Par M b (totalL p) (L1Of M b (totalL p)) (mapJ0 M b a) (mapj M b a) (mapEcc M b a) := by rw [hL]; exact hP
  have hgood : r * vr = mapJ0 M b a * mapEcc M b a * sin η' ∧ mapJ0 M b a - M * rbOf b p / mapJ0 M b a = mapJ0 M b a * mapEcc M b a * cos η' ∧
      wrap (η' - mapEcc M b a * sin η') = (if a.Jr = 0 then 0 else t.thetar) ∧
      psiS (mapL a) (L1Of M b (mapL a)) (mapJ0 M b a) (mapj M b a) (mapEcc M b a) 0 (η' - mapEcc M b a * sin η') η' =
        psiS (mapL a) (L1Of M b (mapL a)) (mapJ0 M b a) (mapj M b a) (mapEcc M b a) 0 t.thetar η := by
    rcases hP.he.eq_or_lt with he | he
    · have hJr : a.Jr = 0 := by
        by_contra hne
        have hJr : 0 < a.Jr := lt_of_le_of_ne h.hr (Ne.symm hne)
        have hLp := hP.hL
        have hL1p := hP.L1pos
        have : 0 < mapEcc M b a := by rw [mapEcc]; exact lt_min (by positivity) one_pos
        linarith
      rw [← he] at hk2 hrv hsolve ⊢
      simp only [mul_zero, zero_mul] at hk2 hrv ⊢
      have hz : η' = 0 := by rw [hη', hrv, hk2]; simp [atan2, show (⟨0, 0⟩ : ℂ) = 0 from rfl]
      rw [hz, if_pos hJr]
      refine ⟨hrv, hk2, by simpa using wrap_self le_rfl (by positivity), ?_⟩
      obtain ⟨hf1, hf2⟩ := Par.circ (he ▸ hP)
      have hηθ : t.thetar = η := by linarith
      rw [psiS, psiS, hf1, hf2, hηθ]
      simp [g, gk]
      ring
    · obtain ⟨n, hn⟩ := atan2_scale (r := mapJ0 M b a * mapEcc M b a) (φ := η) (mul_pos hJ he) hk2 hrv
      rw [← hη'] at hn
      have hJr : a.Jr ≠ 0 := by
        intro h0
        rw [mapEcc, h0] at he
        simp at he
      have hs : sin η' = sin η := by rw [hn, sin_add_int_mul_two_pi]
      have hc : cos η' = cos η := by rw [hn, cos_add_int_mul_two_pi]
      rw [hs, hc, if_neg hJr]
      refine ⟨hrv, hk2, wrap_unique (-n) (by push_cast; linarith) h0 h1, ?_⟩
      have := psiS_add (L := mapL a) (J0 := mapJ0 M b a) (j := mapj M b a) (e := mapEcc M b a) hP.L1pos.ne' 0 (η' - mapEcc M b a * sin η) η' n 0
      simp only [Int.cast_zero, zero_mul, add_zero] at this
      rw [← this, ← hn]
      congr 1
      linarith
  obtain ⟨g1, g2, g3, g4⟩ := hgood
  have hψd : ψ = t.thetaz + psiS (mapL a) (L1Of M b (mapL a)) (mapJ0 M b a) (mapj M b a) (mapEcc M b a) 0 t.thetar η := by rw [hψ, mapPsi, psiS, psiS, ← hη]; ring
  have main := evalAngles_eq hr c4 hp hE0 hJ0 rfl hecc hP' g1 g2 hη' rfl rfl
  rw [main, g3, hL, show M * b / mapJ0 M b a ^ 2 = mapj M b a from rfl, g4, hLz]
  have hz' : p.z = r * (siOf a * sin ψ) := by rw [hp]; rfl
  have hst0 := hst.ne'
  have hvt' : -(r * st) * vt * r = r * mapL a * siOf a * cos ψ := by rw [hvt]; field_simp
  by_cases hJz : a.Jz = 0
  · obtain ⟨k1, k2⟩ := i4 hJz
    have hst1 : st = 1 := by
      rw [k2, zero_mul] at c4
      nlinarith
    have hvt0 : vt = 0 := by rw [hvt, k2]; simp
    have hzv : p.z = 0 ∧ p.vz = 0 := by
      rw [hp]; simp only [sphPoint, k2, hvt0]; simp
    rw [if_pos hzv, if_pos hJz]
    have e0 : atan2 (r * (siOf a * sin ψ) * mapL a) (-(r * st) * vt * r) = 0 := by rw [k2, hvt0]; simp [atan2, show (⟨0, 0⟩ : ℂ) = 0 from rfl]
    have e1 : atan2 (r * (siOf a * sin ψ) * (a.Jphi / (r * st))) (-vt * r) = 0 := by rw [k2, hvt0]; simp [atan2, show (⟨0, 0⟩ : ℂ) = 0 from rfl]
    rw [e0, e1]
    rw [hst1, one_mul] at c2 c3
    rw [k1, one_mul] at c3
    obtain ⟨n, hn⟩ := angle_unique c2 c3
    obtain ⟨-, -, m, hm'⟩ := wrap_spec (0 - psiS (mapL a) (L1Of M b (mapL a)) (mapJ0 M b a) (mapj M b a) (mapEcc M b a) 0 t.thetar η)
    obtain ⟨-, -, k, hk'⟩ := wrap_spec (t.thetaphi + (chi - t.thetaz) * sign a.Jphi)
    congr 2
    rcases s1 with s | s
    · rw [s] at hk' ⊢
      exact wrap_unique (n - m - k) (by push_cast; linarith) h4 h5
    · rw [s] at hk' ⊢
      exact wrap_unique (m - n - k) (by push_cast; linarith) h4 h5
  · have hsi := i5 (lt_of_le_of_ne h.hz (Ne.symm hJz))
    have hzv : ¬ (p.z = 0 ∧ p.vz = 0) := by
      rintro ⟨hz, hv⟩
      rw [hp] at hz hv
      simp only [sphPoint] at hz hv
      have hs0 : siOf a * sin ψ = 0 := by rcases mul_eq_zero.1 hz with h | h; exacts [absurd h hr.ne', h]
      rw [hs0, mul_zero, zero_sub, neg_eq_zero] at hv
      have hv0 : vt = 0 := by rcases mul_eq_zero.1 hv with h | h; exacts [h, absurd h hst.ne']
      have hsin : sin ψ = 0 := by rcases mul_eq_zero.1 hs0 with h | h; exacts [absurd h hsi.ne', h]
      have hcos : cos ψ ≠ 0 := by
        intro hc
        have := sin_sq_add_cos_sq ψ
        rw [hc, hsin] at this; norm_num at this
      rw [hvt] at hv0
      have hLp := hP.hL
      have : -mapL a * siOf a * cos ψ ≠ 0 := mul_ne_zero (mul_ne_zero (neg_ne_zero.2 hLp.ne') hsi.ne') hcos
      exact (div_ne_zero this (mul_pos hr hst).ne') hv0
    rw [if_neg hzv, if_neg hJz]
    obtain ⟨n, hn⟩ := atan2_scale (x := -(r * st) * vt * r) (y := r * (siOf a * sin ψ) * mapL a) (r := r * mapL a * siOf a) (φ := ψ) (mul_pos (mul_pos hr hP.hL) hsi) hvt' (by ring)
    have hcs : cos (sign a.Jphi * chi) = cos chi := by rcases s1 with s | s <;> rw [s] <;> simp
    have hss : sin (sign a.Jphi * chi) = sign a.Jphi * sin chi := by rcases s1 with s | s <;> rw [s] <;> simp
    have hJ' : a.Jphi = sign a.Jphi * (ciOf a * mapL a) := by rw [i6, s3]
    obtain ⟨m, hm'⟩ := atan2_scale (x := -vt * r) (y := r * (siOf a * sin ψ) * (a.Jphi / (r * st))) (r := mapL a * siOf a) (φ := sign a.Jphi * chi) (mul_pos hP.hL hsi)
      (by rw [hvt, hcs]; field_simp; linear_combination -mapL a * c2)
      (by
        have : a.Jphi / (r * st) = sign a.Jphi * (ciOf a * mapL a) / (r * st) := by rw [← hJ']
        rw [this, hss]
        field_simp
        linear_combination -(sign a.Jphi * mapL a) * c3)
    obtain ⟨-, -, k, hk'⟩ := wrap_spec (t.thetaphi + (chi - t.thetaz) * sign a.Jphi)
    have hz1 : wrap (atan2 (r * (siOf a * sin ψ) * mapL a) (-(r * st) * vt * r) - psiS (mapL a) (L1Of M b (mapL a)) (mapJ0 M b a) (mapj M b a) (mapEcc M b a) 0 t.thetar η) = t.thetaz :=
      wrap_unique (-n) (by push_cast; linarith) h2 h3
    rw [hz1]
    congr 2
    exact wrap_unique (m - k) (by push_cast; linarith) h4 h5

end

end Verif.Actions
