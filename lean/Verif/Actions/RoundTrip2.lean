import Verif.Actions.RoundTrip

/-! Isochrone: the inverse of the transformation to actions and angles; C90 -/

namespace Verif.Actions

open Real Verif.Coord Verif.Core

noncomputable section

variable {M b L L1 J0 j e : ℝ} {a : Act} {t : Ang} {solve : ℝ → ℝ → ℝ}

theorem pos_sq {x y : ℝ} (hx : 0 < x) (hy : 0 < y) (h : x ^ 2 = y ^ 2) : x = y := by
  rcases sq_eq_sq_iff_eq_or_eq_neg.1 h with h | h
  · exact h
  · linarith

theorem Par.J0_ge (hP : Par M b L L1 J0 j e) : 0 ≤ J0 - 0.5 * (L + L1) := by
  have hJ := hP.hJ
  have hL := hP.hL
  have h1 := hP.L1pos
  have hb := hP.hb
  have hM := hP.hM
  have hMb : 0 ≤ M * b := mul_nonneg hM.le hb
  have hs : (L / J0) ^ 2 ≤ (1 - j) ^ 2 := by rw [← hP.sq]; nlinarith [sq_nonneg e]
  have h2 : 0 < 1 - j := by linarith [hP.lt, hP.he]
  have h3 : L / J0 ≤ 1 - j := by
    have := abs_le_of_sq_le_sq hs h2.le
    exact (abs_le.1 this).2
  have h4 : L * J0 ≤ J0 ^ 2 - M * b := by
    have := hP.jm
    have h5 : L / J0 * J0 ^ 2 ≤ (1 - j) * J0 ^ 2 := mul_le_mul_of_nonneg_right h3 (by positivity)
    have h6 : L / J0 * J0 ^ 2 = L * J0 := by field_simp
    nlinarith
  have h5 : L ≤ J0 := by
    by_contra hc
    push Not at hc
    nlinarith
  have h6 : (L1 / 2) ^ 2 ≤ (J0 - L / 2) ^ 2 := by
    have := hP.L1sq
    nlinarith
  have := (abs_le.1 (abs_le_of_sq_le_sq h6 (by linarith))).2
  linarith

/-- The direction of the velocity -/
theorem psi_core {r st ct vt vφ Lz si psi : ℝ} (hr : 0 < r) (hL : 0 < L) (h : st ^ 2 + ct ^ 2 = 1) (hLsq : L ^ 2 = (vt ^ 2 + vφ ^ 2) * r ^ 2) (hLz : Lz = r * st * vφ)
    (hsi : si = √(1 - (Lz / L) ^ 2)) (hpsi : psi = atan2 (r * ct * L) (-(r * st) * vt * r)) :
    si * sin psi = ct ∧ L * si * cos psi = -(st * vt * r) ∧ (si = 0 ↔ (ct = 0 ∧ vt = 0)) := by
  have e0 : L ^ 2 - Lz ^ 2 = r ^ 2 * (vt ^ 2 + ct ^ 2 * vφ ^ 2) := by
    rw [hLsq, hLz]; linear_combination -(r ^ 2 * vφ ^ 2) * h
  have e1 : 0 ≤ 1 - (Lz / L) ^ 2 := by
    have : 0 ≤ (L ^ 2 - Lz ^ 2) / L ^ 2 := div_nonneg (by rw [e0]; positivity) (by positivity)
    have e2 : (L ^ 2 - Lz ^ 2) / L ^ 2 = 1 - (Lz / L) ^ 2 := by field_simp
    linarith
  have hsi2 : L ^ 2 * si ^ 2 = r ^ 2 * (vt ^ 2 + ct ^ 2 * vφ ^ 2) := by
    rw [hsi, sq_sqrt e1, ← e0]; field_simp
  have hsi0 : 0 ≤ si := by rw [hsi]; exact sqrt_nonneg _
  have hs := sqrt_mul_sin_atan2 (-(r * st) * vt * r) (r * ct * L)
  have hc := sqrt_mul_cos_atan2 (-(r * st) * vt * r) (r * ct * L)
  have hrad : √((-(r * st) * vt * r) ^ 2 + (r * ct * L) ^ 2) = r * L * si := by
    rw [show (-(r * st) * vt * r) ^ 2 + (r * ct * L) ^ 2 = (r * L * si) ^ 2 by
      rw [show (r * L * si) ^ 2 = r ^ 2 * (L ^ 2 * si ^ 2) by ring, hsi2, mul_pow _ L, hLsq]; linear_combination (r ^ 4 * vt ^ 2) * h]
    exact sqrt_sq (by positivity)
  rw [hrad, ← hpsi] at hs hc
  have hrL := (mul_pos hr hL).ne'
  refine ⟨?_, ?_, ?_⟩
  · apply mul_left_cancel₀ hrL; linear_combination hs
  · apply mul_left_cancel₀ hr.ne'; linear_combination hc
  · constructor
    · intro h0
      rw [h0] at hs hc
      have hct : ct = 0 := by
        have : r * L * ct = 0 := by linear_combination -hs
        rcases mul_eq_zero.1 this with h | h; exacts [absurd h hrL, h]
      rw [h0, hct] at hsi2
      have : r ^ 2 * vt ^ 2 = 0 := by linear_combination -hsi2
      rcases mul_eq_zero.1 this with h | h
      · exact absurd h (by positivity)
      · exact ⟨hct, by simpa using h⟩
    · rintro ⟨h1, h2⟩
      rw [h1, h2] at hsi2
      have : L ^ 2 * si ^ 2 = 0 := by linear_combination hsi2
      rcases mul_eq_zero.1 this with h | h
      · exact absurd h (by positivity)
      · simpa using h

set_option maxHeartbeats 1000000 in
/-- C90. For any point on a bound orbit away from the z axis, with non-zero angular momentum about this axis: the point is recovered from its actions and angles. -/
theorem C90_eval_map (hM : 0 < M) (hb : 0 ≤ b) (hk : ∀ e, 0 ≤ e → e < 1 → Kepler solve e) (p : PosVelCyl) (hR : 0 < p.R) (hvphi : p.vphi ≠ 0) (hE : energyOf M b p < 0) :
    ∃ a t, evalActions M b p = (some a.Jr, a.Jz, a.Jphi) ∧ evalAngles M b p = some t ∧ mapIsochrone solve M b a t = some { p with phi := wrap p.phi } := by
  obtain ⟨r, st, ct, vr, vt, hr, hst, hsc, hp⟩ := exists_sphPoint p hR
  have hv : 0 < vt ^ 2 + p.vphi ^ 2 := by positivity
  obtain ⟨J0, j, e, η, hJ0, hj, he, hP, hrb, hrv, hk2, hη, -⟩ := point_par hM hb hr hsc hp hE hv
  have hL : totalL p = √(vt ^ 2 + p.vphi ^ 2) * r := by rw [hp, totalL_sphPoint hr hsc]; simp [sphPoint]
  have hLsq : totalL p ^ 2 = (vt ^ 2 + p.vphi ^ 2) * r ^ 2 := by rw [hL, mul_pow, sq_sqrt hv.le]
  have hLz : p.R * p.vphi = r * st * p.vphi := by congr 1; rw [hp]; rfl
  obtain ⟨k1, k2, k3⟩ := psi_core hr hP.hL hsc hLsq hLz rfl rfl
  have hz : p.z = r * ct := by rw [hp]; rfl
  have hvz : p.vz = vr * ct - vt * st := by rw [hp]; rfl
  have hplan : (p.z = 0 ∧ p.vz = 0) ↔ (ct = 0 ∧ vt = 0) := by
    rw [hz, hvz]
    constructor
    · rintro ⟨h1, h2⟩
      have hct : ct = 0 := by rcases mul_eq_zero.1 h1 with h | h; exacts [absurd h hr.ne', h]
      rw [hct] at h2
      have : vt * st = 0 := by linarith
      exact ⟨hct, by rcases mul_eq_zero.1 this with h | h; exacts [h, absurd h hst.ne']⟩
    · rintro ⟨h1, h2⟩
      rw [h1, h2]; simp
  have hphi : p.R * p.vphi ≠ 0 := mul_ne_zero hR.ne' hvphi
  have hle : |p.R * p.vphi| ≤ totalL p := by
    refine abs_le_of_sq_le_sq ?_ hP.hL.le
    rw [hLz, hLsq]
    nlinarith [mul_nonneg (sq_nonneg r) (sq_nonneg vt), mul_nonneg (sq_nonneg r) (mul_nonneg (sq_nonneg ct) (sq_nonneg p.vphi))]
  have hJz : (if p.z = 0 ∧ p.vz = 0 then 0 else max 0 (totalL p - |p.R * p.vphi|)) = totalL p - |p.R * p.vphi| := by
    split_ifs with hc
    · obtain ⟨h1, h2⟩ := hplan.1 hc
      have hst1 : st = 1 := by rw [h1] at hsc; exact pos_sq hst one_pos (by linarith)
      have : totalL p ^ 2 = |p.R * p.vphi| ^ 2 := by rw [sq_abs, hLsq, hLz, h2, hst1]; ring
      have hLp := hP.hL
      have := abs_eq_abs.2 (sq_eq_sq_iff_eq_or_eq_neg.1 this)
      rw [abs_abs, abs_of_pos hLp] at this
      linarith
    · exact max_eq_right (by linarith)
  obtain ⟨a, ha⟩ : ∃ a : Act, a = ⟨J0 - 0.5 * (totalL p + L1Of M b (totalL p)), totalL p - |p.R * p.vphi|, p.R * p.vphi⟩ := ⟨_, rfl⟩
  have hreg : Regular M b a := ⟨hM, hb, by rw [ha]; exact hP.J0_ge, by rw [ha]; exact sub_nonneg.2 hle, by rw [ha]; exact hphi⟩
  have hmL : mapL a = totalL p := by rw [mapL_eq hreg.hphi, ha]; ring
  have hmJ : mapJ0 M b a = J0 := by rw [mapJ0, hmL, ha]; ring
  have hmP := map_par hreg
  have hmj : mapj M b a = j := by rw [mapj, hmJ, hj]
  rw [hmL, hmJ, hmj] at hmP
  have hme : mapEcc M b a = e := by
    have h1 := hmP.sq
    have h2 := hP.sq
    have h3 := hmP.he
    have h4 := hP.he
    have : mapEcc M b a ^ 2 = e ^ 2 := by linarith
    rcases sq_eq_sq_iff_eq_or_eq_neg.1 this with h | h <;> linarith
  have hsi : siOf a = √(1 - (p.R * p.vphi / totalL p) ^ 2) := by rw [siOf, hmL, ha]
  rw [← hsi] at k1 k2 k3
  obtain ⟨psi, hpsi⟩ : ∃ psi, psi = atan2 (r * ct * totalL p) (-(r * st) * vt * r) := ⟨_, rfl⟩
  rw [← hpsi] at k1 k2
  obtain ⟨S, hS⟩ : ∃ S, S = psiS (totalL p) (L1Of M b (totalL p)) J0 j e 0 (η - e * sin η) η := ⟨_, rfl⟩
  have main := evalAngles_eq hr hsc hp hE hJ0 hj he hP hrv hk2 hη hpsi rfl
  rw [← hS] at main
  refine ⟨a, _, ?_, main, ?_⟩
  · rw [evalActions, if_neg (not_le.2 hE), ← hJ0, hJz, ha, max_eq_right hP.J0_ge]
  obtain ⟨t, ht⟩ : ∃ t : Ang, t = ⟨wrap (η - e * sin η), if p.z = 0 ∧ p.vz = 0 then 0 else wrap (psi - S),
    wrap (p.phi - atan2 (r * ct * p.vphi) (-vt * r) + sign (p.R * p.vphi) * wrap (psi - S))⟩ := ⟨_, rfl⟩
  rw [← ht]
  obtain ⟨w0, w1, n, hn⟩ := wrap_spec (η - e * sin η)
  have htr : t.thetar = wrap (η - e * sin η) := by rw [ht]
  have hke : Kepler solve (mapEcc M b a) := by rw [hme]; exact hk e hP.he hP.e1
  have hsol := hke _ w0 w1
  rw [hme] at hsol
  obtain ⟨η2, hη2⟩ : ∃ x, x = solve e (wrap (η - e * sin η)) := ⟨_, rfl⟩
  rw [← hη2] at hsol
  have hηη : η = η2 + n * (2 * π) := by
    refine kepler_inj hP.he hP.e1 ?_
    rw [sin_add_int_mul_two_pi]
    linarith
  obtain ⟨chi, st', c1, c2, c3, c4, r', vr', vt', hr', hvr', hvt', hm⟩ := map_spec (t := t) hreg hke (by rw [htr]; exact w0) (by rw [htr]; exact w1)
  rw [hmJ, hme, htr, ← hη2] at hr' hvr'
  have hmpsi : mapPsi solve M b a t = t.thetaz + S := by
    have := psiS_add (L := totalL p) (J0 := J0) (j := j) (e := e) hP.L1pos.ne' 0 (wrap (η - e * sin η)) η2 n 0
    rw [← hn, ← hηη] at this
    simp only [Int.cast_zero, zero_mul, add_zero] at this
    rw [hS, this, mapPsi, hmL, hmJ, hmj, hme, htr, ← hη2, psiS, psiS]
    ring
  rw [hmpsi] at c2 c3 c4 hvt' hm
  rw [hmL] at hvt'
  have hrr : r' = r := by
    have h1 := hP.rb_eq η2
    rw [← hr'] at h1
    have h2 : rbOf b p = √(b * b + r ^ 2) := by rw [hp, rbOf_sphPoint hr hsc]
    have h3 : cos η = cos η2 := by rw [hηη, cos_add_int_mul_two_pi]
    rw [h2, h3, ← h1] at hrb
    have h4 := congrArg (fun x => x ^ 2) hrb
    rw [sq_sqrt (by positivity), sq_sqrt (by positivity)] at h4
    have h5 : 0 < r' := by rw [hr']; exact (hP.rS_sq _).2
    exact pos_sq h5 hr (by linarith)
  have hvv : vr' = vr := by
    have h3 : sin η = sin η2 := by rw [hηη, sin_add_int_mul_two_pi]
    rw [hvr', ← h3, ← hrv, hrr]; field_simp
  have hLz2 : p.R * p.vphi = a.Jphi := by rw [ha]
  have hpl : siOf a = 0 ↔ (p.z = 0 ∧ p.vz = 0) := by rw [k3, hplan]
  obtain ⟨w2, w3, m, hmm⟩ := wrap_spec (psi - S)
  have hsin : siOf a * sin (t.thetaz + S) = ct := by
    by_cases hc : p.z = 0 ∧ p.vz = 0
    · rw [hpl.2 hc, zero_mul, (hplan.1 hc).1]
    · have : t.thetaz + S = psi + ((-m : ℤ) : ℝ) * (2 * π) := by rw [ht]; simp only [if_neg hc]; push_cast; linarith
      rw [this, sin_add_int_mul_two_pi, k1]
  have hcos : totalL p * siOf a * cos (t.thetaz + S) = -(st * vt * r) := by
    by_cases hc : p.z = 0 ∧ p.vz = 0
    · rw [hpl.2 hc, (hplan.1 hc).2]; ring
    · have : t.thetaz + S = psi + ((-m : ℤ) : ℝ) * (2 * π) := by rw [ht]; simp only [if_neg hc]; push_cast; linarith
      rw [this, cos_add_int_mul_two_pi, k2]
  have hss : st' = st := by
    rw [hsin] at c4
    exact pos_sq c1 hst (by linarith)
  have hvvt : vt' = vt := by
    rw [hvt', hrr, hss, show -totalL p * siOf a * cos (t.thetaz + S) = st * vt * r by linear_combination -hcos]
    field_simp
  obtain ⟨s1, s2, s3⟩ := sign_cases hreg.hphi
  obtain ⟨i1, i2, i3, i4, i5, i6⟩ := incl hreg
  rw [hmL] at i6
  have hphi' : wrap (t.thetaphi + (chi - t.thetaz) * sign a.Jphi) = wrap p.phi := by
    obtain ⟨-, -, k, hk'⟩ := wrap_spec (p.phi - atan2 (r * ct * p.vphi) (-vt * r) + sign a.Jphi * wrap (psi - S))
    have htp : t.thetaphi = wrap (p.phi - atan2 (r * ct * p.vphi) (-vt * r) + sign a.Jphi * wrap (psi - S)) := by rw [ht, ← hLz2]
    rw [← htp] at hk'
    by_cases hc : p.z = 0 ∧ p.vz = 0
    · obtain ⟨h1, h2⟩ := hplan.1 hc
      have e0 : psi = 0 := by rw [hpsi, h1, h2]; simp [atan2, show (⟨0, 0⟩ : ℂ) = 0 from rfl]
      have e1 : atan2 (r * ct * p.vphi) (-vt * r) = 0 := by rw [h1, h2]; simp [atan2, show (⟨0, 0⟩ : ℂ) = 0 from rfl]
      have e2 : t.thetaz = 0 := by rw [ht]; simp only [if_pos hc]
      have hst1 : st = 1 := by rw [h1] at hsc; exact pos_sq hst one_pos (by linarith)
      have hci : ciOf a = 1 := by
        have := hpl.2 hc
        rw [this] at i3
        exact pos_sq i1 one_pos (by linarith)
      rw [hss, hst1, e2] at c2 c3
      rw [hci] at c3
      simp only [one_mul, zero_add] at c2 c3
      obtain ⟨q, hq⟩ := angle_unique c2 c3
      rw [e1, e0] at hk'
      rw [e0] at hmm
      rw [e2]
      rcases s1 with s | s
      · rw [s] at hk' ⊢
        exact wrap_congr (q - m - k) (by push_cast; linarith)
      · rw [s] at hk' ⊢
        exact wrap_congr (m - q - k) (by push_cast; linarith)
    · have hsi0 : 0 < siOf a := lt_of_le_of_ne i2 (fun h => hc (hpl.1 h.symm))
      have hcs : cos (sign a.Jphi * chi) = cos chi := by rcases s1 with s | s <;> rw [s] <;> simp
      have hsn : sin (sign a.Jphi * chi) = sign a.Jphi * sin chi := by rcases s1 with s | s <;> rw [s] <;> simp
      rw [hss] at c2 c3
      have hLz3 : r * st * p.vphi = sign a.Jphi * (ciOf a * totalL p) := by rw [i6, s3, ← hLz, hLz2]
      obtain ⟨q, hq⟩ := atan2_scale (x := -vt * r) (y := r * ct * p.vphi) (r := totalL p * siOf a) (φ := sign a.Jphi * chi) (mul_pos hP.hL hsi0)
        (by rw [hcs]; apply mul_left_cancel₀ hst.ne'; linear_combination -(totalL p * siOf a) * c2 - hcos)
        (by rw [hsn]; apply mul_left_cancel₀ hst.ne'
            linear_combination ct * hLz3 - (totalL p * siOf a * sign a.Jphi) * c3 - (sign a.Jphi * ciOf a * totalL p) * hsin)
      have e2 : t.thetaz = wrap (psi - S) := by rw [ht]; simp only [if_neg hc]
      rw [← e2] at hk'
      exact wrap_congr (q - k) (by push_cast; linarith)
  rw [hm, hphi', hrr, hss, hvv, hvvt, hsin]
  congr 1
  have hpp := hp
  ext
  · rw [hp]; rfl
  · rw [hp]; rfl
  · rfl
  · rw [hp]; rfl
  · rw [hp]; rfl
  · simp only [← hLz2, hLz]; field_simp

end

end Verif.Actions
