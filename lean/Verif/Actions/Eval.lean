import Verif.Actions.Map

/-! evalIsochrone: auxiliary facts -/

namespace Verif.Actions

open Real Verif.Coord Verif.Core

noncomputable section

variable {M b L L1 J0 j e : ℝ} {a : Act} {t : Ang} {solve : ℝ → ℝ → ℝ}

/-- A point described by the spherical radius, the sine and cosine of the polar angle, and the velocity in spherical coordinates -/
def sphPoint (r st ct φ vr vt vφ : ℝ) : PosVelCyl := ⟨r * st, r * ct, φ, vr * st + vt * ct, vr * ct - vt * st, vφ⟩

theorem vCylToSph_sphPoint {r st ct φ vr vt vφ : ℝ} (hr : 0 < r) (h : st ^ 2 + ct ^ 2 = 1) :
    vCylToSph (sphPoint r st ct φ vr vt vφ) = ⟨r, atan2 (r * st) (r * ct), φ, vr, vt, vφ⟩ := by
  have h1 : √((r * st) ^ 2 + (r * ct) ^ 2) = r := by
    rw [show (r * st) ^ 2 + (r * ct) ^ 2 = r ^ 2 by linear_combination r ^ 2 * h, sqrt_sq hr.le]
  simp only [vCylToSph, sphPoint, h1, if_neg hr.ne']
  ext <;> simp only []
  · field_simp
    linear_combination vr * h
  · field_simp
    linear_combination vt * h

/-- Any point outside the z axis may be described in this way -/
theorem exists_sphPoint (p : PosVelCyl) (hR : 0 < p.R) : ∃ r st ct vr vt, 0 < r ∧ 0 < st ∧ st ^ 2 + ct ^ 2 = 1 ∧ p = sphPoint r st ct p.phi vr vt p.vphi := by
  have h0 : 0 < p.R ^ 2 + p.z ^ 2 := by positivity
  have hr := sqrt_pos.2 h0
  have hsq := sq_sqrt h0.le
  set r := √(p.R ^ 2 + p.z ^ 2) with hrd
  refine ⟨r, p.R / r, p.z / r, p.vR * (p.R / r) + p.vz * (p.z / r), p.vR * (p.z / r) - p.vz * (p.R / r), hr, div_pos hR hr, ?_, ?_⟩
  · field_simp; linarith
  · have h1 : (p.R / r) ^ 2 + (p.z / r) ^ 2 = 1 := by field_simp; linarith
    ext <;> simp only [sphPoint]
    · field_simp
    · field_simp
    · linear_combination -p.vR * h1
    · linear_combination -p.vz * h1

section
variable {r st ct φ vr vt vφ : ℝ}

theorem totalL_sphPoint (hr : 0 < r) (h : st ^ 2 + ct ^ 2 = 1) : totalL (sphPoint r st ct φ vr vt vφ) = √(vt ^ 2 + vφ ^ 2) * r := by
  rw [totalL, vCylToSph_sphPoint hr h, LtotalSph]

theorem rbOf_sphPoint (hr : 0 < r) (h : st ^ 2 + ct ^ 2 = 1) : rbOf b (sphPoint r st ct φ vr vt vφ) = √(b * b + r ^ 2) := by
  rw [rbOf, vCylToSph_sphPoint hr h]

theorem energyOf_sphPoint (hr : 0 < r) (h : st ^ 2 + ct ^ 2 = 1) :
    energyOf M b (sphPoint r st ct φ vr vt vφ) = -M / (b + √(b * b + r ^ 2)) + 0.5 * (vr ^ 2 + vt ^ 2 + vφ ^ 2) := by
  rw [energyOf, rbOf_sphPoint hr h, vCylToSph_sphPoint hr h]

theorem core_par {L E rb J0 j : ℝ} (hM : 0 < M) (hb : 0 ≤ b) (hr : 0 < r) (hLp : 0 < L) (hLsq : L ^ 2 = (vt ^ 2 + vφ ^ 2) * r ^ 2) (hrb2 : rb ^ 2 = b ^ 2 + r ^ 2) (hrb0 : b < rb)
    (hEn : E = -M / (b + rb) + 0.5 * (vr ^ 2 + vt ^ 2 + vφ ^ 2)) (hE : E < 0) (hJ0 : J0 = M / √(-2 * E)) (hj : j = M * b / J0 ^ 2) :
    E = -M ^ 2 / (2 * J0 ^ 2) ∧ (r * vr) ^ 2 + (J0 - M * rb / J0) ^ 2 = J0 ^ 2 * ((1 - j) ^ 2 - (L / J0) ^ 2) ∧ j < 1 ∧ 0 < J0 := by
  have h2E : 0 < -2 * E := by linarith
  have hJ : 0 < J0 := by rw [hJ0]; exact div_pos hM (sqrt_pos.2 h2E)
  have hJ2 : J0 ^ 2 = M ^ 2 / (-2 * E) := by rw [hJ0, div_pow, sq_sqrt h2E.le]
  have hE2 : E = -M ^ 2 / (2 * J0 ^ 2) := by rw [hJ2]; field_simp
  have hbrb : 0 < b + rb := by linarith
  have hv2 : vr ^ 2 + (vt ^ 2 + vφ ^ 2) = 2 * (E + M / (b + rb)) := by rw [hEn]; ring
  refine ⟨hE2, ?_, ?_, hJ⟩
  · have h1 : (r * vr) ^ 2 = r ^ 2 * (2 * (E + M / (b + rb))) - L ^ 2 := by rw [hLsq, ← hv2]; ring
    have h2 : r ^ 2 = (rb - b) * (rb + b) := by linear_combination -hrb2
    have h3 : r ^ 2 * (2 * (E + M / (b + rb))) = 2 * M * (rb - b) - (rb ^ 2 - b ^ 2) * (M ^ 2 / J0 ^ 2) := by
      rw [h2, hE2]
      clear hE2 hEn hv2 h1 hJ0 hJ2 hj
      field_simp
      ring
    rw [h1, h3, hj]
    clear hE2 hEn hv2 h1 hJ0 hJ2 hj h3
    field_simp
    ring
  · rw [hj, div_lt_one (by positivity), hJ2, lt_div_iff₀ h2E]
    have h1 : -E < M / (b + rb) := by
      have : 0 < vt ^ 2 + vφ ^ 2 := by
        by_contra hn
        have : L ^ 2 ≤ 0 := by rw [hLsq]; exact mul_nonpos_of_nonpos_of_nonneg (by linarith) (by positivity)
        nlinarith
      nlinarith [sq_nonneg vr]
    have h2 : -E * (b + rb) < M := by rwa [lt_div_iff₀ hbrb] at h1
    have h3 : b * (-2 * E) < M := by nlinarith
    nlinarith

theorem core_par2 {L J0 j k1 k2 : ℝ} (hM : 0 < M) (hb : 0 ≤ b) (hL : 0 < L) (hJ : 0 < J0) (hj : j = M * b / J0 ^ 2) (hkk : k1 ^ 2 + k2 ^ 2 = J0 ^ 2 * ((1 - j) ^ 2 - (L / J0) ^ 2)) (hjlt : j < 1) :
    Par M b L (L1Of M b L) J0 j (√((1 - j) ^ 2 - (L / J0) ^ 2)) ∧ k1 = J0 * √((1 - j) ^ 2 - (L / J0) ^ 2) * sin (atan2 k1 k2) ∧ k2 = J0 * √((1 - j) ^ 2 - (L / J0) ^ 2) * cos (atan2 k1 k2) ∧
      (1 - j) ^ 2 - (L / J0) ^ 2 = √((1 - j) ^ 2 - (L / J0) ^ 2) ^ 2 := by
  have hnn : 0 ≤ (1 - j) ^ 2 - (L / J0) ^ 2 := by
    by_contra hn
    have : J0 ^ 2 * ((1 - j) ^ 2 - (L / J0) ^ 2) < 0 := mul_neg_of_pos_of_neg (by positivity) (by linarith)
    nlinarith [sq_nonneg k1, sq_nonneg k2]
  have hLJ : 0 < (L / J0) ^ 2 := by positivity
  obtain ⟨e, he⟩ : ∃ e, e = √((1 - j) ^ 2 - (L / J0) ^ 2) := ⟨_, rfl⟩
  have he2 : e ^ 2 = (1 - j) ^ 2 - (L / J0) ^ 2 := by rw [he, sq_sqrt hnn]
  have he0 : 0 ≤ e := by rw [he]; exact sqrt_nonneg _
  rw [← he]
  have hlt : e < 1 - j := by nlinarith
  have hrad : √(k2 ^ 2 + k1 ^ 2) = J0 * e := by
    rw [show k2 ^ 2 + k1 ^ 2 = (J0 * e) ^ 2 by rw [mul_pow, he2, ← hkk]; ring]
    exact sqrt_sq (by positivity)
  have hs := sqrt_mul_sin_atan2 k2 k1
  have hc := sqrt_mul_cos_atan2 k2 k1
  rw [hrad] at hs hc
  exact ⟨⟨hM, hb, hL, rfl, hJ, hj, he0, by rw [he2]; ring, hlt⟩, hs.symm, hc.symm, he2.symm⟩

/-- The parameters of the orbit that passes through the given point -/
theorem point_par (hM : 0 < M) (hb : 0 ≤ b) (hr : 0 < r) (h : st ^ 2 + ct ^ 2 = 1) {p : PosVelCyl} (hp : p = sphPoint r st ct φ vr vt vφ) (hE : energyOf M b p < 0) (hv : 0 < vt ^ 2 + vφ ^ 2) :
    ∃ J0 j e η, J0 = J0Of M (energyOf M b p) ∧ j = M * b / J0 ^ 2 ∧ e = √((1 - j) ^ 2 - (totalL p / J0) ^ 2) ∧ Par M b (totalL p) (L1Of M b (totalL p)) J0 j e ∧
      rbOf b p = (1 - e * cos η) * J0 ^ 2 / M ∧ r * vr = J0 * e * sin η ∧ J0 - M * rbOf b p / J0 = J0 * e * cos η ∧ η = atan2 (r * vr) (J0 - M * rbOf b p / J0) ∧
      energyOf M b p = -M ^ 2 / (2 * J0 ^ 2) := by
  have hL : totalL p = √(vt ^ 2 + vφ ^ 2) * r := by rw [hp, totalL_sphPoint hr h]
  have hLp : 0 < totalL p := by rw [hL]; exact mul_pos (sqrt_pos.2 hv) hr
  have hLsq : totalL p ^ 2 = (vt ^ 2 + vφ ^ 2) * r ^ 2 := by rw [hL, mul_pow, sq_sqrt hv.le]
  have hrb : rbOf b p = √(b * b + r ^ 2) := by rw [hp, rbOf_sphPoint hr h]
  have hrb2 : rbOf b p ^ 2 = b ^ 2 + r ^ 2 := by rw [hrb, sq_sqrt (by positivity)]; ring
  have hrb0 : b < rbOf b p := by
    rw [hrb]
    exact lt_sqrt_of_sq_lt (by nlinarith [pow_pos hr 2])
  have hEn : energyOf M b p = -M / (b + rbOf b p) + 0.5 * (vr ^ 2 + vt ^ 2 + vφ ^ 2) := by rw [hrb, hp, energyOf_sphPoint hr h]
  obtain ⟨c1, c2, c3, c4⟩ := core_par hM hb hr hLp hLsq hrb2 hrb0 hEn hE rfl rfl
  obtain ⟨d1, d2, d3, -⟩ := core_par2 hM hb hLp c4 rfl c2 c3
  refine ⟨_, _, _, _, rfl, rfl, rfl, d1, ?_, d2, d3, rfl, c1⟩
  generalize hJ : M / √(-2 * energyOf M b p) = J0 at *
  have hJ' : J0Of M (energyOf M b p) = J0 := hJ
  rw [hJ']
  generalize √((1 - M * b / J0 ^ 2) ^ 2 - (totalL p / J0) ^ 2) = e at *
  generalize atan2 (r * vr) (J0 - M * rbOf b p / J0) = η at *
  have : e * cos η = 1 - M * rbOf b p / J0 ^ 2 := by
    have : J0 * (e * cos η) = J0 * (1 - M * rbOf b p / J0 ^ 2) := by rw [← mul_assoc, ← d3]; field_simp
    exact mul_left_cancel₀ c4.ne' this
  rw [this]
  field_simp
  ring

end

open Classical in
/-- atan(fac*tanhalfeta) -/
theorem atan_code {f ρ η k1 k2 : ℝ} (hf : 0 < f) (hρ : 0 ≤ ρ) (hk1 : k1 = ρ * sin η) (hk2 : k2 = ρ * cos η) (hη : η = atan2 k1 k2) :
    atanFac f (if η = 0 then some 0 else if k1 = 0 then none else some (-k2 / k1 + 1 / (k1 / √(k1 * k1 + k2 * k2)))) = g f η ∧ k1 / √(k1 * k1 + k2 * k2) = sin η := by
  have hmem := atan2_mem k1 k2
  rw [← hη] at hmem
  rcases hρ.eq_or_lt with h0 | h0
  · rw [← h0, zero_mul] at hk1 hk2
    have : η = 0 := by rw [hη, hk1, hk2]; simp [atan2, show (⟨0, 0⟩ : ℂ) = 0 from rfl]
    rw [if_pos this, this, hk1]
    simp [atanFac, g]
  have hsc := sin_sq_add_cos_sq η
  have hsq : √(k1 * k1 + k2 * k2) = ρ := by
    rw [show k1 * k1 + k2 * k2 = ρ ^ 2 by rw [hk1, hk2]; linear_combination ρ ^ 2 * hsc, sqrt_sq h0.le]
  have hs : k1 / √(k1 * k1 + k2 * k2) = sin η := by rw [hsq, hk1]; field_simp
  refine ⟨?_, hs⟩
  rw [hs]
  split_ifs with h1 h2
  · rw [h1]; simp [atanFac, g]
  · have hsin : sin η = 0 := by rw [hk1] at h2; rcases mul_eq_zero.1 h2 with h | h; exacts [absurd h h0.ne', h]
    have hpi : η = π := by
      rcases lt_or_eq_of_le hmem.2 with h | h
      · exact absurd ((sin_eq_zero_iff_of_lt_of_lt hmem.1 h).1 hsin) h1
      · exact h
    rw [atanFac, hpi, g_pi]
  · have hsin : sin η ≠ 0 := by intro h; rw [hk1, h, mul_zero] at h2; exact h2 rfl
    have hlt : η < π := by
      rcases lt_or_eq_of_le hmem.2 with h | h
      · exact h
      · rw [h, sin_pi] at hsin; exact absurd rfl hsin
    have hc1 : 1 + cos η ≠ 0 := by
      intro h
      exact cos_ne_neg_one hmem.1 hlt (by linarith)
    have : -k2 / k1 + 1 / sin η = sin η / (1 + cos η) := by
      rw [hk1, hk2]
      field_simp
      linear_combination -hsc
    rw [this, atanFac, g_arctan hf hmem.1 hlt]

/-- The angles computed by the code -/
theorem evalAngles_eq {p : PosVelCyl} {r st ct φ vr vt vφ η : ℝ} (hr : 0 < r) (h : st ^ 2 + ct ^ 2 = 1) (hp : p = sphPoint r st ct φ vr vt vφ) (hE : energyOf M b p < 0)
    (hJ0 : J0 = J0Of M (energyOf M b p)) (hj : j = M * b / J0 ^ 2) (he : e = √((1 - j) ^ 2 - (totalL p / J0) ^ 2)) (hP : Par M b (totalL p) (L1Of M b (totalL p)) J0 j e)
    (hk1 : r * vr = J0 * e * sin η) (hk2 : J0 - M * rbOf b p / J0 = J0 * e * cos η) (hη : η = atan2 (r * vr) (J0 - M * rbOf b p / J0)) {psi tz : ℝ}
    (hpsi : psi = atan2 (r * ct * totalL p) (-(r * st) * vt * r)) (htz : tz = wrap (psi - psiS (totalL p) (L1Of M b (totalL p)) J0 j e 0 (η - e * sin η) η)) :
    evalAngles M b p = some ⟨wrap (η - e * sin η), if p.z = 0 ∧ p.vz = 0 then 0 else tz, wrap (φ - atan2 (r * ct * vφ) (-vt * r) + sign (p.R * p.vphi) * tz)⟩ := by
  have hsph : vCylToSph p = ⟨r, atan2 (r * st) (r * ct), φ, vr, vt, vφ⟩ := by rw [hp, vCylToSph_sphPoint hr h]
  have hR : p.R = r * st := by rw [hp]; rfl
  have hz : p.z = r * ct := by rw [hp]; rfl
  have hJp := hP.hJ
  obtain ⟨a1, a2⟩ := atan_code (f := Par.f1 J0 (totalL p) j e) hP.f1pos (mul_nonneg hP.hJ.le hP.he) hk1 hk2 hη
  obtain ⟨b1, -⟩ := atan_code (f := Par.f2 J0 (L1Of M b (totalL p)) j e) hP.f2pos (mul_nonneg hP.hJ.le hP.he) hk1 hk2 hη
  have hmem := atan2_mem (r * vr) (J0 - M * rbOf b p / J0)
  rw [← hη] at hmem
  rw [a2] at a1 b1
  unfold Par.f1 at a1
  unfold Par.f2 at b1
  have htr : wrap (η - e * sin η) - (if η < 0 then 2 * π else 0) = η - e * sin η := by
    have hpi := pi_pos
    split_ifs with hn
    · have h1 : η - e * sin η < 0 := by
        by_contra hc
        have := kepler_range hP.he hP.e1 rfl (not_lt.1 hc) (x := η) (by
          by_contra hc2
          have := kepler_mono (x := π) (y := η) hP.he hP.e1 (by rw [sin_pi]; linarith)
          linarith)
        linarith
      have h2 : -π < η - e * sin η := by
        by_contra hc
        rcases (not_lt.1 hc).eq_or_lt with hc | hc
        · have := kepler_inj (x := η) (y := -π) hP.he hP.e1 (by rw [sin_neg, sin_pi]; linarith)
          linarith [hmem.1]
        · have := kepler_mono (x := η) (y := -π) hP.he hP.e1 (by rw [sin_neg, sin_pi]; linarith)
          linarith [hmem.1]
      rw [wrap_unique (-1) (y := η - e * sin η + 2 * π) (by push_cast; ring) (by linarith) (by linarith)]
      ring
    · have h1 : 0 ≤ η - e * sin η := by
        by_contra hc
        have := kepler_mono (x := η) (y := 0) hP.he hP.e1 (by rw [sin_zero]; linarith)
        linarith
      have h2 : η - e * sin η < 2 * π := by
        by_contra hc
        have := kepler_mono (x := π) (y := η) hP.he hP.e1 (by rw [sin_pi]; linarith)
        linarith [hmem.2]
      rw [wrap_self h1 h2]; ring
  rw [evalAngles, if_neg (not_le.2 hE)]
  simp only [hsph, ← hJ0, ← hj, ← he, ← hη, a2, hR, hz]
  rw [mul_comm (sin η) e, a1, b1, htr, ← hpsi]
  have htz' : wrap (psi + 0.5 * (1 + totalL p / L1Of M b (totalL p)) * (η - e * sin η) - g ((1 + e - j) * J0 / totalL p) η - g ((1 + e + j) * J0 / L1Of M b (totalL p)) η * totalL p / L1Of M b (totalL p)) = tz := by
    rw [htz, psiS]
    congr 1
    rw [Par.f1, Par.f2]
    ring
  rw [htz']

end

end Verif.Actions
