import Verif.Actions.Iso

/-! mapIsochrone: the mapped point -/

namespace Verif.Actions

open Real Verif.Coord Verif.Core

noncomputable section

variable {M b : ℝ} {a : Act} {t : Ang} {solve : ℝ → ℝ → ℝ}

/-- Regular actions: non-negative radial and vertical ones, non-zero azimuthal one -/
structure Regular (M b : ℝ) (a : Act) : Prop where
  hM : 0 < M
  hb : 0 ≤ b
  hr : 0 ≤ a.Jr
  hz : 0 ≤ a.Jz
  hphi : a.Jphi ≠ 0

/-- solveKepler in exact arithmetic, for phases in the basic interval -/
def Kepler (solve : ℝ → ℝ → ℝ) (e : ℝ) : Prop := ∀ phase, 0 ≤ phase → phase < 2 * π → solve e phase - e * sin (solve e phase) = phase

def mapj (M b : ℝ) (a : Act) : ℝ := M * b / mapJ0 M b a ^ 2

theorem mapL_eq (h : a.Jphi ≠ 0) : mapL a = a.Jz + |a.Jphi| := by rw [mapL, (sign_cases h).2.1]

theorem map_par (h : Regular M b a) : Par M b (mapL a) (L1Of M b (mapL a)) (mapJ0 M b a) (mapj M b a) (mapEcc M b a) := by
  obtain ⟨hM, hb, hr, hz, hphi⟩ := h
  have hL : 0 < mapL a := by rw [mapL_eq hphi]; have := abs_pos.2 hphi; linarith
  set L := mapL a with hLd
  have hL1 : 0 < L1Of M b L := by rw [L1Of]; exact sqrt_pos.2 (by positivity)
  have hL1sq : L1Of M b L ^ 2 = L ^ 2 + 4 * M * b := by rw [L1Of, sq_sqrt (by positivity)]; ring
  have hLL : L ≤ L1Of M b L := by
    rw [L1Of]
    refine le_sqrt_of_sq_le ?_
    have : 0 ≤ 4 * M * b := by positivity
    nlinarith
  have hJ : 0 < mapJ0 M b a := by rw [mapJ0, ← hLd]; linarith
  have hJd : a.Jr = mapJ0 M b a - 0.5 * (L + L1Of M b L) := by rw [mapJ0, ← hLd]; ring
  have hjm : mapj M b a * mapJ0 M b a ^ 2 = M * b := by rw [mapj]; field_simp
  have hj0 : 0 ≤ mapj M b a := by rw [mapj]; positivity
  set e0 := √(a.Jr * (a.Jr + L) * (a.Jr + L1Of M b L) * (a.Jr + L + L1Of M b L)) / mapJ0 M b a ^ 2 with he0
  have he0n : 0 ≤ e0 := by rw [he0]; positivity
  have hsq : (1 - mapj M b a) ^ 2 - e0 ^ 2 = (L / mapJ0 M b a) ^ 2 := by
    rw [he0, div_pow, sq_sqrt (by positivity), hJd]
    have hMb : M * b = (L1Of M b L ^ 2 - L ^ 2) / 4 := by rw [hL1sq]; ring
    rw [mapj, hMb]
    generalize mapJ0 M b a = J at *
    generalize L1Of M b L = K at *
    field_simp
    ring
  have hpos : 0 < 1 - mapj M b a := by
    have h1 : M * b < mapJ0 M b a ^ 2 := by
      have : M * b = (L1Of M b L ^ 2 - L ^ 2) / 4 := by rw [hL1sq]; ring
      have h2 : 0.5 * (L + L1Of M b L) ≤ mapJ0 M b a := by linarith
      nlinarith
    rw [← hjm] at h1
    have : mapj M b a < 1 := by
      by_contra hn
      nlinarith [sq_nonneg (mapJ0 M b a)]
    linarith
  have hlt : e0 < 1 - mapj M b a := by
    have : 0 < (L / mapJ0 M b a) ^ 2 := by positivity
    nlinarith
  have hmin : mapEcc M b a = e0 := by
    rw [mapEcc, ← hLd]
    exact min_eq_left (by linarith)
  rw [hmin]
  exact ⟨hM, hb, hL, rfl, hJ, rfl, he0n, hsq, hlt⟩

theorem kepler_range {e x p : ℝ} (h0 : 0 ≤ e) (h1 : e < 1) (h : x - e * sin x = p) (hp0 : 0 ≤ p) (hp1 : p < 2 * π) : 0 ≤ x ∧ x < 2 * π := by
  constructor
  · by_contra hn
    rcases hp0.eq_or_lt with h2 | h2
    · have := kepler_inj (x := x) (y := 0) h0 h1 (by simp; linarith)
      linarith
    · have := kepler_mono (x := 0) (y := x) h0 h1 (by simp; linarith)
      linarith
  · exact kepler_mono h0 h1 (by simp; linarith)

theorem cos_ne_neg_one {x : ℝ} (h0 : -π < x) (h1 : x < π) : cos x ≠ -1 := by
  intro h
  have hc : 0 < cos (x / 2) := cos_pos_of_mem_Ioo ⟨by linarith, by linarith⟩
  have : cos x = 2 * cos (x / 2) ^ 2 - 1 := by rw [← cos_two_mul]; congr 1; ring
  nlinarith

open Classical in
theorem psi_code {L L1 J0 j e η : ℝ} (hf1 : 0 < Par.f1 J0 L j e) (hf2 : 0 < Par.f2 J0 L1 j e) (hL1 : L1 ≠ 0) (h0 : 0 ≤ η) (h1 : η < 2 * π) (tz tr : ℝ) :
    tz - (0.5 + 0.5 * L / L1) * (tr - (if η > π then 2 * π else 0)) + atanFac (Par.f1 J0 L j e) (if cos η = -1 then none else some (sin η / (1 + cos η))) +
      atanFac (Par.f2 J0 L1 j e) (if cos η = -1 then none else some (sin η / (1 + cos η))) * L / L1 = psiS L L1 J0 j e tz tr η := by
  have hp := pi_pos
  rcases lt_trichotomy η π with h | h | h
  · rw [if_neg (by linarith), if_neg (cos_ne_neg_one (by linarith) h), atanFac, atanFac, g_arctan hf1 (by linarith) h, g_arctan hf2 (by linarith) h, psiS]
    ring
  · subst h
    rw [if_neg (by linarith), if_pos cos_pi, atanFac, atanFac, psiS, g_pi, g_pi]
    ring
  · have hs : sin η = sin (η - 2 * π) := (sin_sub_two_pi η).symm
    have hc : cos η = cos (η - 2 * π) := (cos_sub_two_pi η).symm
    have k1 : ∀ f, g f (η - 2 * π) = g f η - π := fun f => by
      have := g_add f η (-1)
      push_cast at this
      rw [show η - 2 * π = η + -1 * (2 * π) by ring, this]; ring
    rw [if_pos h, hs, hc, if_neg (cos_ne_neg_one (by linarith) (by linarith)), atanFac, atanFac, g_arctan hf1 (by linarith) (by linarith), g_arctan hf2 (by linarith) (by linarith),
      k1, k1, psiS]
    field_simp
    ring

/-- The inclination -/
def ciOf (a : Act) : ℝ := |a.Jphi| / mapL a
def siOf (a : Act) : ℝ := √(1 - (a.Jphi / mapL a) ^ 2)

theorem incl (h : Regular M b a) : 0 < ciOf a ∧ 0 ≤ siOf a ∧ ciOf a ^ 2 + siOf a ^ 2 = 1 ∧ (a.Jz = 0 → ciOf a = 1 ∧ siOf a = 0) ∧ (0 < a.Jz → 0 < siOf a) ∧ ciOf a * mapL a = |a.Jphi| := by
  have hL := (map_par h).hL
  have hp := abs_pos.2 h.hphi
  have hz := h.hz
  have hLe := mapL_eq h.hphi
  have hci : 0 < ciOf a := div_pos hp hL
  have hsq : (a.Jphi / mapL a) ^ 2 = ciOf a ^ 2 := by rw [ciOf, div_pow, div_pow, sq_abs]
  have hle : ciOf a ≤ 1 := by rw [ciOf, div_le_one hL]; linarith
  have hs : siOf a ^ 2 = 1 - ciOf a ^ 2 := by rw [siOf, hsq, sq_sqrt (by nlinarith)]
  refine ⟨hci, sqrt_nonneg _, by linarith, fun h0 => ?_, fun h0 => ?_, ?_⟩
  · have : ciOf a = 1 := by rw [ciOf, hLe, h0, zero_add, div_self hp.ne']
    exact ⟨this, by rw [siOf, hsq, this]; simp⟩
  · have : ciOf a < 1 := by rw [ciOf, div_lt_one hL]; linarith
    rw [siOf, hsq]
    exact sqrt_pos.2 (by nlinarith)
  · rw [ciOf]; field_simp

/-- The phase of the mapped point -/
def mapPsi (solve : ℝ → ℝ → ℝ) (M b : ℝ) (a : Act) (t : Ang) : ℝ :=
  psiS (mapL a) (L1Of M b (mapL a)) (mapJ0 M b a) (mapj M b a) (mapEcc M b a) t.thetaz t.thetar (solve (mapEcc M b a) t.thetar)

theorem map_spec (h : Regular M b a) (hk : Kepler solve (mapEcc M b a)) (h0 : 0 ≤ t.thetar) (h1 : t.thetar < 2 * π) :
    ∃ chi st, 0 < st ∧ st * cos chi = cos (mapPsi solve M b a t) ∧ st * sin chi = ciOf a * sin (mapPsi solve M b a t) ∧ st ^ 2 + (siOf a * sin (mapPsi solve M b a t)) ^ 2 = 1 ∧
      ∃ r vr vt, r = rS M b (mapJ0 M b a) (mapEcc M b a) (solve (mapEcc M b a) t.thetar) ∧ vr = mapJ0 M b a * mapEcc M b a * sin (solve (mapEcc M b a) t.thetar) / r ∧
        vt = -mapL a * siOf a * cos (mapPsi solve M b a t) / (r * st) ∧
      mapIsochrone solve M b a t = some ⟨r * st, r * (siOf a * sin (mapPsi solve M b a t)), wrap (t.thetaphi + (chi - t.thetaz) * sign a.Jphi),
        vr * st + vt * (siOf a * sin (mapPsi solve M b a t)), vr * (siOf a * sin (mapPsi solve M b a t)) - vt * st, a.Jphi / (r * st)⟩ := by
  have hP := map_par h
  obtain ⟨i1, i2, i3, i4, i5, i6⟩ := incl h
  obtain ⟨r0, r1⟩ := kepler_range hP.he hP.e1 (hk _ h0 h1) h0 h1
  set ψ := mapPsi solve M b a t with hψ
  set st := √(1 - (siOf a * sin ψ) ^ 2) with hst
  have hsc := sin_sq_add_cos_sq ψ
  have e1 : 1 - (siOf a * sin ψ) ^ 2 = cos ψ ^ 2 + (ciOf a * sin ψ) ^ 2 := by
    have : siOf a ^ 2 = 1 - ciOf a ^ 2 := by linarith
    rw [mul_pow, mul_pow, this]; linear_combination -hsc
  have e2 : 0 < cos ψ ^ 2 + (ciOf a * sin ψ) ^ 2 := by
    by_contra hn
    have hc : cos ψ = 0 := by nlinarith [sq_nonneg (cos ψ), sq_nonneg (ciOf a * sin ψ)]
    have hs' : ciOf a * sin ψ = 0 := by nlinarith [sq_nonneg (cos ψ), sq_nonneg (ciOf a * sin ψ)]
    have hs : sin ψ = 0 := by rcases mul_eq_zero.1 hs' with hh | hh <;> linarith
    rw [hc, hs] at hsc; norm_num at hsc
  have hstp : 0 < st := by rw [hst, e1]; exact sqrt_pos.2 e2
  have hst2 : st ^ 2 = cos ψ ^ 2 + (ciOf a * sin ψ) ^ 2 := by rw [hst, e1, sq_sqrt e2.le]
  set chi : ℝ := if a.Jz ≠ 0 then atan2 (sign a.Jphi * a.Jphi * sin ψ) (mapL a * cos ψ) else ψ with hchi
  refine ⟨chi, st, hstp, ?_, ?_, by rw [hst2, ← e1]; ring, _, _, _, rfl, rfl, rfl, ?_⟩
  · rw [hchi]
    split_ifs with hz
    · have e3 : √((mapL a * cos ψ) ^ 2 + (sign a.Jphi * a.Jphi * sin ψ) ^ 2) = mapL a * st := by
        rw [(sign_cases h.hphi).2.1, ← i6, show (mapL a * cos ψ) ^ 2 + (ciOf a * mapL a * sin ψ) ^ 2 = (mapL a * st) ^ 2 by rw [mul_pow _ st, hst2]; ring]
        exact sqrt_sq (mul_pos hP.hL hstp).le
      have hne := (mul_pos hP.hL hstp).ne'
      rw [cos_atan2 _ _ (by rw [e3]; exact hne), e3]
      have := hP.hL
      field_simp
    · obtain ⟨j1, j2⟩ := i4 (not_not.1 hz)
      have : st = 1 := by rw [hst, j2]; simp
      rw [this, one_mul]
  · rw [hchi]
    split_ifs with hz
    · have e3 : √((mapL a * cos ψ) ^ 2 + (sign a.Jphi * a.Jphi * sin ψ) ^ 2) = mapL a * st := by
        rw [(sign_cases h.hphi).2.1, ← i6, show (mapL a * cos ψ) ^ 2 + (ciOf a * mapL a * sin ψ) ^ 2 = (mapL a * st) ^ 2 by rw [mul_pow _ st, hst2]; ring]
        exact sqrt_sq (mul_pos hP.hL hstp).le
      have hne := (mul_pos hP.hL hstp).ne'
      rw [sin_atan2 _ _ (by rw [e3]; exact hne), e3, (sign_cases h.hphi).2.1, ← i6]
      have := hP.hL
      field_simp
    · obtain ⟨j1, j2⟩ := i4 (not_not.1 hz)
      have : st = 1 := by rw [hst, j2]; simp
      rw [this, one_mul, j1, one_mul]
  · have hneg : ¬ (a.Jr < 0 ∨ a.Jz < 0) := by have := h.hr; have := h.hz; push Not; constructor <;> linarith
    have hpsi := psi_code (L := mapL a) (L1 := L1Of M b (mapL a)) (J0 := mapJ0 M b a) (j := mapj M b a) hP.f1pos hP.f2pos hP.L1pos.ne' r0 r1 t.thetaz t.thetar
    have hr : √(max 0 (((1 - mapEcc M b a * cos (solve (mapEcc M b a) t.thetar)) * mapJ0 M b a * mapJ0 M b a / M) ^ 2 - b * b)) = rS M b (mapJ0 M b a) (mapEcc M b a) (solve (mapEcc M b a) t.thetar) := by
      rw [rS]
      congr 1
      refine max_eq_right ?_
      by_contra hn
      have := (hP.rS_sq (solve (mapEcc M b a) t.thetar)).2
      rw [rS, sqrt_eq_zero_of_nonpos (by linarith)] at this
      exact lt_irrefl _ this
    rw [mapIsochrone, if_neg hneg]
    simp only [mapLL1]
    unfold Par.f1 Par.f2 mapj at hpsi
    rw [hpsi, hr]
    rfl

end

end Verif.Actions
