import Verif.Actions.Motion

/-! mapIsochrone: the image of uniformly growing angles is an orbit in the isochrone potential; C90 -/

namespace Verif.Actions

open Real Verif.Coord Verif.Core Verif.Pot

noncomputable section

variable {M b L L1 J0 j e : ℝ} {a : Act} {t : Ang} {solve : ℝ → ℝ → ℝ}

/-! ### Specification -/

/-- The isochrone potential -/
def isochronePot (M b : ℝ) (p : PosCar) : ℝ := -M / (b + √(b ^ 2 + (p.x ^ 2 + p.y ^ 2 + p.z ^ 2)))

/-- The curve obeys the equations of motion in the given potential: the velocity is the derivative of the position, and the derivative of the velocity is minus the gradient of the potential -/
def Motion (F : PosCar → ℝ) (q : ℝ → PosVelCar) : Prop := ∀ T,
  (HasDerivAt (fun T => (q T).x) (q T).vx T ∧ HasDerivAt (fun T => (q T).y) (q T).vy T ∧ HasDerivAt (fun T => (q T).z) (q T).vz T) ∧
  ∃ g, IsGradCar F (q T).pos g ∧ HasDerivAt (fun T => (q T).vx) (-g.dx) T ∧ HasDerivAt (fun T => (q T).vy) (-g.dy) T ∧ HasDerivAt (fun T => (q T).vz) (-g.dz) T

/-! ### Proof -/

theorem planar {r vr ψ : ℝ → ℝ} {L acc T : ℝ} (hr0 : r T ≠ 0) (hr : HasDerivAt r (vr T) T) (hψ : HasDerivAt ψ (L / r T ^ 2) T) (hvr : HasDerivAt vr (L ^ 2 / r T ^ 3 - acc) T) (A B : ℝ) :
    HasDerivAt (fun T => r T * (A * cos (ψ T) + B * sin (ψ T))) (vr T * (A * cos (ψ T) + B * sin (ψ T)) + L / r T * (-A * sin (ψ T) + B * cos (ψ T))) T ∧
    HasDerivAt (fun T => vr T * (A * cos (ψ T) + B * sin (ψ T)) + L / r T * (-A * sin (ψ T) + B * cos (ψ T))) (-(acc * (A * cos (ψ T) + B * sin (ψ T)))) T := by
  have h1 : HasDerivAt (fun T => A * cos (ψ T) + B * sin (ψ T)) ((-A * sin (ψ T) + B * cos (ψ T)) * (L / r T ^ 2)) T := by
    have := (hψ.cos.const_mul A).add (hψ.sin.const_mul B)
    exact this.congr_deriv (by ring)
  have h2 : HasDerivAt (fun T => -A * sin (ψ T) + B * cos (ψ T)) (-(A * cos (ψ T) + B * sin (ψ T)) * (L / r T ^ 2)) T := by
    have := (hψ.sin.const_mul (-A)).add (hψ.cos.const_mul B)
    exact this.congr_deriv (by ring)
  have h3 : HasDerivAt (fun T => L / r T) (-(L * vr T) / r T ^ 2) T := by
    have := (hasDerivAt_const T L).div hr hr0
    exact this.congr_deriv (by ring)
  constructor
  · exact (hr.mul h1).congr_deriv (by field_simp)
  · refine ((hvr.mul h1).add (h3.mul h2)).congr_deriv ?_
    field_simp
    ring

section
variable {η : ℝ → ℝ} {T : ℝ}

theorem Par.r_deriv (h : Par M b L L1 J0 j e) (hη : HasDerivAt η (M ^ 2 / J0 ^ 3 / (1 - e * cos (η T))) T) :
    HasDerivAt (fun T => rS M b J0 e (η T)) (J0 * e * sin (η T) / rS M b J0 e (η T)) T := by
  have hM := h.hM
  have hJ := h.hJ
  obtain ⟨hsq, hpos⟩ := h.rS_sq (η T)
  have hra : 0 < 1 - e * cos (η T) := by linarith [h.ra_j (η T), h.j0]
  have h1 : HasDerivAt (fun T => ((1 - e * cos (η T)) * J0 * J0 / M) ^ 2 - b * b) (2 * (J0 * e * sin (η T))) T := by
    have h2 : HasDerivAt (fun T => (1 - e * cos (η T)) * J0 * J0 / M) (e * sin (η T) * (M ^ 2 / J0 ^ 3 / (1 - e * cos (η T))) * J0 * J0 / M) T := by
      have := (((hη.cos.const_mul e).const_sub 1).mul_const J0 |>.mul_const J0).div_const M
      exact this.congr_deriv (by ring)
    refine ((h2.pow 2).sub_const _).congr_deriv ?_
    generalize 1 - e * cos (η T) = ra at *
    push_cast
    field_simp
  have h0 : ((1 - e * cos (η T)) * J0 * J0 / M) ^ 2 - b * b ≠ 0 := by
    intro h0
    rw [rS, h0, sqrt_zero] at hpos
    exact lt_irrefl _ hpos
  refine (h1.sqrt h0).congr_deriv ?_
  rw [rS]
  rw [rS] at hpos
  field_simp

theorem Par.rb_eq (h : Par M b L L1 J0 j e) (x : ℝ) : √(rS M b J0 e x ^ 2 + b ^ 2) = (1 - e * cos x) * J0 ^ 2 / M := by
  have hM := h.hM
  have hJ := h.hJ
  have hra : 0 < 1 - e * cos x := by linarith [h.ra_j x, h.j0]
  have hb : b = j * J0 ^ 2 / M := by rw [h.jm]; field_simp
  have : rS M b J0 e x ^ 2 + b ^ 2 = ((1 - e * cos x) * J0 ^ 2 / M) ^ 2 := by
    rw [(h.rS_sq x).1, hb]; field_simp; ring
  rw [this, sqrt_sq (by positivity)]

theorem Par.vr_deriv (h : Par M b L L1 J0 j e) (hη : HasDerivAt η (M ^ 2 / J0 ^ 3 / (1 - e * cos (η T))) T) :
    HasDerivAt (fun T => J0 * e * sin (η T) / rS M b J0 e (η T)) (L ^ 2 / rS M b J0 e (η T) ^ 3 - (isochrone M b (rS M b J0 e (η T))).der) T := by
  have hM := h.hM
  have hJ := h.hJ
  have hr := h.r_deriv hη
  obtain ⟨hsq, hpos⟩ := h.rS_sq (η T)
  have hraj := h.ra_j (η T)
  have hj := h.j0
  have hra : 0 < 1 - e * cos (η T) := by linarith
  refine ((hη.sin.const_mul (J0 * e)).div hr hpos.ne').congr_deriv ?_
  rw [isochrone]
  simp only
  rw [h.rb_eq]
  have hb : b = j * J0 ^ 2 / M := by rw [h.jm]; field_simp
  have hLsq : L ^ 2 = J0 ^ 2 * ((1 - j) ^ 2 - e ^ 2) := by rw [h.sq, div_pow]; field_simp
  have hsc := sin_sq_add_cos_sq (η T)
  generalize hr' : rS M b J0 e (η T) = r at *
  have e1 : b + (1 - e * cos (η T)) * J0 ^ 2 / M = J0 ^ 2 / M * (1 - e * cos (η T) + j) := by rw [hb]; ring
  rw [e1]
  have hs2 : sin (η T) ^ 2 = 1 - cos (η T) ^ 2 := by linarith
  have hp2 : 0 < 1 - e * cos (η T) + j := by linarith
  have hec : e * cos (η T) = 1 - (1 - e * cos (η T)) := by ring
  have e2 : J0 * e * (cos (η T) * (M ^ 2 / J0 ^ 3 / (1 - e * cos (η T)))) = (1 - (1 - e * cos (η T))) * (M ^ 2 / J0 ^ 2 / (1 - e * cos (η T))) := by field_simp; ring
  have e3 : J0 * e * sin (η T) * (J0 * e * sin (η T) / r) = J0 ^ 2 * (e ^ 2 - (1 - (1 - e * cos (η T))) ^ 2) / r := by
    have : (J0 * e * sin (η T)) * (J0 * e * sin (η T)) = J0 ^ 2 * (e ^ 2 - (1 - (1 - e * cos (η T))) ^ 2) := by
      linear_combination J0 ^ 2 * e ^ 2 * hs2
    rw [mul_div_assoc', this]
  rw [e2, e3, hLsq]
  generalize 1 - e * cos (η T) = ra at *
  field_simp
  have hsq' : r ^ 2 * M ^ 2 = J0 ^ 4 * ((ra - j) * (ra + j)) := by rw [hsq]; field_simp
  have h4 : r ^ 4 * M ^ 4 = (J0 ^ 4 * ((ra - j) * (ra + j))) ^ 2 := by rw [← hsq']; ring
  linear_combination (J0 ^ 4 * (1 - ra) * (ra + j) ^ 2) * hsq' + h4

theorem Par.psi_deriv (h : Par M b L L1 J0 j e) (hη : HasDerivAt η (M ^ 2 / J0 ^ 3 / (1 - e * cos (η T))) T) {tz tr : ℝ → ℝ}
    (htr : HasDerivAt tr (M ^ 2 / J0 ^ 3) T) (htz : HasDerivAt tz (M ^ 2 / J0 ^ 3 * (0.5 + 0.5 * L / L1)) T) :
    HasDerivAt (fun T => psiS L L1 J0 j e (tz T) (tr T) (η T)) (L / rS M b J0 e (η T) ^ 2) T := by
  have hM := h.hM
  have hJ := h.hJ
  have hL1 := h.L1pos
  have hraj := h.ra_j (η T)
  have hj := h.j0
  have hra : 0 < 1 - e * cos (η T) := by linarith
  have hp2 : 0 < 1 - e * cos (η T) + j := by linarith
  have h1 := (h.g1_deriv (η T)).comp T hη
  have h2 := (h.g2_deriv (η T)).comp T hη
  have h3 := ((htz.sub (htr.const_mul (0.5 + 0.5 * L / L1))).add h1).add ((h2.mul_const L).div_const L1)
  refine h3.congr_deriv ?_
  rw [(h.rS_sq (η T)).1]
  generalize 1 - e * cos (η T) = ra at *
  have hq : 0 < ra - j := hraj
  have hq2 : 0 < ra + j := hp2
  generalize hx : ra - j = x at *
  generalize hy : ra + j = y at *
  have : ra = (x + y) / 2 := by linarith
  rw [this] at hra ⊢
  field_simp
  ring

/-- The orbit as a function of time -/
theorem Par.motion (h : Par M b L L1 J0 j e) (hη : ∀ T, HasDerivAt η (M ^ 2 / J0 ^ 3 / (1 - e * cos (η T))) T) {tz tr : ℝ → ℝ}
    (htr : ∀ T, HasDerivAt tr (M ^ 2 / J0 ^ 3) T) (htz : ∀ T, HasDerivAt tz (M ^ 2 / J0 ^ 3 * (0.5 + 0.5 * L / L1)) T) {s ci si φ0 : ℝ} (hs : s ^ 2 = 1) (hci : ci ^ 2 + si ^ 2 = 1)
    {q : ℝ → PosVelCar}
    (hq : ∀ T, q T = carPoint s ci si φ0 (rS M b J0 e (η T)) (J0 * e * sin (η T) / rS M b J0 e (η T)) (L / rS M b J0 e (η T)) (psiS L L1 J0 j e (tz T) (tr T) (η T))) :
    Motion (isochronePot M b) q := by
  intro T
  have hpos := (h.rS_sq (η T)).2
  have P := planar (r := fun T => rS M b J0 e (η T)) (vr := fun T => J0 * e * sin (η T) / rS M b J0 e (η T)) (ψ := fun T => psiS L L1 J0 j e (tz T) (tr T) (η T)) (L := L)
    (acc := (isochrone M b (rS M b J0 e (η T))).der) (T := T) hpos.ne' (h.r_deriv (hη T)) (h.psi_deriv (hη T) (htr T) (htz T)) (h.vr_deriv (hη T))
  have hqf : q = fun T => _ := funext hq
  rw [hqf]
  refine ⟨⟨(P _ _).1, (P _ _).1, (P _ _).1⟩, ?_⟩
  have hrad : ∀ ψ r : ℝ, 0 < r → √((r * (cos φ0 * cos ψ + -(s * ci * sin φ0) * sin ψ)) ^ 2 + (r * (sin φ0 * cos ψ + s * ci * cos φ0 * sin ψ)) ^ 2 + (r * (0 * cos ψ + si * sin ψ)) ^ 2) = r := by
    intro ψ r hr
    have h1 := sin_sq_add_cos_sq ψ
    have h2 := sin_sq_add_cos_sq φ0
    have : (r * (cos φ0 * cos ψ + -(s * ci * sin φ0) * sin ψ)) ^ 2 + (r * (sin φ0 * cos ψ + s * ci * cos φ0 * sin ψ)) ^ 2 + (r * (0 * cos ψ + si * sin ψ)) ^ 2 = r ^ 2 := by
      linear_combination r ^ 2 * (cos ψ ^ 2 + s ^ 2 * ci ^ 2 * sin ψ ^ 2) * h2 + r ^ 2 * ci ^ 2 * sin ψ ^ 2 * hs + r ^ 2 * sin ψ ^ 2 * hci + r ^ 2 * h1
    rw [this, sqrt_sq hr.le]
  set p : PosCar := (carPoint s ci si φ0 (rS M b J0 e (η T)) (J0 * e * sin (η T) / rS M b J0 e (η T)) (L / rS M b J0 e (η T)) (psiS L L1 J0 j e (tz T) (tr T) (η T))).pos with hp
  have hpr : √(p.x ^ 2 + p.y ^ 2 + p.z ^ 2) = rS M b J0 e (η T) := hrad _ _ hpos
  have hg := (C62_sph_car (isochrone M b) p (by rw [hpr]; exact hpos.ne') (by rw [hpr]; exact C62_isochrone M b _ h.hb (by have := h.hb; positivity))).1
  rw [hpr] at hg
  have hpot : ofRadiusCar (fun r => (isochrone M b r).pot) = isochronePot M b := by
    funext p
    simp only [ofRadiusCar, isochrone, isochronePot]
    rw [sq_sqrt (by positivity), add_comm (p.x ^ 2 + p.y ^ 2 + p.z ^ 2)]
  rw [hpot] at hg
  have gx : ∀ d, sphGradCar d p = ⟨p.x / rS M b J0 e (η T) * d, p.y / rS M b J0 e (η T) * d, p.z / rS M b J0 e (η T) * d⟩ := fun d => by
    simp only [sphGradCar, hpr, if_neg hpos.ne']
  have hx : ∀ u, rS M b J0 e (η T) * u / rS M b J0 e (η T) = u := fun u => by field_simp
  rw [gx] at hg
  refine ⟨_, hg, ?_, ?_, ?_⟩
  · refine (P (cos φ0) (-(s * ci * sin φ0))).2.congr_deriv ?_
    show _ = -(rS M b J0 e (η T) * (cos φ0 * cos (psiS L L1 J0 j e (tz T) (tr T) (η T)) + -(s * ci * sin φ0) * sin (psiS L L1 J0 j e (tz T) (tr T) (η T))) / rS M b J0 e (η T) * _)
    rw [hx, mul_comm]
  · refine (P (sin φ0) (s * ci * cos φ0)).2.congr_deriv ?_
    show _ = -(rS M b J0 e (η T) * (sin φ0 * cos (psiS L L1 J0 j e (tz T) (tr T) (η T)) + s * ci * cos φ0 * sin (psiS L L1 J0 j e (tz T) (tr T) (η T))) / rS M b J0 e (η T) * _)
    rw [hx, mul_comm]
  · refine (P 0 si).2.congr_deriv ?_
    show _ = -(rS M b J0 e (η T) * (0 * cos (psiS L L1 J0 j e (tz T) (tr T) (η T)) + si * sin (psiS L L1 J0 j e (tz T) (tr T) (η T))) / rS M b J0 e (η T) * _)
    rw [hx, mul_comm]

end

/-- C90. The point with constant actions and with angles which grow uniformly in time, with the frequencies reported by the code, moves according to the equations of motion in the isochrone
potential. -/
theorem C90_motion (h : Regular M b a) (hk : Kepler solve (mapEcc M b a)) (t : Ang) {Ω : Freq} (hΩ : mapFreq M b a = some Ω) :
    ∃ q : ℝ → PosVelCyl, (∀ T, mapIsochrone solve M b a ⟨wrap (t.thetar + Ω.Omegar * T), wrap (t.thetaz + Ω.Omegaz * T), wrap (t.thetaphi + Ω.Omegaphi * T)⟩ = some (q T)) ∧
      Motion (isochronePot M b) fun T => vCylToCar (q T) := by
  have hP := map_par h
  obtain ⟨E, hE⟩ := exists_solvesKepler (mapEcc M b a)
  obtain ⟨i1, i2, i3, i4, i5, i6⟩ := incl h
  obtain ⟨s1, s2, s3⟩ := sign_cases h.hphi
  have hss : sign a.Jphi ^ 2 = 1 := by rcases s1 with s | s <;> rw [s] <;> norm_num
  have hneg : ¬ (a.Jr < 0 ∨ a.Jz < 0) := by have := h.hr; have := h.hz; push Not; constructor <;> linarith
  rw [mapFreq, if_neg hneg] at hΩ
  simp only [Option.some.injEq] at hΩ
  have o1 : Ω.Omegar = M ^ 2 / mapJ0 M b a ^ 3 := by rw [← hΩ]
  have o2 : Ω.Omegaz = M ^ 2 / mapJ0 M b a ^ 3 * (0.5 + 0.5 * mapL a / L1Of M b (mapL a)) := by rw [← hΩ]; rfl
  have o3 : Ω.Omegaphi = Ω.Omegaz * sign a.Jphi := by rw [← hΩ]
  set tr : ℝ → ℝ := fun T => t.thetar + Ω.Omegar * T with htr
  set tz : ℝ → ℝ := fun T => t.thetaz + Ω.Omegaz * T with htz
  set tp : ℝ → ℝ := fun T => t.thetaphi + Ω.Omegaphi * T with htp
  have dtr : ∀ T, HasDerivAt tr (M ^ 2 / mapJ0 M b a ^ 3) T := fun T => by
    have := ((hasDerivAt_id T).const_mul Ω.Omegar).const_add t.thetar
    rw [mul_one, o1] at this
    rw [htr, o1]; exact this
  have dtz : ∀ T, HasDerivAt tz (M ^ 2 / mapJ0 M b a ^ 3 * (0.5 + 0.5 * mapL a / L1Of M b (mapL a))) T := fun T => by
    have := ((hasDerivAt_id T).const_mul Ω.Omegaz).const_add t.thetaz
    rw [mul_one, o2] at this
    rw [htz, o2]; exact this
  have dη : ∀ T, HasDerivAt (fun T => E (tr T)) (M ^ 2 / mapJ0 M b a ^ 3 / (1 - mapEcc M b a * cos (E (tr T)))) T := fun T =>
    ((kepler_hasDerivAt hP.he hP.e1 E hE (tr T)).comp T (dtr T)).congr_deriv (by rw [div_eq_mul_inv _ (1 - _), mul_comm])
  have key : ∀ T, ∃ p, mapIsochrone solve M b a ⟨wrap (tr T), wrap (tz T), wrap (tp T)⟩ = some p ∧
      vCylToCar p = carPoint (sign a.Jphi) (ciOf a) (siOf a) (t.thetaphi - sign a.Jphi * t.thetaz) (rS M b (mapJ0 M b a) (mapEcc M b a) (E (tr T)))
        (mapJ0 M b a * mapEcc M b a * sin (E (tr T)) / rS M b (mapJ0 M b a) (mapEcc M b a) (E (tr T))) (mapL a / rS M b (mapJ0 M b a) (mapEcc M b a) (E (tr T)))
        (psiS (mapL a) (L1Of M b (mapL a)) (mapJ0 M b a) (mapj M b a) (mapEcc M b a) (tz T) (tr T) (E (tr T))) := by
    intro T
    obtain ⟨w0, w1, n, hn⟩ := wrap_spec (tr T)
    obtain ⟨-, -, m, hm⟩ := wrap_spec (tz T)
    obtain ⟨-, -, k, hk'⟩ := wrap_spec (tp T)
    obtain ⟨p, p1, r, p2, p3⟩ := map_car (t := ⟨wrap (tr T), wrap (tz T), wrap (tp T)⟩) h hk w0 w1
    have hsol : E (tr T) = solve (mapEcc M b a) (wrap (tr T)) + n * (2 * π) := by
      refine kepler_inj hP.he hP.e1 ?_
      rw [hE, sin_add_int_mul_two_pi]
      have := hk _ w0 w1
      linarith
    refine ⟨p, p1, ?_⟩
    rw [p3]
    have hr : rS M b (mapJ0 M b a) (mapEcc M b a) (E (tr T)) = r := by rw [p2, hsol, rS, rS, cos_add_int_mul_two_pi]
    have hsin : sin (E (tr T)) = sin (solve (mapEcc M b a) (wrap (tr T))) := by rw [hsol, sin_add_int_mul_two_pi]
    have hψ : psiS (mapL a) (L1Of M b (mapL a)) (mapJ0 M b a) (mapj M b a) (mapEcc M b a) (tz T) (tr T) (E (tr T)) =
        mapPsi solve M b a ⟨wrap (tr T), wrap (tz T), wrap (tp T)⟩ + m * (2 * π) := by
      rw [mapPsi, ← psiS_add hP.L1pos.ne' _ _ _ n m, ← hsol, ← hn, ← hm]
    have hφ : ∃ l : ℤ, t.thetaphi - sign a.Jphi * t.thetaz = (wrap (tp T) - sign a.Jphi * wrap (tz T)) + l * (2 * π) := by
      have : tp T - sign a.Jphi * tz T = t.thetaphi - sign a.Jphi * t.thetaz := by rw [htp, htz]; simp only; rw [o3]; ring
      rw [← this]
      rcases s1 with s | s
      · exact ⟨k - m, by rw [s]; push_cast; linarith⟩
      · exact ⟨k + m, by rw [s]; push_cast; linarith⟩
    obtain ⟨l, hl⟩ := hφ
    rw [hr, hsin, hψ, hl]
    simp only [carPoint, cos_add_int_mul_two_pi, sin_add_int_mul_two_pi]
  choose q hq1 hq2 using key
  exact ⟨q, hq1, hP.motion dη dtr dtz hss i3 hq2⟩

end

end Verif.Actions
