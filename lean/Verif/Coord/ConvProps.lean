import Verif.Coord.Lemmas
import Mathlib.Analysis.SpecialFunctions.Trigonometric.Deriv

/-!
# Positions (C54) and phase-space points (C55) in Cartesian, cylindrical and spherical coordinates
-/

namespace Verif.Coord

open Real

/-! ## C54: conversion of positions -/

/-- Cartesian → cylindrical → Cartesian is the identity at every point, including the z axis. -/
theorem C54_car_cyl_car (p : PosCar) : cylToCar (carToCyl p) = p := by
  ext <;> simp [cylToCar, carToCyl, sqrt_mul_cos_atan2, sqrt_mul_sin_atan2]

/-- Cartesian → spherical → Cartesian is the identity at every point, including the origin. -/
theorem C54_car_sph_car (p : PosCar) : sphToCar (carToSph p) = p := by
  have e : p.x ^ 2 + p.y ^ 2 + p.z ^ 2 = p.z ^ 2 + √(p.x ^ 2 + p.y ^ 2) ^ 2 := by rw [sq_sqrt_add]; ring
  have h1 := sqrt_mul_cos_atan2 p.z (√(p.x ^ 2 + p.y ^ 2))
  have h2 := sqrt_mul_sin_atan2 p.z (√(p.x ^ 2 + p.y ^ 2))
  rw [← e] at h1 h2
  have h3 := sqrt_mul_cos_atan2 p.x p.y
  have h4 := sqrt_mul_sin_atan2 p.x p.y
  ext <;> simp only [sphToCar, carToSph]
  · rw [← mul_assoc, h2, h3]
  · rw [← mul_assoc, h2, h4]
  · exact h1

/-- cylindrical → spherical → cylindrical is the identity at every point. -/
theorem C54_cyl_sph_cyl (p : PosCyl) : sphToCyl (cylToSph p) = p := by
  have h1 := sqrt_mul_cos_atan2 p.z p.R
  have h2 := sqrt_mul_sin_atan2 p.z p.R
  rw [add_comm] at h1 h2
  ext <;> simp [sphToCyl, cylToSph, h1, h2]

/-- cylindrical → Cartesian → cylindrical returns the same point for R>0 and an azimuth in (-π,π] -/
theorem C54_cyl_car_cyl (p : PosCyl) (hR : 0 < p.R) (h1 : -π < p.phi) (h2 : p.phi ≤ π) :
    carToCyl (cylToCar p) = p := by
  ext
  · exact sqrt_polar p.phi hR.le
  · rfl
  · exact atan2_polar hR h1 h2

/-- ... and for any other azimuth, the equivalent one modulo 2π. -/
theorem C54_cyl_car_cyl_mod (p : PosCyl) (hR : 0 < p.R) :
    (carToCyl (cylToCar p)).R = p.R ∧ (carToCyl (cylToCar p)).z = p.z ∧
      ∃ k : ℤ, (carToCyl (cylToCar p)).phi = p.phi + k * (2 * π) := by
  refine ⟨sqrt_polar p.phi hR.le, rfl, ?_⟩
  have hs := sqrt_polar p.phi hR.le
  have hne : √((p.R * cos p.phi) ^ 2 + (p.R * sin p.phi) ^ 2) ≠ 0 := by rw [hs]; exact hR.ne'
  apply angle_unique
  · show cos (atan2 (p.R * sin p.phi) (p.R * cos p.phi)) = _
    rw [cos_atan2 _ _ hne, hs]; field_simp
  · show sin (atan2 (p.R * sin p.phi) (p.R * cos p.phi)) = _
    rw [sin_atan2 _ _ hne, hs]; field_simp

/-- spherical → Cartesian → spherical returns the same point away from the polar axis -/
theorem C54_sph_car_sph (p : PosSph) (hr : 0 < p.r) (ht0 : 0 < p.theta) (ht1 : p.theta < π)
    (h1 : -π < p.phi) (h2 : p.phi ≤ π) : carToSph (sphToCar p) = p := by
  have hs : 0 < sin p.theta := sin_pos_of_pos_of_lt_pi ht0 ht1
  have hR : 0 < p.r * sin p.theta := by positivity
  have e1 : √((p.r * (sin p.theta * cos p.phi)) ^ 2 + (p.r * (sin p.theta * sin p.phi)) ^ 2) = p.r * sin p.theta := by
    have := sqrt_polar p.phi hR.le
    rwa [mul_assoc, mul_assoc] at this
  have e2 := sqrt_polar p.theta hr.le
  have e3 : (p.r * (sin p.theta * cos p.phi)) ^ 2 + (p.r * (sin p.theta * sin p.phi)) ^ 2 + (p.r * cos p.theta) ^ 2
      = (p.r * cos p.theta) ^ 2 + (p.r * sin p.theta) ^ 2 := by
    have := sin_sq_add_cos_sq p.phi; linear_combination p.r ^ 2 * sin p.theta ^ 2 * this
  ext
  · show √(_ + _ + _) = _
    simp only [sphToCar]
    rw [e3, e2]
  · show atan2 (√(_ + _)) _ = _
    simp only [sphToCar]
    rw [e1]
    exact atan2_polar hr (by linarith [pi_pos]) ht1.le
  · show atan2 (p.r * (sin p.theta * sin p.phi)) (p.r * (sin p.theta * cos p.phi)) = _
    rw [← mul_assoc, ← mul_assoc]
    exact atan2_polar hR h1 h2

/-- spherical → cylindrical → spherical returns the same point for r>0 and 0≤θ≤π (polar axis included) -/
theorem C54_sph_cyl_sph (p : PosSph) (hr : 0 < p.r) (ht0 : 0 ≤ p.theta) (ht1 : p.theta ≤ π) :
    cylToSph (sphToCyl p) = p := by
  ext
  · show √((p.r * sin p.theta) ^ 2 + (p.r * cos p.theta) ^ 2) = _
    rw [add_comm]; exact sqrt_polar p.theta hr.le
  · exact atan2_polar hr (by linarith [pi_pos]) ht1
  · rfl

/-- the direct and the two-step conversions agree -/
theorem C54_triangle_sph (p : PosSph) : cylToCar (sphToCyl p) = sphToCar p := by
  ext <;> simp [cylToCar, sphToCyl, sphToCar, mul_assoc]

/-- the direct and the two-step conversions agree -/
theorem C54_triangle_car (p : PosCar) : cylToSph (carToCyl p) = carToSph p := by
  ext <;> simp [cylToSph, carToCyl, carToSph, sq_sqrt_add]

/-- the direct and the two-step conversions agree up to a multiple of 2π in azimuth -/
theorem C54_triangle_cyl (p : PosCyl) (hR : 0 < p.R) :
    (carToSph (cylToCar p)).r = (cylToSph p).r ∧ (carToSph (cylToCar p)).theta = (cylToSph p).theta ∧
      ∃ k : ℤ, (carToSph (cylToCar p)).phi = (cylToSph p).phi + k * (2 * π) := by
  obtain ⟨h1, h2, h3⟩ := C54_cyl_car_cyl_mod p hR
  rw [← C54_triangle_car]
  refine ⟨?_, ?_, h3⟩
  · show √((carToCyl (cylToCar p)).R ^ 2 + (carToCyl (cylToCar p)).z ^ 2) = _
    rw [h1, h2]; rfl
  · show atan2 (carToCyl (cylToCar p)).R (carToCyl (cylToCar p)).z = _
    rw [h1, h2]; rfl

/-- documented ranges of the coordinates -/
theorem C54_ranges (p : PosCar) :
    0 ≤ (carToCyl p).R ∧ (carToCyl p).phi ∈ Set.Ioc (-π) π ∧
    0 ≤ (carToSph p).r ∧ (carToSph p).theta ∈ Set.Icc 0 π ∧ (carToSph p).phi ∈ Set.Ioc (-π) π :=
  ⟨sqrt_nonneg _, atan2_mem _ _, sqrt_nonneg _,
    ⟨atan2_nonneg _ (sqrt_nonneg _), (atan2_mem _ _).2⟩, atan2_mem _ _⟩

/-- the meaning of the coordinates: R and r are the Euclidean distances from the axis and the origin -/
theorem C54_distances (p : PosCar) :
    (carToCyl p).R ^ 2 = p.x ^ 2 + p.y ^ 2 ∧ (carToSph p).r ^ 2 = p.x ^ 2 + p.y ^ 2 + p.z ^ 2 :=
  ⟨sq_sqrt_add _ _, sq_sqrt (by positivity)⟩

/-- non-triviality: the point (3,4,12) has R=5 and r=13 -/
example : (carToCyl ⟨3, 4, 12⟩).R = 5 ∧ (carToSph ⟨3, 4, 12⟩).r = 13 := by
  constructor
  · show √(3 ^ 2 + 4 ^ 2 : ℝ) = 5
    rw [show (3 ^ 2 + 4 ^ 2 : ℝ) = 5 ^ 2 by norm_num]; exact sqrt_sq (by norm_num)
  · show √(3 ^ 2 + 4 ^ 2 + 12 ^ 2 : ℝ) = 13
    rw [show (3 ^ 2 + 4 ^ 2 + 12 ^ 2 : ℝ) = 13 ^ 2 by norm_num]; exact sqrt_sq (by norm_num)

/-! ## C55: conversion of position/velocity points -/

/-- Cartesian → cylindrical → Cartesian is the identity for every phase-space point, also on the z axis. -/
theorem C55_car_cyl_car (p : PosVelCar) : vCylToCar (vCarToCyl p) = p := by
  by_cases h : √(p.x ^ 2 + p.y ^ 2) = 0
  · obtain ⟨hx, hy⟩ := sum_sq_eq_zero h
    simp only [vCarToCyl, h, if_true]
    ext <;> simp [vCylToCar, hx, hy, sqrt_mul_cos_atan2, sqrt_mul_sin_atan2]
  · simp only [vCarToCyl, h, if_false]
    have hs := sq_sqrt_add p.x p.y
    have hc1 := cos_atan2 p.x p.y h
    have hc2 := sin_atan2 p.x p.y h
    ext
    · exact sqrt_mul_cos_atan2 _ _
    · exact sqrt_mul_sin_atan2 _ _
    · rfl
    · simp only [vCylToCar, hc1, hc2]; field_simp; rw [hs]; ring
    · simp only [vCylToCar, hc1, hc2]; field_simp; rw [hs]; ring
    · rfl

/-- Cartesian → spherical → Cartesian is the identity for every phase-space point, also on the z axis and at the
origin. -/
theorem C55_car_sph_car (p : PosVelCar) : vSphToCar (vCarToSph p) = p := by
  have hs := sq_sqrt_add p.x p.y
  by_cases h : √(p.x ^ 2 + p.y ^ 2) = 0
  · obtain ⟨hx, hy⟩ := sum_sq_eq_zero h
    by_cases hz : p.z = 0
    · have hh : p.vz ^ 2 + √(p.vx ^ 2 + p.vy ^ 2) ^ 2 = √(p.vx ^ 2 + p.vy ^ 2) ^ 2 + p.vz ^ 2 := by ring
      have h1 := sqrt_mul_cos_atan2 p.vz √(p.vx ^ 2 + p.vy ^ 2)
      have h2 := sqrt_mul_sin_atan2 p.vz √(p.vx ^ 2 + p.vy ^ 2)
      rw [hh] at h1 h2
      simp only [vCarToSph, h, if_true, hz]
      ext <;> simp only [vSphToCar, zero_mul, hx, hy, hz, add_zero, sub_zero]
      · rw [h2]; exact sqrt_mul_cos_atan2 _ _
      · rw [h2]; exact sqrt_mul_sin_atan2 _ _
      · exact h1
    · have hr : √(p.x ^ 2 + p.y ^ 2 + p.z ^ 2) = |p.z| := by rw [hx, hy]; simp [sqrt_sq_eq_abs]
      simp only [vCarToSph, h, if_true, hz, if_false, hr]
      by_cases hp : p.z ≥ 0
      · simp only [hp, if_true]
        ext <;> simp [vSphToCar, hx, hy, sqrt_mul_cos_atan2, sqrt_mul_sin_atan2, abs_of_nonneg hp]
      · simp only [hp, if_false]
        push Not at hp
        ext <;> simp [vSphToCar, hx, hy, sqrt_mul_cos_atan2, sqrt_mul_sin_atan2, abs_of_neg hp]
  · have hR : 0 < √(p.x ^ 2 + p.y ^ 2) := lt_of_le_of_ne (sqrt_nonneg _) (Ne.symm h)
    have e : p.x ^ 2 + p.y ^ 2 + p.z ^ 2 = p.z ^ 2 + √(p.x ^ 2 + p.y ^ 2) ^ 2 := by rw [hs]; ring
    have hr : √(p.z ^ 2 + √(p.x ^ 2 + p.y ^ 2) ^ 2) ≠ 0 := by
      apply ne_of_gt; apply sqrt_pos.mpr; positivity
    have h1 := cos_atan2 p.z (√(p.x ^ 2 + p.y ^ 2)) hr
    have h2 := sin_atan2 p.z (√(p.x ^ 2 + p.y ^ 2)) hr
    have hc1 := cos_atan2 p.x p.y h
    have hc2 := sin_atan2 p.x p.y h
    have hrr := sq_sqrt_add p.z (√(p.x ^ 2 + p.y ^ 2))
    simp only [vCarToSph, h, if_false]
    rw [e]
    generalize √(p.z ^ 2 + √(p.x ^ 2 + p.y ^ 2) ^ 2) = r at *
    generalize √(p.x ^ 2 + p.y ^ 2) = R at *
    ext <;> simp only [vSphToCar, h1, h2, hc1, hc2]
    · field_simp
    · field_simp
    · field_simp
    · field_simp
      linear_combination (-(p.x * p.y * p.vy + p.x ^ 2 * p.vx)) * hrr - r ^ 2 * p.vx * hs
    · field_simp
      linear_combination (-(p.x * p.y * p.vx + p.y ^ 2 * p.vy)) * hrr - r ^ 2 * p.vy * hs
    · field_simp
      linear_combination (-p.vz) * hrr

/-- cylindrical → spherical → cylindrical is the identity away from the origin ... -/
theorem C55_cyl_sph_cyl (p : PosVelCyl) (h : p.R ≠ 0 ∨ p.z ≠ 0) : vSphToCyl (vCylToSph p) = p := by
  have hs := sq_sqrt_add p.R p.z
  have hr : √(p.R ^ 2 + p.z ^ 2) ≠ 0 := by
    intro h0; have := sum_sq_eq_zero h0; tauto
  have hr' : √(p.z ^ 2 + p.R ^ 2) ≠ 0 := by rwa [add_comm] at hr
  have h1 := cos_atan2 p.z p.R hr'
  have h2 := sin_atan2 p.z p.R hr'
  rw [add_comm] at h1 h2
  simp only [vCylToSph, hr, if_false]
  ext <;> simp only [vSphToCyl, h1, h2]
  · field_simp
  · field_simp
  · field_simp; rw [hs]; ring
  · field_simp; rw [hs]; ring

/-- ... and at the origin too, provided that the azimuthal velocity is zero there (it is undefined otherwise). -/
theorem C55_cyl_sph_cyl_origin (p : PosVelCyl) (hR : p.R = 0) (hz : p.z = 0) (hv : p.vphi = 0) :
    vSphToCyl (vCylToSph p) = p := by
  have h1 := sqrt_mul_cos_atan2 p.vz p.vR
  have h2 := sqrt_mul_sin_atan2 p.vz p.vR
  rw [add_comm] at h1 h2
  ext <;> simp [vCylToSph, vSphToCyl, hR, hz, hv, h1, h2]

/-- cylindrical → Cartesian → cylindrical, R>0 -/
theorem C55_cyl_car_cyl (p : PosVelCyl) (hR : 0 < p.R) (h1 : -π < p.phi) (h2 : p.phi ≤ π) :
    vCarToCyl (vCylToCar p) = p := by
  have hs := sqrt_polar p.phi hR.le
  have hcs := sin_sq_add_cos_sq p.phi
  have ha := atan2_polar hR h1 h2
  have : ¬ p.R = 0 := hR.ne'
  simp only [vCarToCyl, vCylToCar, hs, this, if_false, ha]
  ext <;> simp only
  · field_simp; linear_combination p.vR * hcs
  · field_simp; linear_combination p.vphi * hcs

/-- spherical → cylindrical → spherical, r>0, 0≤θ≤π -/
theorem C55_sph_cyl_sph (p : PosVelSph) (hr : 0 < p.r) (ht0 : 0 ≤ p.theta) (ht1 : p.theta ≤ π) :
    vCylToSph (vSphToCyl p) = p := by
  have hs := sqrt_polar p.theta hr.le
  rw [add_comm] at hs
  have hcs := sin_sq_add_cos_sq p.theta
  have ha := atan2_polar hr (by linarith [pi_pos] : -π < p.theta) ht1
  have : ¬ p.r = 0 := hr.ne'
  simp only [vCylToSph, vSphToCyl, hs, this, if_false, ha]
  ext <;> simp only
  · field_simp; linear_combination p.vr * hcs
  · field_simp; linear_combination p.vtheta * hcs

/-- two-step and direct conversion agree -/
theorem C55_triangle_sph (p : PosVelSph) : vCylToCar (vSphToCyl p) = vSphToCar p := by
  ext <;> simp [vCylToCar, vSphToCyl, vSphToCar]

/-- the position part of a converted phase-space point is the converted position (away from the singular axis when
converting from Cartesian coordinates) -/
theorem C55_pos_part (c : PosVelCyl) (s : PosVelSph) (p : PosVelCar) :
    (vCylToCar c).pos = cylToCar c.pos ∧ (vSphToCar s).pos = sphToCar s.pos ∧ (vSphToCyl s).pos = sphToCyl s.pos ∧
    (¬(c.R = 0 ∧ c.z = 0) → (vCylToSph c).pos = cylToSph c.pos) ∧
    (¬(p.x = 0 ∧ p.y = 0) → (vCarToCyl p).pos = carToCyl p.pos ∧ (vCarToSph p).pos = carToSph p.pos) := by
  refine ⟨rfl, ?_, rfl, ?_, ?_⟩
  · simp [vSphToCar, sphToCar, PosVelSph.pos, PosVelCar.pos, mul_assoc]
  · intro h
    have : ¬ √(c.R ^ 2 + c.z ^ 2) = 0 := fun h0 => h (sum_sq_eq_zero h0)
    simp [vCylToSph, this, PosVelSph.pos, cylToSph, PosVelCyl.pos]
  · intro h
    have : ¬ √(p.x ^ 2 + p.y ^ 2) = 0 := fun h0 => h (sum_sq_eq_zero h0)
    constructor
    · simp [vCarToCyl, this, PosVelCyl.pos, carToCyl, PosVelCar.pos]
    · simp [vCarToSph, this, PosVelSph.pos, carToSph, PosVelCar.pos]

/-- kinetic energy (times two) -/
def v2Car (p : PosVelCar) : ℝ := p.vx ^ 2 + p.vy ^ 2 + p.vz ^ 2
/-- kinetic energy (times two) -/
def v2Cyl (p : PosVelCyl) : ℝ := p.vR ^ 2 + p.vz ^ 2 + p.vphi ^ 2
/-- kinetic energy (times two) -/
def v2Sph (p : PosVelSph) : ℝ := p.vr ^ 2 + p.vtheta ^ 2 + p.vphi ^ 2

/-- the speed does not depend on the coordinate system -/
theorem C55_speed (c : PosVelCyl) (s : PosVelSph) (p : PosVelCar) :
    v2Car (vCylToCar c) = v2Cyl c ∧ v2Car (vSphToCar s) = v2Sph s ∧ v2Cyl (vSphToCyl s) = v2Sph s ∧
    v2Cyl (vCarToCyl p) = v2Car p ∧ v2Sph (vCarToSph p) = v2Car p := by
  have key1 : ∀ c : PosVelCyl, v2Car (vCylToCar c) = v2Cyl c := by
    intro c
    have := sin_sq_add_cos_sq c.phi
    simp only [v2Car, v2Cyl, vCylToCar]; linear_combination (c.vR ^ 2 + c.vphi ^ 2) * this
  have key2 : ∀ s : PosVelSph, v2Cyl (vSphToCyl s) = v2Sph s := by
    intro s
    have := sin_sq_add_cos_sq s.theta
    simp only [v2Sph, v2Cyl, vSphToCyl]; linear_combination (s.vr ^ 2 + s.vtheta ^ 2) * this
  have key3 : ∀ s : PosVelSph, v2Car (vSphToCar s) = v2Sph s := by
    intro s; rw [← C55_triangle_sph, key1, key2]
  exact ⟨key1 c, key3 s, key2 s, by rw [← key1, C55_car_cyl_car], by rw [← key3, C55_car_sph_car]⟩

/-- the z-component of the angular momentum does not depend on the coordinate system -/
theorem C55_Lz (c : PosVelCyl) (s : PosVelSph) (p : PosVelCar) :
    LzCar (vCylToCar c) = LzCyl c ∧ LzCar (vSphToCar s) = LzSph s ∧ LzCyl (vSphToCyl s) = LzSph s ∧
    LzCyl (vCarToCyl p) = LzCar p ∧ LzSph (vCarToSph p) = LzCar p := by
  have key1 : ∀ c : PosVelCyl, LzCar (vCylToCar c) = LzCyl c := by
    intro c
    have := sin_sq_add_cos_sq c.phi
    simp only [LzCar, LzCyl, vCylToCar]; linear_combination (c.R * c.vphi) * this
  have key2 : ∀ s : PosVelSph, LzCyl (vSphToCyl s) = LzSph s := by
    intro s; simp only [LzCyl, LzSph, vSphToCyl]
  have key3 : ∀ s : PosVelSph, LzCar (vSphToCar s) = LzSph s := by
    intro s; rw [← C55_triangle_sph, key1, key2]
  exact ⟨key1 c, key3 s, key2 s, by rw [← key1, C55_car_cyl_car], by rw [← key3, C55_car_sph_car]⟩

/-- the total angular momentum does not depend on the coordinate system -/
theorem C55_Ltotal (c : PosVelCyl) (s : PosVelSph) (p : PosVelCar) :
    LtotalCar (vCylToCar c) = LtotalCyl c ∧
    (0 ≤ s.r → LtotalCar (vSphToCar s) = LtotalSph s ∧ LtotalCyl (vSphToCyl s) = LtotalSph s) ∧
    LtotalCyl (vCarToCyl p) = LtotalCar p ∧ LtotalSph (vCarToSph p) = LtotalCar p := by
  have key1 : ∀ c : PosVelCyl, LtotalCar (vCylToCar c) = LtotalCyl c := by
    intro c
    have := sin_sq_add_cos_sq c.phi
    have h4 : cos c.phi ^ 2 = 1 - sin c.phi ^ 2 := by linarith
    simp only [LtotalCar, LtotalCyl, vCylToCar]; congr 1
    ring_nf
    have h5 : cos c.phi ^ 4 = (1 - sin c.phi ^ 2) ^ 2 := by rw [← h4]; ring
    rw [h5, h4]; ring
  have key2 : ∀ s : PosVelSph, 0 ≤ s.r → LtotalCyl (vSphToCyl s) = LtotalSph s := by
    intro s hr
    have := sin_sq_add_cos_sq s.theta
    have h4 : cos s.theta ^ 2 = 1 - sin s.theta ^ 2 := by linarith
    have h5 : cos s.theta ^ 4 = (1 - sin s.theta ^ 2) ^ 2 := by rw [← h4]; ring
    simp only [LtotalCyl, LtotalSph, vSphToCyl]
    rw [show √(s.vtheta ^ 2 + s.vphi ^ 2) * s.r = √((s.vtheta ^ 2 + s.vphi ^ 2) * s.r ^ 2) by
      rw [sqrt_mul (by positivity), sqrt_sq hr]]
    congr 1
    ring_nf
    rw [h5, h4]; ring
  have key3 : ∀ s : PosVelSph, 0 ≤ s.r → LtotalCar (vSphToCar s) = LtotalSph s := by
    intro s hr; rw [← C55_triangle_sph, key1, key2 s hr]
  refine ⟨key1 c, fun hr => ⟨key3 s hr, key2 s hr⟩, by rw [← key1, C55_car_cyl_car], ?_⟩
  have hr : 0 ≤ (vCarToSph p).r := by
    unfold vCarToSph; dsimp only
    split_ifs <;> first | exact sqrt_nonneg _ | exact le_refl _
  rw [← key3 _ hr, C55_car_sph_car]

/-- Velocities are time derivatives, cylindrical → Cartesian: along every differentiable trajectory, if `vR`, `vz` are
the derivatives of `R`, `z` and `vphi` is `R` times the derivative of `phi`, then the converted velocity is the
derivative of the converted position. -/
theorem C55_velocity_cyl_car {R z phi : ℝ → ℝ} {vR vz w t : ℝ}
    (hR : HasDerivAt R vR t) (hz : HasDerivAt z vz t) (hphi : HasDerivAt phi w t) :
    let v := vCylToCar ⟨R t, z t, phi t, vR, vz, R t * w⟩
    HasDerivAt (fun s => (cylToCar ⟨R s, z s, phi s⟩).x) v.vx t ∧
    HasDerivAt (fun s => (cylToCar ⟨R s, z s, phi s⟩).y) v.vy t ∧
    HasDerivAt (fun s => (cylToCar ⟨R s, z s, phi s⟩).z) v.vz t := by
  refine ⟨?_, ?_, hz⟩
  · refine (hR.mul hphi.cos).congr_deriv ?_
    simp only [vCylToCar]; ring
  · refine (hR.mul hphi.sin).congr_deriv ?_
    simp only [vCylToCar]; ring

/-- Velocities are time derivatives, spherical → cylindrical. -/
theorem C55_velocity_sph_cyl {r th phi : ℝ → ℝ} {vr wt w t : ℝ}
    (hr : HasDerivAt r vr t) (ht : HasDerivAt th wt t) (hphi : HasDerivAt phi w t) :
    let v := vSphToCyl ⟨r t, th t, phi t, vr, r t * wt, r t * sin (th t) * w⟩
    HasDerivAt (fun s => (sphToCyl ⟨r s, th s, phi s⟩).R) v.vR t ∧
    HasDerivAt (fun s => (sphToCyl ⟨r s, th s, phi s⟩).z) v.vz t ∧
    HasDerivAt (fun s => (sphToCyl ⟨r s, th s, phi s⟩).phi) w t ∧
    v.vphi = (sphToCyl ⟨r t, th t, phi t⟩).R * w := by
  refine ⟨?_, ?_, hphi, rfl⟩
  · refine (hr.mul ht.sin).congr_deriv ?_
    simp only [vSphToCyl]; ring
  · refine (hr.mul ht.cos).congr_deriv ?_
    simp only [vSphToCyl]; ring

/-- Velocities are time derivatives, spherical → Cartesian. -/
theorem C55_velocity_sph_car {r th phi : ℝ → ℝ} {vr wt w t : ℝ}
    (hr : HasDerivAt r vr t) (ht : HasDerivAt th wt t) (hphi : HasDerivAt phi w t) :
    let v := vSphToCar ⟨r t, th t, phi t, vr, r t * wt, r t * sin (th t) * w⟩
    HasDerivAt (fun s => (sphToCar ⟨r s, th s, phi s⟩).x) v.vx t ∧
    HasDerivAt (fun s => (sphToCar ⟨r s, th s, phi s⟩).y) v.vy t ∧
    HasDerivAt (fun s => (sphToCar ⟨r s, th s, phi s⟩).z) v.vz t := by
  refine ⟨?_, ?_, ?_⟩
  · refine (hr.mul (ht.sin.mul hphi.cos)).congr_deriv ?_
    simp only [vSphToCar, Pi.mul_apply]; ring
  · refine (hr.mul (ht.sin.mul hphi.sin)).congr_deriv ?_
    simp only [vSphToCar, Pi.mul_apply]; ring
  · refine (hr.mul ht.cos).congr_deriv ?_
    simp only [vSphToCar, Pi.mul_apply]; ring

/-- Velocities are time derivatives, Cartesian → cylindrical (away from the z axis; the azimuth itself jumps by 2π at
the negative x axis, where its derivative is expressed through its sine and cosine). -/
theorem C55_velocity_car_cyl {x y z : ℝ → ℝ} {vx vy vz t : ℝ}
    (hx : HasDerivAt x vx t) (hy : HasDerivAt y vy t) (hz : HasDerivAt z vz t) (h : ¬(x t = 0 ∧ y t = 0)) :
    let q := fun s => carToCyl ⟨x s, y s, z s⟩
    let v := vCarToCyl ⟨x t, y t, z t, vx, vy, vz⟩
    HasDerivAt (fun s => (q s).R) v.vR t ∧ HasDerivAt (fun s => (q s).z) v.vz t ∧
    (0 < x t ∨ y t ≠ 0 → HasDerivAt (fun s => (q s).phi) (v.vphi / (q t).R) t) ∧
    HasDerivAt (fun s => cos (q s).phi) (-sin (q t).phi * (v.vphi / (q t).R)) t ∧
    HasDerivAt (fun s => sin (q s).phi) (cos (q t).phi * (v.vphi / (q t).R)) t := by
  have hR : ¬ √(x t ^ 2 + y t ^ 2) = 0 := fun h0 => h (sum_sq_eq_zero h0)
  have hs := sq_sqrt_add (x t) (y t)
  have hdR := hasDerivAt_sqrt2 hx hy hR
  have hev : ∀ᶠ s in nhds t, √(x s ^ 2 + y s ^ 2) ≠ 0 := hdR.continuousAt.eventually_ne hR
  have e1 := cos_atan2 _ _ hR
  have e2 := sin_atan2 _ _ hR
  intro q v
  have hv : v = ⟨√(x t ^ 2 + y t ^ 2), z t, atan2 (y t) (x t),
      vx * (x t / √(x t ^ 2 + y t ^ 2)) + vy * (y t / √(x t ^ 2 + y t ^ 2)), vz,
      -vx * (y t / √(x t ^ 2 + y t ^ 2)) + vy * (x t / √(x t ^ 2 + y t ^ 2))⟩ := by
    simp only [v, vCarToCyl, hR, if_false]
  rw [hv]
  refine ⟨?_, ?_, ?_, ?_, ?_⟩
  · refine hdR.congr_deriv ?_
    field_simp
  · exact hz
  · intro hc
    refine (hasDerivAt_atan2 hx hy hc).congr_deriv ?_
    simp only [q, carToCyl]
    have hn : x t ^ 2 + y t ^ 2 ≠ 0 := by rw [← hs]; positivity
    field_simp; rw [hs]; ring
  · have := (hx.div hdR hR).congr_of_eventuallyEq (f₁ := fun s => cos (q s).phi) (by
      filter_upwards [hev] with s h'
      exact cos_atan2 _ _ h')
    refine this.congr_deriv ?_
    simp only [q, carToCyl]; rw [e2]; field_simp; rw [hs]; ring
  · have := (hy.div hdR hR).congr_of_eventuallyEq (f₁ := fun s => sin (q s).phi) (by
      filter_upwards [hev] with s h'
      exact sin_atan2 _ _ h')
    refine this.congr_deriv ?_
    simp only [q, carToCyl]; rw [e1]; field_simp; rw [hs]; ring

/-- Velocities are time derivatives, cylindrical → spherical (R>0). -/
theorem C55_velocity_cyl_sph {R z phi : ℝ → ℝ} {vR vz w t : ℝ}
    (hR : HasDerivAt R vR t) (hz : HasDerivAt z vz t) (hp : 0 < R t) :
    let q := fun s => cylToSph ⟨R s, z s, phi s⟩
    let v := vCylToSph ⟨R t, z t, phi t, vR, vz, R t * w⟩
    HasDerivAt (fun s => (q s).r) v.vr t ∧ HasDerivAt (fun s => (q s).theta) (v.vtheta / (q t).r) t ∧
    v.vphi = (q t).r * sin (q t).theta * w := by
  have hr : ¬ √(R t ^ 2 + z t ^ 2) = 0 := fun h0 => hp.ne' (sum_sq_eq_zero h0).1
  have hr' : ¬ √(z t ^ 2 + R t ^ 2) = 0 := by rwa [add_comm] at hr
  have hs := sq_sqrt_add (R t) (z t)
  intro q v
  have hv : v = ⟨√(R t ^ 2 + z t ^ 2), atan2 (R t) (z t), phi t,
      vR * (R t * (1 / √(R t ^ 2 + z t ^ 2))) + vz * (z t * (1 / √(R t ^ 2 + z t ^ 2))),
      vR * (z t * (1 / √(R t ^ 2 + z t ^ 2))) - vz * (R t * (1 / √(R t ^ 2 + z t ^ 2))), R t * w⟩ := by
    simp only [v, vCylToSph, hr, if_false]
  rw [hv]
  refine ⟨?_, ?_, ?_⟩
  · refine (hasDerivAt_sqrt2 hR hz hr).congr_deriv ?_
    field_simp
  · refine (hasDerivAt_atan2 hz hR (Or.inr hp.ne')).congr_deriv ?_
    simp only [q, cylToSph]
    rw [add_comm (z t ^ 2)]
    have hn : R t ^ 2 + z t ^ 2 ≠ 0 := by positivity
    field_simp; rw [hs]
  · simp only [q, cylToSph]
    have := sqrt_mul_sin_atan2 (z t) (R t)
    rw [add_comm] at this
    rw [this]

/-- The canonical momenta reported for a spherical point are the momenta conjugate to (r,θ,φ): for every displacement
(dr,dθ,dφ) the work form `p·dq` equals `v·dx` with `dx` the corresponding Cartesian displacement. -/
theorem C55_momenta (s : PosVelSph) (dr dtheta dphi : ℝ) {x y z : ℝ → ℝ} {r th phi : ℝ → ℝ}
    (hr : HasDerivAt r dr 0) (ht : HasDerivAt th dtheta 0) (hp : HasDerivAt phi dphi 0)
    (h0 : r 0 = s.r) (h1 : th 0 = s.theta) (h2 : phi 0 = s.phi)
    (hx : ∀ t, sphToCar ⟨r t, th t, phi t⟩ = ⟨x t, y t, z t⟩) :
    (momentaSph s).1 * dr + (momentaSph s).2.1 * dtheta + (momentaSph s).2.2 * dphi
      = (vSphToCar s).vx * deriv x 0 + (vSphToCar s).vy * deriv y 0 + (vSphToCar s).vz * deriv z 0 := by
  obtain ⟨a, b, c⟩ := C55_velocity_sph_car hr ht hp
  have ex : (fun t => (sphToCar ⟨r t, th t, phi t⟩).x) = x := by funext t; rw [hx]
  have ey : (fun t => (sphToCar ⟨r t, th t, phi t⟩).y) = y := by funext t; rw [hx]
  have ez : (fun t => (sphToCar ⟨r t, th t, phi t⟩).z) = z := by funext t; rw [hx]
  rw [ex] at a; rw [ey] at b; rw [ez] at c
  rw [a.deriv, b.deriv, c.deriv]
  have h3 := sin_sq_add_cos_sq s.theta
  have h4 := sin_sq_add_cos_sq s.phi
  have h3' : cos s.theta ^ 2 = 1 - sin s.theta ^ 2 := by linarith
  have h4' : cos s.phi ^ 2 = 1 - sin s.phi ^ 2 := by linarith
  simp only [momentaSph, LzSph, vSphToCar, h0, h1, h2]
  ring_nf
  simp only [h3', h4']
  ring

/-- A counterexample showing why the origin is special: the azimuthal velocity of a cylindrical point at the origin
is dropped by the conversion to spherical coordinates, so the speed changes. -/
theorem C55_origin_vphi_lost :
    v2Sph (vCylToSph ⟨0, 0, 0, 0, 0, 1⟩) = 0 ∧ v2Cyl ⟨0, 0, 0, 0, 0, 1⟩ = 1 := by
  constructor <;> simp [v2Sph, v2Cyl, vCylToSph]

/-- A point at the origin with negative `vR` gets a polar angle outside the documented range [0,π]. -/
theorem C55_origin_theta_range : (vCylToSph ⟨0, 0, 0, -1, 0, 0⟩).theta = -(π / 2) := by
  have : (⟨0, -1⟩ : ℂ) = -Complex.I := by apply Complex.ext <;> simp
  simp [vCylToSph, atan2, this]

/-- non-triviality: a concrete conversion with all components non-zero -/
example : vCarToCyl ⟨3, 4, 1, 5, 10, 2⟩ = ⟨5, 1, atan2 4 3, 11, 2, 2⟩ := by
  have h : √(3 ^ 2 + 4 ^ 2 : ℝ) = 5 := by
    rw [show (3 ^ 2 + 4 ^ 2 : ℝ) = 5 ^ 2 by norm_num]; exact sqrt_sq (by norm_num)
  simp only [vCarToCyl, h]
  norm_num

end Verif.Coord
