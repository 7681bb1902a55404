import Verif.Coord.ConvProps
import Verif.Coord.DerivProps
import Verif.Core.Arith

/-! Orbit integration: the equations of motion and the conversion between the internal state of the solver and the phase-space points presented to the user
(/repo/src/orbit.cpp:79-300); C82. Exact arithmetic. -/
namespace Verif.Orbit

open Real Verif.Coord
open Verif.Core (wrapAngle)

noncomputable section

set_option linter.unusedSimpArgs false

/-! ## Model -/

open Classical in
/-- orbit.cpp:86-104, OrbitIntegrator<Car>::init: the state given to the solver -/
def initCar (Omega time : ℝ) (ic : PosVelCar) : PosVelCar :=
  if Omega ≠ 0 then
    let ca := cos (Omega * time)
    let sa := sin (Omega * time)
    ⟨ic.x * ca - ic.y * sa, ic.y * ca + ic.x * sa, ic.z, ic.vx * ca - ic.vy * sa, ic.vy * ca + ic.vx * sa, ic.vz⟩
  else ic

open Classical in
/-- orbit.cpp:106-120, OrbitIntegrator<Car>::getSolNative, as a function of the data from the solver -/
def getSolCar (Omega time : ℝ) (data : PosVelCar) : PosVelCar :=
  if Omega ≠ 0 then
    let ca := cos (Omega * time)
    let sa := sin (Omega * time)
    ⟨data.x * ca + data.y * sa, data.y * ca - data.x * sa, data.z, data.vx * ca + data.vy * sa, data.vy * ca - data.vx * sa, data.vz⟩
  else data

open Classical in
/-- orbit.cpp:123-137, OrbitIntegrator<Cyl>::getSolNative -/
def getSolCyl (data : PosVelCyl) : PosVelCyl :=
  if data.R < 0 then ⟨-data.R, data.z, data.phi + π, -data.vR, data.vz, -data.vphi⟩ else data

/-- `fmod(x, y)`: x minus y times the integer part (truncated towards zero) of x/y -/
def fmod (x y : ℝ) : ℝ := x - y * (Verif.Core.truncZ (x / y) : ℝ)

/-- The result of the normalization of the angles: r, theta, phi, signr, signt -/
structure Norm where
  r : ℝ
  theta : ℝ
  phi : ℝ
  signr : ℝ
  signt : ℝ

open Classical in
/-- orbit.cpp:146-166 and 238-258: the same code in `getSolNative` and in `eval` -/
def normalize (r0 theta0 phi0 : ℝ) : Norm :=
  let theta := fmod theta0 (2 * π)
  let ts : ℝ × ℝ := if theta < -π then (theta + 2 * π, 1) else if theta < 0 then (-theta, -1) else if theta > π then (2 * π - theta, -1) else (theta, 1)
  let rs : ℝ × ℝ × ℝ := if r0 < 0 then (-r0, π - ts.1, -1) else (r0, ts.1, 1)
  ⟨rs.1, rs.2.1, if xor (rs.2.2 = -1) (ts.2 = -1) then phi0 + π else phi0, rs.2.2, ts.2⟩

/-- orbit.cpp:139-169, OrbitIntegrator<Sph>::getSolNative -/
def getSolSph (data : PosVelSph) : PosVelSph :=
  let n := normalize data.r data.theta data.phi
  ⟨n.r, n.theta, wrapAngle (2 * π) n.phi, data.vr * n.signr, data.vtheta * n.signt, data.vphi * n.signr * n.signt⟩

/-- orbit.cpp:171-191, OrbitIntegrator<Car>::eval: the time derivatives of the solver's variables; `grad` is the gradient of the potential. -/
def evalCar (grad : PosCar → ℝ → GradCar) (Omega time : ℝ) (x : PosVelCar) : PosVelCar :=
  let ca := if Omega = 0 then 1 else cos (Omega * time)
  let sa := if Omega = 0 then 0 else sin (Omega * time)
  let g := grad ⟨x.x * ca + x.y * sa, x.y * ca - x.x * sa, x.z⟩ time
  ⟨x.vx, x.vy, x.vz, -g.dx * ca + g.dy * sa, -g.dy * ca - g.dx * sa, -g.dz⟩

/-- orbit.cpp:200-217, eval for the Hermite integrator (Omega=0): acceleration and its time derivative -/
def evalHermite (grad : PosCar → ℝ → GradCar) (hess : PosCar → ℝ → HessCar) (time : ℝ) (xv : PosVelCar) : (ℝ × ℝ × ℝ) × (ℝ × ℝ × ℝ) :=
  let g := grad ⟨xv.x, xv.y, xv.z⟩ time
  let h := hess ⟨xv.x, xv.y, xv.z⟩ time
  ((-g.dx, -g.dy, -g.dz),
   (-h.dx2 * xv.vx - h.dxdy * xv.vy - h.dxdz * xv.vz,
    -h.dxdy * xv.vx - h.dy2 * xv.vy - h.dydz * xv.vz,
    -h.dxdz * xv.vx - h.dydz * xv.vy - h.dz2 * xv.vz))

open Classical in
/-- orbit.cpp:220-239, OrbitIntegrator<Cyl>::eval -/
def evalCyl (grad : PosCyl → ℝ → GradCyl) (Omega time : ℝ) (x : PosVelCyl) : PosVelCyl :=
  let R := if x.R < 0 then -x.R else x.R
  let phi := if x.R < 0 then x.phi + π else x.phi
  let g := grad ⟨R, x.z, phi⟩ time
  let Rinv := if R ≠ 0 then 1 / R else 0
  let dR := if x.R < 0 then -g.dR else g.dR
  ⟨x.vR, x.vz, x.vphi * Rinv - Omega, -dR + x.vphi ^ 2 * Rinv, -g.dz, -(g.dphi + x.vR * x.vphi) * Rinv⟩

open Classical in
/-- orbit.cpp:241-283, OrbitIntegrator<Sph>::eval -/
def evalSph (grad : PosSph → ℝ → GradSph) (Omega time : ℝ) (x : PosVelSph) : PosVelSph :=
  let n := normalize x.r x.theta x.phi
  let g := grad ⟨n.r, n.theta, n.phi⟩ time
  let rinv := if n.r ≠ 0 then 1 / n.r else 0
  let sinthinv := if sin n.theta ≠ 0 then 1 / sin n.theta else 0
  let cottheta := cos n.theta * sinthinv
  ⟨x.vr, x.vtheta * rinv, x.vphi * rinv * sinthinv - Omega,
    -g.dr * n.signr + (x.vtheta ^ 2 + x.vphi ^ 2) * rinv,
    (-g.dtheta * n.signt + x.vphi ^ 2 * cottheta - x.vr * x.vtheta) * rinv,
    (-g.dphi * sinthinv - (x.vr + x.vtheta * cottheta) * x.vphi) * rinv⟩

/-- orbit.cpp:285-291, getAccuracyFactor in terms of the potential and kinetic energy -/
def accuracyFactor (Epot Ekin : ℝ) : ℝ := min 1 (|Epot + Ekin| / max |Epot| Ekin)

/-! ## Specification -/

/-- A phase-space point in the frame rotated by the angle a (counterclockwise about the z axis). -/
def rotate (a : ℝ) (p : PosVelCar) : PosVelCar :=
  ⟨p.x * cos a - p.y * sin a, p.x * sin a + p.y * cos a, p.z, p.vx * cos a - p.vy * sin a, p.vx * sin a + p.vy * cos a, p.vz⟩

/-- Time derivative of each component -/
def HasVelCar (p : ℝ → PosVelCar) (d : PosVelCar) (t : ℝ) : Prop :=
  HasDerivAt (fun s => (p s).x) d.x t ∧ HasDerivAt (fun s => (p s).y) d.y t ∧ HasDerivAt (fun s => (p s).z) d.z t ∧
  HasDerivAt (fun s => (p s).vx) d.vx t ∧ HasDerivAt (fun s => (p s).vy) d.vy t ∧ HasDerivAt (fun s => (p s).vz) d.vz t

def HasVelCyl (p : ℝ → PosVelCyl) (d : PosVelCyl) (t : ℝ) : Prop :=
  HasDerivAt (fun s => (p s).R) d.R t ∧ HasDerivAt (fun s => (p s).z) d.z t ∧ HasDerivAt (fun s => (p s).phi) d.phi t ∧
  HasDerivAt (fun s => (p s).vR) d.vR t ∧ HasDerivAt (fun s => (p s).vz) d.vz t ∧ HasDerivAt (fun s => (p s).vphi) d.vphi t

def HasVelSph (p : ℝ → PosVelSph) (d : PosVelSph) (t : ℝ) : Prop :=
  HasDerivAt (fun s => (p s).r) d.r t ∧ HasDerivAt (fun s => (p s).theta) d.theta t ∧ HasDerivAt (fun s => (p s).phi) d.phi t ∧
  HasDerivAt (fun s => (p s).vr) d.vr t ∧ HasDerivAt (fun s => (p s).vtheta) d.vtheta t ∧ HasDerivAt (fun s => (p s).vphi) d.vphi t

/-- Newton's equations at the time t for a trajectory `out` given in the frame rotating with the angular frequency Ω (in which the potential with gradient `g` is given),
with velocities being those in the inertial frame projected on the instantaneous axes of the rotating frame: in the inertial frame the rate of change
of position is the velocity, and the rate of change of velocity is minus the gradient. -/
def Newton (g : PosCar → ℝ → GradCar) (Omega : ℝ) (out : ℝ → PosVelCar) (t : ℝ) : Prop :=
  HasVelCar (fun s => rotate (Omega * s) (out s))
    (rotate (Omega * t) ⟨(out t).vx, (out t).vy, (out t).vz, -(g (out t).pos t).dx, -(g (out t).pos t).dy, -(g (out t).pos t).dz⟩) t

/-! ## Cartesian coordinates -/

theorem rotate_getSol (Omega t : ℝ) (p : PosVelCar) : rotate (Omega * t) (getSolCar Omega t p) = p := by
  have h := sin_sq_add_cos_sq (Omega * t)
  rw [getSolCar, rotate]
  split_ifs with h0
  · ext <;> dsimp only
    · linear_combination p.x * h
    · linear_combination p.y * h
    · linear_combination p.vx * h
    · linear_combination p.vy * h
  · push Not at h0; rw [h0]; ext <;> simp

/-- C82: Cartesian coordinates. Any solution of the equations given to the solver, in the form in which it is presented to the user,
fulfils Newton's equations in the rotating potential. -/
theorem C82_car (g : PosCar → ℝ → GradCar) (Omega t : ℝ) (d : ℝ → PosVelCar) (h : HasVelCar d (evalCar g Omega t (d t)) t) :
    Newton g Omega (fun s => getSolCar Omega s (d s)) t := by
  rw [Newton]
  simp only [rotate_getSol]
  convert h using 1
  rw [getSolCar, evalCar]
  have e := sin_sq_add_cos_sq (Omega * t)
  by_cases h0 : Omega = 0
  · simp only [h0, ne_eq, not_true_eq_false, if_false, if_true, rotate, zero_mul, cos_zero, sin_zero, PosVelCar.pos]
    ext <;> simp
  · simp only [h0, ne_eq, not_false_eq_true, if_true, if_false, rotate, PosVelCar.pos]
    ext <;> dsimp only
    · linear_combination (d t).vx * e
    · linear_combination (d t).vy * e
    · ring
    · ring

/-! ## Cylindrical coordinates -/

/-- C82: the normalization of cylindrical coordinates does not change the phase-space point. -/
theorem C82_normalize_cyl (d : PosVelCyl) : vCylToCar (getSolCyl d) = vCylToCar d ∧ 0 ≤ (getSolCyl d).R := by
  rw [getSolCyl]
  split_ifs with h
  · refine ⟨?_, by dsimp only; linarith⟩
    rw [vCylToCar, vCylToCar]
    dsimp only
    rw [cos_add_pi, sin_add_pi]
    ext <;> dsimp only <;> ring
  · exact ⟨rfl, not_lt.1 h⟩

theorem rotate_cyl (a : ℝ) (d : PosVelCyl) : rotate a (vCylToCar d) = vCylToCar { d with phi := d.phi + a } := by
  rw [rotate, vCylToCar, vCylToCar]
  dsimp only
  rw [cos_add, sin_add]
  ext <;> dsimp only <;> ring

/-- Newton's equations in cylindrical coordinates; w is the angular velocity in the inertial frame. -/
theorem cyl_newton (g : PosCar → ℝ → GradCar) (Omega t : ℝ) (d : ℝ → PosVelCyl) (D : PosVelCyl) (h : HasVelCyl d D t)
    (e1 : D.R = (d t).vR) (e2 : D.z = (d t).vz) (e3 : (d t).R * (D.phi + Omega) = (d t).vphi)
    (e4 : D.vR - (d t).vphi * (D.phi + Omega) = -((g (vCylToCar (d t)).pos t).dx * cos (d t).phi + (g (vCylToCar (d t)).pos t).dy * sin (d t).phi))
    (e5 : D.vphi + (d t).vR * (D.phi + Omega) = -(-(g (vCylToCar (d t)).pos t).dx * sin (d t).phi + (g (vCylToCar (d t)).pos t).dy * cos (d t).phi))
    (e6 : D.vz = -(g (vCylToCar (d t)).pos t).dz) : Newton g Omega (fun s => vCylToCar (d s)) t := by
  obtain ⟨h1, h2, h3, h4, h5, h6⟩ := h
  rw [Newton]
  simp only [rotate_cyl]
  set G := g (vCylToCar (d t)).pos t with hG
  have hu : HasDerivAt (fun s => (d s).phi + Omega * s) (D.phi + Omega) t := by
    exact (h3.add ((hasDerivAt_id t).const_mul Omega)).congr_deriv (by simp)
  have hc := hu.cos
  have hs := hu.sin
  have r := sin_sq_add_cos_sq (d t).phi
  refine ⟨?_, ?_, ?_, ?_, ?_, ?_⟩
  · refine (h1.mul hc).congr_deriv ?_
    simp only [rotate, vCylToCar, cos_add, sin_add]
    rw [e1]
    linear_combination -(sin (d t).phi * cos (Omega * t) + cos (d t).phi * sin (Omega * t)) * e3
  · refine (h1.mul hs).congr_deriv ?_
    simp only [rotate, vCylToCar, cos_add, sin_add]
    rw [e1]
    linear_combination (cos (d t).phi * cos (Omega * t) - sin (d t).phi * sin (Omega * t)) * e3
  · exact h2.congr_deriv e2
  · refine ((h4.mul hc).sub (h6.mul hs)).congr_deriv ?_
    simp only [rotate, cos_add, sin_add]
    linear_combination (cos (d t).phi * cos (Omega * t) - sin (d t).phi * sin (Omega * t)) * e4 -
      (sin (d t).phi * cos (Omega * t) + cos (d t).phi * sin (Omega * t)) * e5 - (G.dx * cos (Omega * t) - G.dy * sin (Omega * t)) * r
  · refine ((h4.mul hs).add (h6.mul hc)).congr_deriv ?_
    simp only [rotate, cos_add, sin_add]
    linear_combination (sin (d t).phi * cos (Omega * t) + cos (d t).phi * sin (Omega * t)) * e4 +
      (cos (d t).phi * cos (Omega * t) - sin (d t).phi * sin (Omega * t)) * e5 - (G.dx * sin (Omega * t) + G.dy * cos (Omega * t)) * r
  · exact h5.congr_deriv e6

theorem gradCyl_unique {F : PosCyl → ℝ} {p : PosCyl} {a b : GradCyl} (ha : IsGradCyl F p a) (hb : IsGradCyl F p b) : a = b := by
  have k1 := ha (fun s => s) (fun _ => p.z) (fun _ => p.phi) 1 0 0 p.R (hasDerivAt_id _) (hasDerivAt_const _ _) (hasDerivAt_const _ _) rfl
  have l1 := hb (fun s => s) (fun _ => p.z) (fun _ => p.phi) 1 0 0 p.R (hasDerivAt_id _) (hasDerivAt_const _ _) (hasDerivAt_const _ _) rfl
  have k2 := ha (fun _ => p.R) (fun s => s) (fun _ => p.phi) 0 1 0 p.z (hasDerivAt_const _ _) (hasDerivAt_id _) (hasDerivAt_const _ _) rfl
  have l2 := hb (fun _ => p.R) (fun s => s) (fun _ => p.phi) 0 1 0 p.z (hasDerivAt_const _ _) (hasDerivAt_id _) (hasDerivAt_const _ _) rfl
  have k3 := ha (fun _ => p.R) (fun _ => p.z) (fun s => s) 0 0 1 p.phi (hasDerivAt_const _ _) (hasDerivAt_const _ _) (hasDerivAt_id _) rfl
  have l3 := hb (fun _ => p.R) (fun _ => p.z) (fun s => s) 0 0 1 p.phi (hasDerivAt_const _ _) (hasDerivAt_const _ _) (hasDerivAt_id _) rfl
  have m1 := k1.unique l1
  have m2 := k2.unique l2
  have m3 := k3.unique l3
  cases a; cases b
  simp at m1 m2 m3
  simp [m1, m2, m3]

theorem gradSph_unique {F : PosSph → ℝ} {p : PosSph} {a b : GradSph} (ha : IsGradSph F p a) (hb : IsGradSph F p b) : a = b := by
  have k1 := ha (fun s => s) (fun _ => p.theta) (fun _ => p.phi) 1 0 0 p.r (hasDerivAt_id _) (hasDerivAt_const _ _) (hasDerivAt_const _ _) rfl
  have l1 := hb (fun s => s) (fun _ => p.theta) (fun _ => p.phi) 1 0 0 p.r (hasDerivAt_id _) (hasDerivAt_const _ _) (hasDerivAt_const _ _) rfl
  have k2 := ha (fun _ => p.r) (fun s => s) (fun _ => p.phi) 0 1 0 p.theta (hasDerivAt_const _ _) (hasDerivAt_id _) (hasDerivAt_const _ _) rfl
  have l2 := hb (fun _ => p.r) (fun s => s) (fun _ => p.phi) 0 1 0 p.theta (hasDerivAt_const _ _) (hasDerivAt_id _) (hasDerivAt_const _ _) rfl
  have k3 := ha (fun _ => p.r) (fun _ => p.theta) (fun s => s) 0 0 1 p.phi (hasDerivAt_const _ _) (hasDerivAt_const _ _) (hasDerivAt_id _) rfl
  have l3 := hb (fun _ => p.r) (fun _ => p.theta) (fun s => s) 0 0 1 p.phi (hasDerivAt_const _ _) (hasDerivAt_const _ _) (hasDerivAt_id _) rfl
  have m1 := k1.unique l1
  have m2 := k2.unique l2
  have m3 := k3.unique l3
  cases a; cases b
  simp at m1 m2 m3
  simp [m1, m2, m3]

/-- C82: cylindrical coordinates. If R>0, or if the azimuthal velocity and the azimuthal component of the force are zero (e.g. a meridional orbit
in an axisymmetric potential, which may cross the z axis and continue with negative R), Newton's equations hold. -/
theorem C82_cyl (Φ : ℝ → PosCar → ℝ) (g : PosCar → ℝ → GradCar) (gcyl : PosCyl → ℝ → GradCyl) (hg : ∀ p t, IsGradCar (Φ t) p (g p t))
    (hc : ∀ p t, IsGradCyl (fun q => Φ t (cylToCar q)) p (gcyl p t)) (Omega t : ℝ) (d : ℝ → PosVelCyl) (h : HasVelCyl d (evalCyl gcyl Omega t (d t)) t)
    (hd : 0 < (d t).R ∨ ((d t).vphi = 0 ∧
      -(g (vCylToCar (d t)).pos t).dx * sin (d t).phi + (g (vCylToCar (d t)).pos t).dy * cos (d t).phi = 0)) :
    Newton g Omega (fun s => vCylToCar (getSolCyl (d s))) t := by
  simp only [(C82_normalize_cyl _).1]
  have hq : ∀ p, gcyl p t = toGradCarCyl (g (cylToCar p) t) (derivCylCar p) := fun p => gradCyl_unique (hc p t) (C57_grad_car_cyl (Φ t) p _ (hg _ t))
  set G := g (vCylToCar (d t)).pos t with hG
  have epos : ∀ q : PosCyl, q = (⟨if (d t).R < 0 then -(d t).R else (d t).R, (d t).z, if (d t).R < 0 then (d t).phi + π else (d t).phi⟩ : PosCyl) →
      cylToCar q = (vCylToCar (d t)).pos := by
    rintro q rfl
    rw [cylToCar, vCylToCar, PosVelCar.pos]
    dsimp only
    split_ifs
    · rw [cos_add_pi, sin_add_pi]; ext <;> dsimp only <;> ring
    · rfl
  have key : ∀ q : PosCyl, q = (⟨if (d t).R < 0 then -(d t).R else (d t).R, (d t).z, if (d t).R < 0 then (d t).phi + π else (d t).phi⟩ : PosCyl) →
      gcyl q t = toGradCarCyl G (derivCylCar q) := fun q hq' => by rw [hq, epos q hq']
  refine cyl_newton g Omega t d _ h rfl rfl ?_ ?_ ?_ ?_
  all_goals
    rw [evalCyl, key _ rfl]
    simp only [toGradCarCyl, derivCylCar, ← hG]
  all_goals
    rcases hd with hR | ⟨hv, ha⟩
    · simp only [not_lt.2 hR.le, if_false, ne_eq, hR.ne', not_false_eq_true, if_true]
      field_simp
      try ring
    · simp only [hv]
      by_cases hn : (d t).R < 0
      · simp only [hn, if_true, cos_add_pi, sin_add_pi]
        try first
          | ring1
          | linear_combination ha
          | (have : (d t).R * (-(G.dx * sin (d t).phi) + G.dy * cos (d t).phi) = 0 := by rw [← neg_mul, ha, mul_zero]
             linear_combination (-(if -(d t).R ≠ 0 then 1 / -(d t).R else 0)) * this + ha)
      · simp only [hn, if_false]
        try first
          | ring1
          | linear_combination ha
          | (have : (d t).R * (-(G.dx * sin (d t).phi) + G.dy * cos (d t).phi) = 0 := by rw [← neg_mul, ha, mul_zero]
             linear_combination (-(if (d t).R ≠ 0 then 1 / (d t).R else 0)) * this + ha)

/-! ## Spherical coordinates -/

/-- `fmod` returns the remainder with the same sign and a smaller absolute value. -/
theorem fmod_spec (x y : ℝ) (hy : 0 < y) : (∃ n : ℤ, fmod x y = x - n * y) ∧ -y < fmod x y ∧ fmod x y < y ∧ (0 ≤ x → 0 ≤ fmod x y) ∧ (x ≤ 0 → fmod x y ≤ 0) := by
  rw [fmod, Verif.Core.truncZ]
  have e : x = y * (x / y) := by field_simp
  refine ⟨⟨_, by ring⟩, ?_⟩
  split_ifs with h
  · have h1 := Int.floor_le (x / y)
    have h2 := Int.lt_floor_add_one (x / y)
    have a1 := mul_le_mul_of_nonneg_left h1 hy.le
    have a2 := mul_lt_mul_of_pos_left h2 hy
    rw [← e] at a1 a2
    refine ⟨by linarith, by linarith, fun _ => by linarith, fun hx => ?_⟩
    have : x / y = 0 := le_antisymm (div_nonpos_of_nonpos_of_nonneg hx hy.le) h
    rw [this] at e ⊢
    simp at e
    simp [e]
  · have h1 := Int.le_ceil (x / y)
    have h2 := Int.ceil_lt_add_one (x / y)
    have a1 := mul_le_mul_of_nonneg_left h1 hy.le
    have a2 := mul_lt_mul_of_pos_left h2 hy
    rw [← e] at a1
    have a3 : y * (x / y + 1) = x + y := by field_simp
    rw [a3] at a2
    refine ⟨by linarith, by linarith, fun hx => ?_, fun _ => by linarith⟩
    exact absurd (div_nonneg hx hy.le) h

theorem sin_sub_int (x : ℝ) (n : ℤ) : sin (x - n * (2 * π)) = sin x := sin_sub_int_mul_two_pi x n

theorem cos_sub_int (x : ℝ) (n : ℤ) : cos (x - n * (2 * π)) = cos x := cos_sub_int_mul_two_pi x n

/-- What the normalization does: signr and signt are ±1, the radius and the polar angle are in the proper range, and the trigonometric functions only change signs. -/
theorem normalize_spec (r theta phi : ℝ) :
    ((normalize r theta phi).signr = if r < 0 then -1 else 1) ∧ ((normalize r theta phi).signt = 1 ∨ (normalize r theta phi).signt = -1) ∧
    (normalize r theta phi).r = |r| ∧
    0 ≤ (normalize r theta phi).theta ∧ (normalize r theta phi).theta ≤ π ∧
    cos (normalize r theta phi).theta = (normalize r theta phi).signr * cos theta ∧
    sin (normalize r theta phi).theta = (normalize r theta phi).signt * sin theta ∧
    cos (normalize r theta phi).phi = (normalize r theta phi).signr * (normalize r theta phi).signt * cos phi ∧
    sin (normalize r theta phi).phi = (normalize r theta phi).signr * (normalize r theta phi).signt * sin phi := by
  have hpi := pi_pos
  obtain ⟨⟨n, hn⟩, h1, h2, -, -⟩ := fmod_spec theta (2 * π) (by linarith)
  have hs : sin (fmod theta (2 * π)) = sin theta := by rw [hn]; exact sin_sub_int _ _
  have hc : cos (fmod theta (2 * π)) = cos theta := by rw [hn]; exact cos_sub_int _ _
  rw [normalize]
  generalize fmod theta (2 * π) = u at *
  have e1 : ¬(1:ℝ) = -1 := by norm_num
  have s3 : sin (2 * π - u) = -sin u := by rw [sin_two_pi_sub]
  have c3 : cos (2 * π - u) = cos u := by rw [cos_two_pi_sub]
  by_cases a1 : u < -π
  · by_cases hr : r < 0
    · simp only [a1, hr, if_true, e1, xor_false, cos_pi_sub, sin_pi_sub, sin_add_two_pi, cos_add_two_pi, sin_add_pi, cos_add_pi, abs_of_neg hr, hs, hc]
      simp
      exact ⟨by linarith, by linarith⟩
    · simp only [a1, hr, if_true, if_false, e1, xor_false, sin_add_two_pi, cos_add_two_pi, abs_of_nonneg (not_lt.1 hr), hs, hc]
      simp
      exact ⟨by linarith, by linarith⟩
  · by_cases a2 : u < 0
    · by_cases hr : r < 0
      · simp only [a1, a2, hr, if_true, if_false, cos_pi_sub, sin_pi_sub, sin_neg, cos_neg, abs_of_neg hr, hs, hc]
        simp
        exact ⟨by linarith, by linarith⟩
      · simp only [a1, a2, hr, if_true, if_false, e1, sin_neg, cos_neg, sin_add_pi, cos_add_pi, abs_of_nonneg (not_lt.1 hr), hs, hc]
        simp
        exact ⟨by linarith, by linarith⟩
    · by_cases a3 : u > π
      · by_cases hr : r < 0
        · simp only [a1, a2, a3, hr, if_true, if_false, cos_pi_sub, sin_pi_sub, s3, c3, abs_of_neg hr, hs, hc]
          simp
          exact ⟨by linarith, by linarith⟩
        · simp only [a1, a2, a3, hr, if_true, if_false, e1, s3, c3, sin_add_pi, cos_add_pi, abs_of_nonneg (not_lt.1 hr), hs, hc]
          simp
          exact ⟨by linarith, by linarith⟩
      · by_cases hr : r < 0
        · simp only [a1, a2, a3, hr, if_true, if_false, e1, xor_false, cos_pi_sub, sin_pi_sub, sin_add_pi, cos_add_pi, abs_of_neg hr, hs, hc]
          simp
          exact ⟨by linarith, by linarith⟩
        · simp only [a1, a2, a3, hr, if_false, e1, abs_of_nonneg (not_lt.1 hr), hs, hc]
          simp
          exact ⟨by linarith, by linarith⟩

/-- C82: the normalization of spherical coordinates does not change the phase-space point, and the coordinates are in the canonical range. -/
theorem C82_normalize_sph (d : PosVelSph) : vSphToCar (getSolSph d) = vSphToCar d ∧ 0 ≤ (getSolSph d).r ∧
    0 ≤ (getSolSph d).theta ∧ (getSolSph d).theta ≤ π ∧ 0 ≤ (getSolSph d).phi ∧ (getSolSph d).phi < 2 * π := by
  obtain ⟨q1, q2, q3, q4, q5, q6, q7, q8, q9⟩ := normalize_spec d.r d.theta d.phi
  obtain ⟨w1, w2, n, w3⟩ := Verif.Core.C13_wrapAngle (2 * π) (normalize d.r d.theta d.phi).phi (by have := pi_pos; linarith)
  rw [getSolSph]
  generalize normalize d.r d.theta d.phi = N at *
  have hw : wrapAngle (2 * π) N.phi = N.phi - n * (2 * π) := by linarith
  refine ⟨?_, by dsimp only; rw [q3]; exact abs_nonneg _, q4, q5, w1, w2⟩
  have hR : N.r = N.signr * d.r := by
    rw [q1, q3]
    split_ifs with h
    · rw [abs_of_neg h]; ring
    · rw [abs_of_nonneg (not_lt.1 h)]; ring
  have hr1 : N.signr ^ 2 = 1 := by rw [q1]; split_ifs <;> norm_num
  have ht1 : N.signt ^ 2 = 1 := by rcases q2 with h | h <;> rw [h] <;> norm_num
  rw [vSphToCar, vSphToCar]
  simp only [hw, sin_sub_int, cos_sub_int, q6, q7, q8, q9, hR]
  generalize N.signr = a at *
  generalize N.signt = b at *
  have hab : a ^ 2 * b ^ 2 = 1 := by rw [hr1, ht1]; norm_num
  ext <;> dsimp only
  · linear_combination (d.r * sin d.theta * cos d.phi) * hab
  · linear_combination (d.r * sin d.theta * sin d.phi) * hab
  · linear_combination (d.r * cos d.theta) * hr1
  · linear_combination ((d.vr * sin d.theta + d.vtheta * cos d.theta) * cos d.phi - d.vphi * sin d.phi) * hab
  · linear_combination ((d.vr * sin d.theta + d.vtheta * cos d.theta) * sin d.phi + d.vphi * cos d.phi) * hab
  · linear_combination (d.vr * cos d.theta) * hr1 - (d.vtheta * sin d.theta) * ht1

/-- C82: the initial conditions are what `getSol` returns at the initial time, in all coordinate systems. -/
theorem C82_init (Omega t : ℝ) (ic : PosVelCar) :
    getSolCar Omega t (initCar Omega t ic) = ic ∧ vCylToCar (getSolCyl (vCarToCyl ic)) = ic ∧ vSphToCar (getSolSph (vCarToSph ic)) = ic := by
  refine ⟨?_, ?_, ?_⟩
  · have h := sin_sq_add_cos_sq (Omega * t)
    rw [getSolCar, initCar]
    split_ifs with h0
    · ext <;> dsimp only
      · linear_combination ic.x * h
      · linear_combination ic.y * h
      · linear_combination ic.vx * h
      · linear_combination ic.vy * h
    · rfl
  · rw [(C82_normalize_cyl _).1, C55_car_cyl_car]
  · rw [(C82_normalize_sph _).1, C55_car_sph_car]

/-- Newton's equations in spherical coordinates -/
theorem sph_newton (g : PosCar → ℝ → GradCar) (Omega t : ℝ) (d : ℝ → PosVelSph) (D : PosVelSph) (h : HasVelSph d D t)
    (e1 : D.r = (d t).vr) (e2 : (d t).r * D.theta = (d t).vtheta) (e3 : (d t).r * sin (d t).theta * (D.phi + Omega) = (d t).vphi)
    (e4 : D.vr = (d t).vtheta * D.theta + (d t).vphi * sin (d t).theta * (D.phi + Omega) -
      (sin (d t).theta * ((g (vSphToCar (d t)).pos t).dx * cos (d t).phi + (g (vSphToCar (d t)).pos t).dy * sin (d t).phi) +
        cos (d t).theta * (g (vSphToCar (d t)).pos t).dz))
    (e5 : D.vtheta = -(d t).vr * D.theta + (d t).vphi * cos (d t).theta * (D.phi + Omega) -
      (cos (d t).theta * ((g (vSphToCar (d t)).pos t).dx * cos (d t).phi + (g (vSphToCar (d t)).pos t).dy * sin (d t).phi) -
        sin (d t).theta * (g (vSphToCar (d t)).pos t).dz))
    (e6 : D.vphi = -((d t).vr * sin (d t).theta + (d t).vtheta * cos (d t).theta) * (D.phi + Omega) -
      (-(g (vSphToCar (d t)).pos t).dx * sin (d t).phi + (g (vSphToCar (d t)).pos t).dy * cos (d t).phi)) :
    Newton g Omega (fun s => vSphToCar (d s)) t := by
  obtain ⟨h1, h2, h3, h4, h5, h6⟩ := h
  have hs := h2.sin
  have hc := h2.cos
  have r := sin_sq_add_cos_sq (d t).theta
  simp only [← C55_triangle_sph] at *
  set G := g (vCylToCar (vSphToCyl (d t))).pos t with hG
  refine cyl_newton g Omega t (fun s => vSphToCyl (d s))
    ⟨D.r * sin (d t).theta + (d t).r * (cos (d t).theta * D.theta), D.r * cos (d t).theta + (d t).r * (-sin (d t).theta * D.theta), D.phi,
     (D.vr * sin (d t).theta + (d t).vr * (cos (d t).theta * D.theta)) + (D.vtheta * cos (d t).theta + (d t).vtheta * (-sin (d t).theta * D.theta)),
     (D.vr * cos (d t).theta + (d t).vr * (-sin (d t).theta * D.theta)) - (D.vtheta * sin (d t).theta + (d t).vtheta * (cos (d t).theta * D.theta)), D.vphi⟩
    ⟨h1.mul hs, h1.mul hc, h3, (h4.mul hs).add (h5.mul hc), (h4.mul hc).sub (h5.mul hs), h6⟩ ?_ ?_ ?_ ?_ ?_ ?_
  all_goals try simp only [← hG]
  all_goals try simp only [vSphToCyl]
  · linear_combination sin (d t).theta * e1 + cos (d t).theta * e2
  · linear_combination cos (d t).theta * e1 - sin (d t).theta * e2
  · exact e3
  · linear_combination sin (d t).theta * e4 + cos (d t).theta * e5 + ((d t).vphi * (D.phi + Omega) - (G.dx * cos (d t).phi + G.dy * sin (d t).phi)) * r
  · linear_combination e6
  · linear_combination cos (d t).theta * e4 - sin (d t).theta * e5 - G.dz * r

/-- C82: spherical coordinates. Newton's equations hold
- at points not on the z axis, if r>0 and the polar angle is in the regular range (modulo 2π);
- anywhere except the origin (the polar angle may have left the range [0,π] after crossing the z axis) if the azimuthal velocity and the azimuthal component of
the force are zero;
- anywhere (including r<0) for a purely radial motion. -/
theorem C82_sph (Φ : ℝ → PosCar → ℝ) (g : PosCar → ℝ → GradCar) (gsph : PosSph → ℝ → GradSph) (hg : ∀ p t, IsGradCar (Φ t) p (g p t))
    (hc : ∀ p t, IsGradSph (fun q => Φ t (sphToCar q)) p (gsph p t)) (Omega t : ℝ) (d : ℝ → PosVelSph) (h : HasVelSph d (evalSph gsph Omega t (d t)) t)
    (hd : (0 < (d t).r ∧ 0 < sin (d t).theta) ∨
      (0 < (d t).r ∧ (d t).vphi = 0 ∧
        -(g (vSphToCar (d t)).pos t).dx * sin (d t).phi + (g (vSphToCar (d t)).pos t).dy * cos (d t).phi = 0) ∨
      ((d t).vtheta = 0 ∧ (d t).vphi = 0 ∧
        -(g (vSphToCar (d t)).pos t).dx * sin (d t).phi + (g (vSphToCar (d t)).pos t).dy * cos (d t).phi = 0 ∧
        cos (d t).theta * ((g (vSphToCar (d t)).pos t).dx * cos (d t).phi + (g (vSphToCar (d t)).pos t).dy * sin (d t).phi) -
          sin (d t).theta * (g (vSphToCar (d t)).pos t).dz = 0)) :
    Newton g Omega (fun s => vSphToCar (getSolSph (d s))) t := by
  simp only [(C82_normalize_sph _).1]
  obtain ⟨q1, q2, q3, q4, q5, q6, q7, q8, q9⟩ := normalize_spec (d t).r (d t).theta (d t).phi
  have hq : ∀ p, gsph p t = toGradCarSph (g (sphToCar p) t) (derivSphCar p) := fun p => gradSph_unique (hc p t) (C57_grad_car_sph (Φ t) p _ (hg _ t))
  rw [evalSph, hq] at h
  generalize normalize (d t).r (d t).theta (d t).phi = N at *
  have hr1 : N.signr ^ 2 = 1 := by rw [q1]; split_ifs <;> norm_num
  have ht1 : N.signt ^ 2 = 1 := by rcases q2 with h | h <;> rw [h] <;> norm_num
  have hab : N.signr ^ 2 * N.signt ^ 2 = 1 := by rw [hr1, ht1]; norm_num
  have hR : N.r = N.signr * (d t).r := by
    rw [q1, q3]
    split_ifs with h
    · rw [abs_of_neg h]; ring
    · rw [abs_of_nonneg (not_lt.1 h)]; ring
  have epos : sphToCar ⟨N.r, N.theta, N.phi⟩ = (vSphToCar (d t)).pos := by
    rw [sphToCar, vSphToCar, PosVelCar.pos]
    simp only [q6, q7, q8, q9, hR]
    ext <;> dsimp only
    · linear_combination ((d t).r * sin (d t).theta * cos (d t).phi) * hab
    · linear_combination ((d t).r * sin (d t).theta * sin (d t).phi) * hab
    · linear_combination ((d t).r * cos (d t).theta) * hr1
  rw [epos] at h
  have hth0 : 0 ≤ sin N.theta := sin_nonneg_of_nonneg_of_le_pi q4 q5
  set G := g (vSphToCar (d t)).pos t with hG
  rcases hd with ⟨hr0, hs0⟩ | hd
  · have a1 : N.signr = 1 := by rw [q1, if_neg (not_lt.2 hr0.le)]
    have b1 : N.signt = 1 := by
      rcases q2 with h | h
      · exact h
      · rw [q7, h] at hth0; linarith
    simp only [toGradCarSph, derivSphCar, q6, q7, q8, q9, hR, a1, b1, one_mul, mul_one, hr0.ne', hs0.ne', ne_eq, not_false_eq_true, if_true] at h
    refine sph_newton g Omega t d _ h rfl ?_ ?_ ?_ ?_ ?_
    all_goals
      simp only [← hG]
      field_simp
      try ring
  · have hgp : -G.dx * sin (d t).phi + G.dy * cos (d t).phi = 0 := by
      rcases hd with ⟨_, _, ha⟩ | ⟨_, _, ha, _⟩ <;> exact ha
    have hv : (d t).vphi = 0 := by
      rcases hd with ⟨_, ha, _⟩ | ⟨_, ha, _, _⟩ <;> exact ha
    have e2 : (d t).r * ((d t).vtheta * (if N.r ≠ 0 then 1 / N.r else 0)) = (d t).vtheta := by
      rcases hd with ⟨hr0, _, _⟩ | ⟨ha, _, _, _⟩
      · rw [q3, abs_of_pos hr0, if_pos hr0.ne']; field_simp
      · rw [ha]; ring
    have e5 : (-(N.r * N.signt * (cos (d t).theta * (G.dx * cos (d t).phi + G.dy * sin (d t).phi) - sin (d t).theta * G.dz)) * N.signt) * (if N.r ≠ 0 then 1 / N.r else 0) =
        -(cos (d t).theta * (G.dx * cos (d t).phi + G.dy * sin (d t).phi) - sin (d t).theta * G.dz) := by
      rcases hd with ⟨hr0, _, _⟩ | ⟨_, _, _, hb⟩
      · have : N.r ≠ 0 := by rw [q3, abs_of_pos hr0]; exact hr0.ne'
        rw [if_pos this]
        field_simp
        rw [ht1]; ring
      · rw [hb]; ring
    refine sph_newton g Omega t d _ h rfl e2 ?_ ?_ ?_ ?_
    all_goals simp only [← hG, hv, toGradCarSph, derivSphCar, q6, q7, q8, q9]
    · ring
    · linear_combination (-(G.dx * sin (d t).theta * cos (d t).phi + G.dy * sin (d t).theta * sin (d t).phi)) * hab - (G.dz * cos (d t).theta) * hr1
    · rw [← sub_eq_zero] at e5
      generalize (if N.r ≠ 0 then 1 / N.r else 0) = ri at *
      linear_combination e5 - (ri * N.r * N.signt ^ 2 * cos (d t).theta * (G.dx * cos (d t).phi + G.dy * sin (d t).phi)) * hr1
    · generalize (if N.r ≠ 0 then 1 / N.r else 0) = ri at *
      generalize (if N.signt * sin (d t).theta ≠ 0 then 1 / (N.signt * sin (d t).theta) else 0) = si at *
      linear_combination (-(N.r * N.signt ^ 2 * sin (d t).theta * N.signr * si * ri) + 1) * hgp

/-! ## Consequences -/

theorem rotate_rotate (a b : ℝ) (p : PosVelCar) : rotate a (rotate b p) = rotate (a + b) p := by
  rw [rotate, rotate, rotate, cos_add, sin_add]
  ext <;> dsimp only <;> ring

theorem rotate_zero (p : PosVelCar) : rotate 0 p = p := by
  rw [rotate]
  ext <;> simp

/-- C82: Newton's equations in a static (in the rotating frame) potential imply the conservation of the Jacobi integral E - Ω Lz (energy when Ω=0),
computed from the phase-space coordinates presented to the user. -/
theorem C82_jacobi (Φ : PosCar → ℝ) (g : PosCar → ℝ → GradCar) (hg : ∀ p t, IsGradCar Φ p (g p t)) (Omega t : ℝ) (out : ℝ → PosVelCar) (h : Newton g Omega out t) :
    HasDerivAt (fun s => Φ (out s).pos + ((out s).vx ^ 2 + (out s).vy ^ 2 + (out s).vz ^ 2) / 2 - Omega * ((out s).x * (out s).vy - (out s).y * (out s).vx)) 0 t := by
  have hv : HasDerivAt (fun s => -(Omega * s)) (-Omega) t := ((hasDerivAt_id t).const_mul Omega).neg.congr_deriv (by simp)
  have hc := hv.cos
  have hs := hv.sin
  obtain ⟨h1, h2, h3, h4, h5, h6⟩ := h
  have hback : ∀ s, out s = rotate (-(Omega * s)) (rotate (Omega * s) (out s)) := fun s => by rw [rotate_rotate, neg_add_cancel, rotate_zero]
  have r := sin_sq_add_cos_sq (Omega * t)
  have k1 : HasDerivAt (fun s => (out s).x) ((out t).vx + Omega * (out t).y) t := by
    have := (h1.mul hc).sub (h2.mul hs)
    have e : (fun s => (out s).x) = (fun s => (rotate (Omega * s) (out s)).x) * (fun s => cos (-(Omega * s))) - (fun s => (rotate (Omega * s) (out s)).y) * (fun s => sin (-(Omega * s))) := by
      funext s; conv_lhs => rw [hback s]
      rfl
    rw [e]
    refine this.congr_deriv ?_
    simp only [rotate, cos_neg, sin_neg]
    linear_combination ((out t).vx + Omega * (out t).y) * r
  have k2 : HasDerivAt (fun s => (out s).y) ((out t).vy - Omega * (out t).x) t := by
    have := (h1.mul hs).add (h2.mul hc)
    have e : (fun s => (out s).y) = (fun s => (rotate (Omega * s) (out s)).x) * (fun s => sin (-(Omega * s))) + (fun s => (rotate (Omega * s) (out s)).y) * (fun s => cos (-(Omega * s))) := by
      funext s; conv_lhs => rw [hback s]
      rfl
    rw [e]
    refine this.congr_deriv ?_
    simp only [rotate, cos_neg, sin_neg]
    linear_combination ((out t).vy - Omega * (out t).x) * r
  have k4 : HasDerivAt (fun s => (out s).vx) (-(g (out t).pos t).dx + Omega * (out t).vy) t := by
    have := (h4.mul hc).sub (h5.mul hs)
    have e : (fun s => (out s).vx) = (fun s => (rotate (Omega * s) (out s)).vx) * (fun s => cos (-(Omega * s))) - (fun s => (rotate (Omega * s) (out s)).vy) * (fun s => sin (-(Omega * s))) := by
      funext s; conv_lhs => rw [hback s]
      rfl
    rw [e]
    refine this.congr_deriv ?_
    simp only [rotate, cos_neg, sin_neg]
    linear_combination (-(g (out t).pos t).dx + Omega * (out t).vy) * r
  have k5 : HasDerivAt (fun s => (out s).vy) (-(g (out t).pos t).dy - Omega * (out t).vx) t := by
    have := (h4.mul hs).add (h5.mul hc)
    have e : (fun s => (out s).vy) = (fun s => (rotate (Omega * s) (out s)).vx) * (fun s => sin (-(Omega * s))) + (fun s => (rotate (Omega * s) (out s)).vy) * (fun s => cos (-(Omega * s))) := by
      funext s; conv_lhs => rw [hback s]
      rfl
    rw [e]
    refine this.congr_deriv ?_
    simp only [rotate, cos_neg, sin_neg]
    linear_combination (-(g (out t).pos t).dy - Omega * (out t).vx) * r
  have k3 : HasDerivAt (fun s => (out s).z) (out t).vz t := h3
  have k6 : HasDerivAt (fun s => (out s).vz) (-(g (out t).pos t).dz) t := h6
  have kp := hg (out t).pos t _ _ _ _ _ _ t k1 k2 k3 rfl
  have := (kp.add ((((k4.pow 2).add (k5.pow 2)).add (k6.pow 2)).div_const 2)).sub (((k1.mul k5).sub (k2.mul k4)).const_mul Omega)
  refine this.congr_deriv ?_
  push_cast
  ring

/-- C82: the second function evaluated by the Hermite integrator is the time derivative of the first one along the trajectory, for a static potential. -/
theorem C82_hermite (g : PosCar → GradCar) (hess : PosCar → ℝ → HessCar) (hH : ∀ p t, IsHessCar g p (hess p t)) (t : ℝ) (d : ℝ → PosVelCar)
    (hx : HasDerivAt (fun s => (d s).x) (d t).vx t) (hy : HasDerivAt (fun s => (d s).y) (d t).vy t) (hz : HasDerivAt (fun s => (d s).z) (d t).vz t) :
    HasDerivAt (fun s => (evalHermite (fun p _ => g p) hess s (d s)).1) (evalHermite (fun p _ => g p) hess t (d t)).2 t := by
  obtain ⟨a1, a2, a3⟩ := hH ⟨(d t).x, (d t).y, (d t).z⟩ t
  have b1 := a1 _ _ _ _ _ _ t hx hy hz rfl
  have b2 := a2 _ _ _ _ _ _ t hx hy hz rfl
  have b3 := a3 _ _ _ _ _ _ t hx hy hz rfl
  simp only [evalHermite]
  refine (b1.neg.congr_deriv ?_).prodMk ((b2.neg.congr_deriv ?_).prodMk (b3.neg.congr_deriv ?_)) <;> ring

/-- C82, refuted for time-dependent potentials: the Hermite integrator is not refused for them, but the time derivative of the acceleration does not
contain the explicit time derivative of the force. Example: Φ(x,t) = x t. -/
theorem C82_refuted_hermite : ∃ (Φ : ℝ → PosCar → ℝ) (g : PosCar → ℝ → GradCar) (hess : PosCar → ℝ → HessCar) (d : ℝ → PosVelCar) (t : ℝ),
    (∀ p t, IsGradCar (Φ t) p (g p t)) ∧ (∀ p t, IsHessCar (fun q => g q t) p (hess p t)) ∧ Newton g 0 d t ∧
    ¬ HasDerivAt (fun s => (evalHermite g hess s (d s)).1.1) (evalHermite g hess t (d t)).2.1 t := by
  refine ⟨fun t p => p.x * t, fun _ t => ⟨t, 0, 0⟩, fun _ _ => ⟨0, 0, 0, 0, 0, 0⟩, fun s => ⟨-s ^ 3 / 6, 0, 0, -s ^ 2 / 2, 0, 0⟩, 0, ?_, ?_, ?_, ?_⟩
  · intro p t x y z x' y' z' u h1 h2 h3 _
    exact (h1.mul_const t).congr_deriv (by ring)
  · intro p t
    refine ⟨?_, ?_, ?_⟩ <;>
    · intro x y z x' y' z' u h1 h2 h3 _
      exact (hasDerivAt_const _ _).congr_deriv (by ring)
  · rw [Newton]
    simp only [zero_mul, rotate_zero]
    have q : HasDerivAt (fun s : ℝ => -s ^ 3 / 6) (-0 ^ 2 / 2) 0 := ((((hasDerivAt_id (0:ℝ)).pow 3).neg).div_const 6).congr_deriv (by simp)
    have q' : HasDerivAt (fun s : ℝ => -s ^ 2 / 2) (-0) 0 := ((((hasDerivAt_id (0:ℝ)).pow 2).neg).div_const 2).congr_deriv (by simp)
    refine ⟨q, ?_, ?_, q', ?_, ?_⟩ <;> simpa using hasDerivAt_const (0:ℝ) (0:ℝ)
  · intro h
    simp only [evalHermite] at h
    have h' : HasDerivAt (fun s : ℝ => -s) (-1) 0 := (hasDerivAt_id (0:ℝ)).neg
    have := h.unique h'
    norm_num at this

/-- C82, refuted for R<0 with non-zero azimuthal velocity: the equation for φ has the sign appropriate for R>0, while the presentation of the solution
changes the sign of the azimuthal velocity. (Free motion; a negative R may result from a step of the numerical integrator near the z axis.) -/
theorem C82_refuted_cyl : ∃ (d : ℝ → PosVelCyl), HasVelCyl d (evalCyl (fun _ _ => ⟨0, 0, 0⟩) 0 0 (d 0)) 0 ∧ (d 0).R < 0 ∧
    ¬ Newton (fun _ _ => ⟨0, 0, 0⟩) 0 (fun s => vCylToCar (getSolCyl (d s))) 0 := by
  refine ⟨fun s => ⟨-1, 0, s, s, 0, 1⟩, ?_, by norm_num, ?_⟩
  · simp only [evalCyl]
    norm_num
    refine ⟨hasDerivAt_const _ _, hasDerivAt_const _ _, hasDerivAt_id _, hasDerivAt_id _, hasDerivAt_const _ _, ?_⟩
    exact hasDerivAt_const _ _
  · intro h
    have hy := h.2.1
    simp only [zero_mul, rotate_zero, (C82_normalize_cyl _).1] at hy
    simp only [vCylToCar] at hy
    have h' : HasDerivAt (fun s : ℝ => -1 * sin s) (-1) 0 := ((hasDerivAt_id (0:ℝ)).sin.const_mul (-1)).congr_deriv (by simp)
    have := hy.unique h'
    simp at this
    norm_num at this

/-- C82: the factor applied to the tolerance of the solver is between 0 and 1, and is 1 at least when the potential is positive. -/
theorem C82_accuracyFactor (Epot Ekin : ℝ) (hK : 0 ≤ Ekin) : 0 ≤ accuracyFactor Epot Ekin ∧ accuracyFactor Epot Ekin ≤ 1 ∧
    (0 < Epot → accuracyFactor Epot Ekin = 1) := by
  rw [accuracyFactor]
  refine ⟨le_min zero_le_one (div_nonneg (abs_nonneg _) (le_max_of_le_left (abs_nonneg _))), min_le_left _ _, fun h => ?_⟩
  rw [min_eq_left]
  rw [abs_of_pos h, abs_of_pos (by linarith), le_div_iff₀ (lt_max_of_lt_left h)]
  rcases max_cases Epot Ekin with ⟨h1, _⟩ | ⟨h1, _⟩ <;> rw [h1] <;> linarith

/-- Example: a circular orbit of unit radius in the harmonic potential, seen from a rotating frame: the hypotheses of C82_car hold and both are non-trivial. -/
example (Omega : ℝ) (h0 : Omega ≠ 0) (t : ℝ) : HasVelCar (fun s => ⟨cos s, sin s, 0, -sin s, cos s, 0⟩)
    (evalCar (fun p _ => ⟨p.x, p.y, p.z⟩) Omega t ⟨cos t, sin t, 0, -sin t, cos t, 0⟩) t := by
  have e := sin_sq_add_cos_sq (Omega * t)
  rw [evalCar]
  refine ⟨hasDerivAt_cos t, hasDerivAt_sin t, hasDerivAt_const _ _, (hasDerivAt_sin t).neg.congr_deriv ?_, (hasDerivAt_cos t).congr_deriv ?_, ?_⟩
  · simp only [h0, if_false]; linear_combination cos t * e
  · simp only [h0, if_false]; linear_combination sin t * e
  · simpa using hasDerivAt_const t (0:ℝ)

/-- Example: the same orbit in cylindrical coordinates -/
example (Omega t : ℝ) : HasVelCyl (fun s => ⟨1, 0, (1 - Omega) * s, 0, 0, 1⟩) (evalCyl (fun p _ => ⟨p.R, p.z, 0⟩) Omega t ⟨1, 0, (1 - Omega) * t, 0, 0, 1⟩) t ∧
    IsGradCyl (fun q => (q.R ^ 2 + q.z ^ 2) / 2) ⟨1, 0, (1 - Omega) * t⟩ ⟨1, 0, 0⟩ := by
  constructor
  · rw [evalCyl]
    norm_num
    refine ⟨hasDerivAt_const _ _, hasDerivAt_const _ _, ((hasDerivAt_id t).const_mul (1 - Omega)).congr_deriv (by simp), hasDerivAt_const _ _, hasDerivAt_const _ _,
      hasDerivAt_const _ _⟩
  · intro R z phi R' z' phi' u h1 h2 h3 hp
    have e1 : R u = 1 := congrArg PosCyl.R hp
    have e2 : z u = 0 := congrArg PosCyl.z hp
    refine (((h1.pow 2).add (h2.pow 2)).div_const 2).congr_deriv ?_
    rw [e1, e2]
    norm_num

/-- Example: an orbit along the x axis in spherical coordinates with r changing sign -/
example : (getSolSph ⟨-1, π / 2, 0, 2, 0, 0⟩).r = 1 ∧ (getSolSph ⟨-1, π / 2, 0, 2, 0, 0⟩).vr = -2 := by
  have h := (normalize_spec (-1) (π / 2) 0)
  rw [getSolSph]
  refine ⟨by dsimp only; rw [h.2.2.1]; norm_num, by dsimp only; rw [h.1]; norm_num⟩

end

end Verif.Orbit
