import Mathlib.Analysis.SpecialFunctions.Complex.Arg
import Mathlib.Analysis.SpecialFunctions.Pow.Real
import Mathlib.Analysis.SpecialFunctions.Sqrt

/-!
# Coordinate systems: positions, velocities and their conversions

Models `/repo/src/coord.h` and `/repo/src/coord.cpp` (position and position/velocity conversions).
Number model (E): `double` is ℝ; rounding, signed zeros, infinities and NaN are not represented.  In particular
* `math::sincos` (math_core.cpp:167-199) is taken to return exactly the sine and the cosine of its argument;
* `mul(x,y)` (coord.cpp:46) is `x*y` because it differs from the product only for infinite `x`;
* `atan2(y,x)` is the principal argument of `x+iy` in `(-π,π]`, `atan2(0,0)=0`, as in C for a positive zero.
-/

namespace Verif.Coord

open Real

/-- C's `atan2(y,x)` for finite arguments without signed zeros. -/
noncomputable def atan2 (y x : ℝ) : ℝ := Complex.arg ⟨x, y⟩

/-- coord.h:190-196 -/
@[ext] structure PosCar where (x y z : ℝ)
/-- coord.h:199-206 -/
@[ext] structure PosCyl where (R z phi : ℝ)
/-- coord.h:209-217 -/
@[ext] structure PosSph where (r theta phi : ℝ)
/-- coord.h:353-375 (PosCar and VelCar are base classes there) -/
@[ext] structure PosVelCar where (x y z vx vy vz : ℝ)
/-- coord.h:378-399 -/
@[ext] structure PosVelCyl where (R z phi vR vz vphi : ℝ)
/-- coord.h:402-423 -/
@[ext] structure PosVelSph where (r theta phi vr vtheta vphi : ℝ)

/-- the position part (C++: conversion to the base class) -/
def PosVelCar.pos (p : PosVelCar) : PosCar := ⟨p.x, p.y, p.z⟩
/-- the position part (C++: conversion to the base class) -/
def PosVelCyl.pos (p : PosVelCyl) : PosCyl := ⟨p.R, p.z, p.phi⟩
/-- the position part (C++: conversion to the base class) -/
def PosVelSph.pos (p : PosVelSph) : PosSph := ⟨p.r, p.theta, p.phi⟩

/-! ## positions, coord.cpp:50-75 -/

/-- coord.cpp:50-54 -/
noncomputable def cylToCar (p : PosCyl) : PosCar := ⟨p.R * cos p.phi, p.R * sin p.phi, p.z⟩
/-- coord.cpp:55-60 -/
noncomputable def sphToCar (p : PosSph) : PosCar :=
  ⟨p.r * (sin p.theta * cos p.phi), p.r * (sin p.theta * sin p.phi), p.r * cos p.theta⟩
/-- coord.cpp:61-63 -/
noncomputable def carToCyl (p : PosCar) : PosCyl := ⟨√(p.x ^ 2 + p.y ^ 2), p.z, atan2 p.y p.x⟩
/-- coord.cpp:64-68 -/
noncomputable def sphToCyl (p : PosSph) : PosCyl := ⟨p.r * sin p.theta, p.r * cos p.theta, p.phi⟩
/-- coord.cpp:69-72 -/
noncomputable def carToSph (p : PosCar) : PosSph :=
  ⟨√(p.x ^ 2 + p.y ^ 2 + p.z ^ 2), atan2 (√(p.x ^ 2 + p.y ^ 2)) p.z, atan2 p.y p.x⟩
/-- coord.cpp:73-75 -/
noncomputable def cylToSph (p : PosCyl) : PosSph := ⟨√(p.R ^ 2 + p.z ^ 2), atan2 p.R p.z, p.phi⟩

/-! ## positions and velocities, coord.cpp:457-523 -/

/-- coord.cpp:457-463 -/
noncomputable def vCylToCar (p : PosVelCyl) : PosVelCar :=
  let vx := p.vR * cos p.phi - p.vphi * sin p.phi
  let vy := p.vR * sin p.phi + p.vphi * cos p.phi
  ⟨p.R * cos p.phi, p.R * sin p.phi, p.z, vx, vy, p.vz⟩

/-- coord.cpp:465-474 -/
noncomputable def vSphToCar (p : PosVelSph) : PosVelCar :=
  let R := p.r * sin p.theta
  let vR := p.vr * sin p.theta + p.vtheta * cos p.theta
  let vx := vR * cos p.phi - p.vphi * sin p.phi
  let vy := vR * sin p.phi + p.vphi * cos p.phi
  let vz := p.vr * cos p.theta - p.vtheta * sin p.theta
  ⟨R * cos p.phi, R * sin p.phi, p.r * cos p.theta, vx, vy, vz⟩

open Classical in
/-- coord.cpp:476-484; the branch `R==0` takes the azimuth from the velocity -/
noncomputable def vCarToCyl (p : PosVelCar) : PosVelCyl :=
  let R := √(p.x ^ 2 + p.y ^ 2)
  if R = 0 then ⟨R, p.z, atan2 p.vy p.vx, √(p.vx ^ 2 + p.vy ^ 2), p.vz, 0⟩
  else
    let cosphi := p.x / R
    let sinphi := p.y / R
    let vR := p.vx * cosphi + p.vy * sinphi
    let vphi := -p.vx * sinphi + p.vy * cosphi
    ⟨R, p.z, atan2 p.y p.x, vR, p.vz, vphi⟩

/-- coord.cpp:486-493 -/
noncomputable def vSphToCyl (p : PosVelSph) : PosVelCyl :=
  let R := p.r * sin p.theta
  let z := p.r * cos p.theta
  let vR := p.vr * sin p.theta + p.vtheta * cos p.theta
  let vz := p.vr * cos p.theta - p.vtheta * sin p.theta
  ⟨R, z, p.phi, vR, vz, p.vphi⟩

open Classical in
/-- coord.cpp:495-511 (`1/R`, `1/r` are only used when the corresponding value is non-zero) -/
noncomputable def vCarToSph (p : PosVelCar) : PosVelSph :=
  let R2 := p.x ^ 2 + p.y ^ 2
  let R := √R2
  let invR := 1 / R
  let r2 := R2 + p.z ^ 2
  let r := √r2
  let invr := 1 / r
  if R = 0 then
    let vR := √(p.vx ^ 2 + p.vy ^ 2)
    let phi := atan2 p.vy p.vx
    if p.z = 0 then ⟨0, atan2 vR p.vz, phi, √(vR ^ 2 + p.vz ^ 2), 0, 0⟩
    else ⟨r, if p.z ≥ 0 then 0 else π, phi,
          p.vz * (if p.z ≥ 0 then 1 else -1), vR * (if p.z ≥ 0 then 1 else -1), 0⟩
  else
    let temp := p.x * p.vx + p.y * p.vy
    let vr := (temp + p.z * p.vz) * invr
    let vtheta := (temp * p.z * invR - p.vz * R) * invr
    let vphi := (p.x * p.vy - p.y * p.vx) * invR
    ⟨r, atan2 R p.z, atan2 p.y p.x, vr, vtheta, vphi⟩

open Classical in
/-- coord.cpp:513-523 -/
noncomputable def vCylToSph (p : PosVelCyl) : PosVelSph :=
  let r := √(p.R ^ 2 + p.z ^ 2)
  if r = 0 then ⟨0, atan2 p.vR p.vz, p.phi, √(p.vR ^ 2 + p.vz ^ 2), 0, 0⟩
  else
    let invr := 1 / r
    let costheta := p.z * invr
    let sintheta := p.R * invr
    let vr := p.vR * sintheta + p.vz * costheta
    let vtheta := p.vR * costheta - p.vz * sintheta
    ⟨r, atan2 p.R p.z, p.phi, vr, vtheta, p.vphi⟩

/-! ## angular momentum, coord.cpp:18-37 -/

/-- coord.cpp:18-20 -/
noncomputable def LtotalCar (p : PosVelCar) : ℝ :=
  √((p.y * p.vz - p.z * p.vy) ^ 2 + (p.z * p.vx - p.x * p.vz) ^ 2 + (p.x * p.vy - p.y * p.vx) ^ 2)
/-- coord.cpp:21-23 -/
noncomputable def LtotalCyl (p : PosVelCyl) : ℝ :=
  √((p.R ^ 2 + p.z ^ 2) * p.vphi ^ 2 + (p.R * p.vz - p.z * p.vR) ^ 2)
/-- coord.cpp:24-26 -/
noncomputable def LtotalSph (p : PosVelSph) : ℝ := √(p.vtheta ^ 2 + p.vphi ^ 2) * p.r
/-- coord.cpp:31 -/
def LzCar (p : PosVelCar) : ℝ := p.x * p.vy - p.y * p.vx
/-- coord.cpp:32 -/
def LzCyl (p : PosVelCyl) : ℝ := p.R * p.vphi
/-- coord.cpp:33-37 -/
noncomputable def LzSph (p : PosVelSph) : ℝ := p.r * sin p.theta * p.vphi

/-- coord.cpp:586-591: canonical momenta in spherical coordinates (pr, ptheta, pphi) -/
noncomputable def momentaSph (p : PosVelSph) : ℝ × ℝ × ℝ := (p.vr, p.vtheta * p.r, LzSph p)

end Verif.Coord
