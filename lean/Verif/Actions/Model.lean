import Verif.Coord.Model
import Verif.Core.Arith
import Verif.Pot.Radial
import Verif.Pot.Kepler

/-! Actions, angles and frequencies in the isochrone potential (actions_isochrone.cpp): model. Real arithmetic; NaN is `none`. -/

namespace Verif.Actions

open Real Verif.Coord Verif.Core

noncomputable section

/-- actions_base.h:14-21 -/
@[ext] structure Act where
  Jr : ℝ
  Jz : ℝ
  Jphi : ℝ

/-- actions_base.h:24-30 -/
@[ext] structure Ang where
  thetar : ℝ
  thetaz : ℝ
  thetaphi : ℝ

/-- actions_base.h:39-45 -/
@[ext] structure Freq where
  Omegar : ℝ
  Omegaz : ℝ
  Omegaphi : ℝ

open Classical in
/-- math_core.h:21 -/
def sign (x : ℝ) : ℝ := if x > 0 then 1 else if x < 0 then -1 else 0

/-- `atan(fac * t)`, where `t` may be infinite (`none`) and `fac` is positive -/
def atanFac (fac : ℝ) (t : Option ℝ) : ℝ := match t with
  | none => π / 2
  | some t => arctan (fac * t)

/-- math_core.cpp:wrapAngle with the default period (C13) -/
def wrap (x : ℝ) : ℝ := wrapAngle (2 * π) x

/-- actions_isochrone.cpp:13-19: rb, L, L1, E, J0 -/
def rbOf (b : ℝ) (p : PosVelCyl) : ℝ := √(b * b + (vCylToSph p).r ^ 2)
def totalL (p : PosVelCyl) : ℝ := LtotalSph (vCylToSph p)
def L1Of (M b L : ℝ) : ℝ := √(L * L + 4 * M * b)
def energyOf (M b : ℝ) (p : PosVelCyl) : ℝ :=
  -M / (b + rbOf b p) + 0.5 * ((vCylToSph p).vr ^ 2 + (vCylToSph p).vtheta ^ 2 + (vCylToSph p).vphi ^ 2)
def J0Of (M E : ℝ) : ℝ := M / √(-2 * E)

open Classical in
/-- actions_isochrone.cpp:21-23: the actions, the radial one is NaN for unbound orbits -/
def evalActions (M b : ℝ) (p : PosVelCyl) : Option ℝ × ℝ × ℝ :=
  let L := totalL p
  let Lz := p.R * p.vphi
  let E := energyOf M b p
  let J0 := J0Of M E
  (if E ≥ 0 then none else some (max 0 (J0 - 0.5 * (L + L1Of M b L))), if p.z = 0 ∧ p.vz = 0 then 0 else max 0 (L - |Lz|), Lz)

open Classical in
/-- actions_isochrone.cpp:26-45: the angles; `none` if they are NaN (for unbound orbits). If k1=k2=0 (a circular orbit), line 36 is 0/0=NaN, but then wrapAngle(NaN)=0 (C13) in line 38, and the same
value is obtained with 0/0=0. The vertical angle is set to zero for planar orbits after it has been used in the azimuthal one. Not modelled: L=0, when line 28 is a division by zero. -/
def evalAngles (M b : ℝ) (p : PosVelCyl) : Option Ang :=
  let point := vCylToSph p
  let rb := rbOf b p
  let L := totalL p
  let L1 := L1Of M b L
  let Lz := p.R * p.vphi
  let E := energyOf M b p
  let J0 := J0Of M E
  let j0invsq := M * b / J0 ^ 2
  let ecc := √((1 - j0invsq) ^ 2 - (L / J0) ^ 2)
  let fac1 := (1 + ecc - j0invsq) * J0 / L
  let fac2 := (1 + ecc + j0invsq) * J0 / L1
  let k1 := point.r * point.vr
  let k2 := J0 - M * rb / J0
  let psi := atan2 (p.z * L) (-p.R * point.vtheta * point.r)
  let chi := atan2 (p.z * point.vphi) (-point.vtheta * point.r)
  let eta := atan2 k1 k2
  let sineta := k1 / √(k1 * k1 + k2 * k2)
  let tanhalfeta : Option ℝ := if eta = 0 then some 0 else if k1 = 0 then none else some (-k2 / k1 + 1 / sineta)
  let thetar := wrap (eta - sineta * ecc)
  let thetaz := wrap (psi + 0.5 * (1 + L / L1) * (thetar - (if eta < 0 then 2 * π else 0)) - atanFac fac1 tanhalfeta - atanFac fac2 tanhalfeta * L / L1)
  let thetaphi := wrap (point.phi - chi + sign Lz * thetaz)
  if E ≥ 0 then none
  else some ⟨thetar, if p.z = 0 ∧ p.vz = 0 then 0 else thetaz, thetaphi⟩

open Classical in
/-- actions_isochrone.cpp:48-50: the frequencies; they are NaN for unbound orbits (and zero for E=0, which is not modelled) -/
def evalFreq (M b : ℝ) (p : PosVelCyl) : Option Freq :=
  let L := totalL p
  let J0 := J0Of M (energyOf M b p)
  let Omegar := M ^ 2 / J0 ^ 3
  let Omegaz := Omegar * 0.5 * (1 + L / L1Of M b L)
  if energyOf M b p ≥ 0 then none else some ⟨Omegar, Omegaz, sign (p.R * p.vphi) * Omegaz⟩

/-- actions_isochrone.cpp:63-68, 72: L, J0, LL1, ecc -/
def mapL (a : Act) : ℝ := a.Jz + sign a.Jphi * a.Jphi
def mapJ0 (M b : ℝ) (a : Act) : ℝ := a.Jr + 0.5 * (mapL a + L1Of M b (mapL a))
def mapLL1 (M b : ℝ) (a : Act) : ℝ := 0.5 + 0.5 * mapL a / L1Of M b (mapL a)
def mapEcc (M b : ℝ) (a : Act) : ℝ :=
  let L := mapL a
  let L1 := L1Of M b L
  min (√(a.Jr * (a.Jr + L) * (a.Jr + L1) * (a.Jr + L + L1)) / mapJ0 M b a ^ 2) 1

open Classical in
/-- actions_isochrone.cpp:54-107, mapIsochrone; `solve` is solveKepler. Not modelled: division by zero for points on the z axis or in the center, which are possible only for Jphi=0. -/
def mapIsochrone (solve : ℝ → ℝ → ℝ) (M b : ℝ) (a : Act) (t : Ang) : Option PosVelCyl :=
  if a.Jr < 0 ∨ a.Jz < 0 then none
  else
    let signJphi := sign a.Jphi
    let absJphi := signJphi * a.Jphi
    let L := mapL a
    let L1 := L1Of M b L
    let LL1 := mapLL1 M b a
    let J0 := mapJ0 M b a
    let j0invsq := M * b / J0 ^ 2
    let ecc := mapEcc M b a
    let fac1 := (1 + ecc - j0invsq) * J0 / L
    let fac2 := (1 + ecc + j0invsq) * J0 / L1
    let eta := solve ecc t.thetar
    let ra := 1 - ecc * cos eta
    let tanhalfeta : Option ℝ := if cos eta = -1 then none else some (sin eta / (1 + cos eta))
    let thetar := t.thetar - (if eta > π then 2 * π else 0)
    let psi1 := atanFac fac1 tanhalfeta
    let psi2 := atanFac fac2 tanhalfeta
    let psi := t.thetaz - LL1 * thetar + psi1 + psi2 * L / L1
    let chi := if a.Jz ≠ 0 then atan2 (absJphi * sin psi) (L * cos psi) else psi
    let sini := √(1 - (a.Jphi / L) ^ 2)
    let costheta := sini * sin psi
    let sintheta := √(1 - costheta ^ 2)
    let r := √(max 0 ((ra * J0 * J0 / M) ^ 2 - b * b))
    let vr := J0 * ecc * sin eta / r
    let vtheta := -L * sini * cos psi / (r * sintheta)
    some ⟨r * sintheta, r * costheta, wrap (t.thetaphi + (chi - t.thetaz) * signJphi),
      vr * sintheta + vtheta * costheta, vr * costheta - vtheta * sintheta, a.Jphi / (r * sintheta)⟩

open Classical in
/-- actions_isochrone.cpp:58-61, 101-105: the frequencies computed by mapIsochrone -/
def mapFreq (M b : ℝ) (a : Act) : Option Freq :=
  if a.Jr < 0 ∨ a.Jz < 0 then none
  else
    let Omegar := M ^ 2 / mapJ0 M b a ^ 3
    let Omegaz := Omegar * mapLL1 M b a
    some ⟨Omegar, Omegaz, Omegaz * sign a.Jphi⟩

end

end Verif.Actions
