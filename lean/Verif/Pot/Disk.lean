import Verif.Pot.Analytic
import Mathlib.MeasureTheory.Integral.Gamma
import Mathlib.MeasureTheory.Function.JacobianOneDim

/-! Model of the separable disk profile (/repo/src/potential_disk.cpp). Real arithmetic; math::pow is the real power, infinite arguments are not modelled. -/

namespace Verif.Pot

open Real Verif.Coord MeasureTheory

noncomputable section

/-- potential_disk.h:80-103 -/
structure DiskParam where
  surfaceDensity : ℝ
  scaleRadius : ℝ
  scaleHeight : ℝ
  innerCutoffRadius : ℝ
  modulationAmplitude : ℝ
  sersicIndex : ℝ

/-- potential_disk.cpp:33-52, DiskDensityRadialExp -/
def radialExp (P : DiskParam) (R : ℝ) : Radial :=
  let invScaleRadius := 1 / P.scaleRadius
  let val := P.surfaceDensity * exp (-R * invScaleRadius)
  ⟨val, -val * invScaleRadius, val * invScaleRadius ^ 2⟩

/-- potential_disk.cpp:55-93, DiskDensityRadialRichExp. The derivatives are `none` (NaN) at R=0 when there is no inner hole: there Rinv is infinite and Rcut is zero, so that the first term in line 82 is the product of 0 and infinity; both derivatives contain it (unless val=0). -/
def radialRich (P : DiskParam) (R : ℝ) : ℝ × Option (ℝ × ℝ) :=
  let invScaleRadius := 1 / P.scaleRadius
  let invSersicIndex := 1 / P.sersicIndex
  if P.innerCutoffRadius ≠ 0 ∧ R = 0 then (0, some (0, 0)) else
  let Rrel := R * invScaleRadius
  let Rrn := Rrel ^ invSersicIndex
  let cr := if P.modulationAmplitude ≠ 0 then P.modulationAmplitude * cos Rrel else 0
  let sr := if P.modulationAmplitude ≠ 0 then P.modulationAmplitude * sin Rrel else 0
  if R = 0 then
    let val := P.surfaceDensity * exp (-0 - Rrn + cr)
    (val, if val ≠ 0 then none else some (0, 0)) else
  let Rinv := 1 / R
  let RrnR := Rrn * Rinv
  let Rcut := if P.innerCutoffRadius ≠ 0 then P.innerCutoffRadius * Rinv else 0
  let val := P.surfaceDensity * exp (-Rcut - Rrn + cr)
  let fp := Rcut * Rinv - invSersicIndex * RrnR - sr * invScaleRadius
  (val, some (if val ≠ 0 then fp * val else 0,
    if val ≠ 0 then val * (fp * fp - 2 * Rcut * Rinv ^ 2 - cr * invScaleRadius ^ 2 +
      (if invSersicIndex = 1 then 0 else RrnR * Rinv * invSersicIndex * (1 - invSersicIndex))) else 0))

/-- potential_disk.cpp:174-185, createRadialDiskFnc; `none`: exception. The function returns its value and (unless these are NaN) two derivatives. -/
def createRadial (P : DiskParam) : Option (ℝ → ℝ × Option (ℝ × ℝ)) :=
  if P.scaleRadius ≤ 0 then none
  else if P.innerCutoffRadius < 0 then none
  else if P.sersicIndex ≤ 0 then none
  else if P.innerCutoffRadius = 0 ∧ P.modulationAmplitude = 0 ∧ P.sersicIndex = 1 then
    some fun R => ((radialExp P R).pot, some ((radialExp P R).der, (radialExp P R).der2))
  else some (radialRich P)

/-- math_core.h:21 -/
def sgn (x : ℝ) : ℝ := if x > 0 then 1 else if x < 0 then -1 else 0

/-- potential_disk.cpp:112-129, DiskDensityVerticalExp: H(z) and its two derivatives -/
def verticalExp (scaleHeight z : ℝ) : Radial :=
  let invScaleHeight := 1 / scaleHeight
  let x := |z * invScaleHeight|
  let h := exp (-x)
  ⟨0.5 / invScaleHeight * (if x > 1e-5 then h - 1 + x else x * x * (0.5 - 1 / 6 * x)), 0.5 * sgn z * (1 - h), 0.5 * h * invScaleHeight⟩

/-- potential_disk.cpp:132-150, DiskDensityVerticalIsothermal -/
def verticalIso (scaleHeight z : ℝ) : Radial :=
  let invScaleHeight := 1 / scaleHeight
  let x := |z * invScaleHeight|
  let h := exp (-x)
  let sh1 := 1 + h
  let invsh1 := 1 / sh1
  ⟨1 / invScaleHeight * (if x > 1e-3 then 0.5 * x + log (0.5 * sh1) else x * x * (1 / 8 - 1 / 192 * x * x)),
    0.5 * sgn z * (1 - h) * invsh1, h * invScaleHeight * invsh1 ^ 2⟩

/-- potential_disk.cpp:153-165, DiskDensityVerticalThin -/
def verticalThin (z : ℝ) : Radial := ⟨0.5 * |z|, 0.5 * sgn z, 0⟩

/-- potential_disk.cpp:188-196, createVerticalDiskFnc -/
def createVertical (P : DiskParam) : ℝ → Radial :=
  if P.scaleHeight > 0 then verticalExp P.scaleHeight else if P.scaleHeight < 0 then verticalIso (-P.scaleHeight) else verticalThin

/-- potential_disk.cpp:213-218, DiskDensity::densityCyl -/
def diskDens (f : ℝ → Radial) (H : ℝ → Radial) (pos : PosCyl) : ℝ := (f pos.R).pot * (H pos.z).der2

/-- potential_disk.cpp:220-226, DiskAnsatz::densityCyl -/
def ansatzDens (f H : ℝ → Radial) (pos : PosCyl) : ℝ :=
  let r := √(pos.R ^ 2 + pos.z ^ 2)
  (f r).pot * (H pos.z).der2 + (if pos.z ≠ 0 then 2 * (f r).der * ((H pos.z).pot + pos.z * (H pos.z).der) / r else 0) + (f r).der2 * (H pos.z).pot

/-- potential_disk.cpp:228-257, DiskAnsatz::evalCyl -/
def ansatz (f H : ℝ → Radial) (pos : PosCyl) : OutCyl :=
  let r := √(pos.R ^ 2 + pos.z ^ 2)
  let V := H pos.z
  let F := (f r).pot * (4 * π)
  let fp := (f r).der * (4 * π)
  let fpp := (f r).der2 * (4 * π)
  let rinv := if r > 0 then 1 / r else 1
  let Rr := pos.R * rinv
  let zr := pos.z * rinv
  { pot := if F = 0 then 0 else F * V.pot
    grad := ⟨V.pot * Rr * fp, V.pot * zr * fp + V.der * F, 0⟩
    hess :=
    { dR2 := V.pot * (fpp * Rr ^ 2 + fp * rinv * zr ^ 2)
      dz2 := V.pot * (fpp * zr ^ 2 + fp * rinv * Rr ^ 2) + fp * V.der * zr * 2 + F * V.der2
      dRdz := V.pot * Rr * zr * (fpp - fp * rinv) + fp * V.der * Rr
      dRdphi := 0, dzdphi := 0, dphi2 := 0 } }

/-- potential_disk.cpp:96-109, integrand for the mass -/
def massIntegrand (P : DiskParam) (x : ℝ) : ℝ :=
  if x = 0 ∨ x = 1 then 0 else
  let Rrel := x / (1 - x)
  x / (1 - x) ^ 3 * exp (-P.innerCutoffRadius / P.scaleRadius / Rrel - Rrel ^ (1 / P.sersicIndex) + P.modulationAmplitude * cos Rrel)

/-- the special function math::besselK (math_specfunc.cpp, a call to GSL), by its integral representation -/
def besselK (n x : ℝ) : ℝ := ∫ t in Set.Ioi (0 : ℝ), exp (-x * cosh t) * cosh (n * t)

/-- potential_disk.cpp:198-211, DiskParam::mass; the numerical integration in the last case is replaced by the exact integral -/
def DiskParam.mass (P : DiskParam) : ℝ :=
  if P.modulationAmplitude = 0 ∧ P.innerCutoffRadius = 0 then
    π * P.scaleRadius ^ 2 * P.surfaceDensity * Gamma (2 * P.sersicIndex + 1)
  else if P.modulationAmplitude = 0 ∧ P.sersicIndex = 1 then
    let p := √(P.innerCutoffRadius / P.scaleRadius)
    4 * π * P.scaleRadius ^ 2 * P.surfaceDensity * p * (p * besselK 0 (2 * p) + besselK 1 (2 * p))
  else 2 * π * P.scaleRadius ^ 2 * P.surfaceDensity * ∫ x in (0 : ℝ)..1, massIntegrand P x

/-! ### specification -/

/-- the documented surface density, potential_disk.h:70 -/
def surfDens (P : DiskParam) (R : ℝ) : ℝ :=
  P.surfaceDensity * exp (-(R / P.scaleRadius) ^ (1 / P.sersicIndex) - P.innerCutoffRadius / R + P.modulationAmplitude * cos (R / P.scaleRadius))

/-- the documented vertical profile, potential_disk.h:72-74 -/
def vertDens (P : DiskParam) (z : ℝ) : ℝ :=
  if P.scaleHeight > 0 then 1 / (2 * P.scaleHeight) * exp (-|z / P.scaleHeight|)
  else 1 / (4 * |P.scaleHeight|) * (1 / cosh (z / (2 * P.scaleHeight))) ^ 2

/-- parameters accepted by the constructor -/
structure DiskParam.Valid (P : DiskParam) : Prop where
  radius : 0 < P.scaleRadius
  hole : 0 ≤ P.innerCutoffRadius
  sersic : 0 < P.sersicIndex

end

end Verif.Pot
