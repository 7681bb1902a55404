import Verif.Pot.Symmetry
import Mathlib.MeasureTheory.Integral.Gamma

/-!
# C109, C110: spheroidal density profiles

Models `/repo/src/potential_spheroid.cpp` and `/repo/src/potential_spheroid.h`. Real arithmetic. The value `INFINITY` of the outer cutoff radius is
`none`; a `NAN` argument is not represented. `math::pow` (`/repo/src/math_core.cpp:131-143`) is the real power; it is used with positive base except at
the origin, where the code returns infinity for a positive `gamma`: every statement below is about radii `r > 0`.
`math::gamma` is the exact Gamma function, `math::integrateAdaptive` is replaced by the exact integral, `math::findRoot` by the specification that its
result is a root. The interpolation of the deprojected profile by a log-log spline is not modelled here.
-/

namespace Verif.Pot

open Real Verif.Coord MeasureTheory

noncomputable section

/-- potential_spheroid.h:25-44, SpheroidParam; `none` is the value `INFINITY` of `outerCutoffRadius` -/
structure SpheroidParam where
  densityNorm : ℝ
  scaleRadius : ℝ
  outerCutoffRadius : Option ℝ
  cutoffStrength : ℝ
  alpha : ℝ
  beta : ℝ
  gamma : ℝ
  axisRatioY : ℝ
  axisRatioZ : ℝ

/-- potential_spheroid.h:66-84, NukerParam -/
structure NukerParam where
  surfaceDensity : ℝ
  scaleRadius : ℝ
  outerCutoffRadius : Option ℝ
  cutoffStrength : ℝ
  alpha : ℝ
  beta : ℝ
  gamma : ℝ
  axisRatioY : ℝ
  axisRatioZ : ℝ

/-- potential_spheroid.h:101-115, SersicParam -/
structure SersicParam where
  surfaceDensity : ℝ
  scaleRadius : ℝ
  sersicIndex : ℝ
  axisRatioY : ℝ
  axisRatioZ : ℝ

/-- value of type `double` returned by `mass()` -/
inductive MassVal where
  | inf
  | nan
  | val (m : ℝ)

/-- potential_spheroid.cpp:26-35, SpheroidMassIntegrand::value; at the endpoints the expression is not finite and the code returns zero; for an
infinite cutoff radius the last factor is `exp(-pow(0, xi))`, but then `mass()` does not use this function -/
def spheroidMassIntegrand (P : SpheroidParam) (rcut : ℝ) (x : ℝ) : ℝ :=
  if x = 0 ∨ x = 1 then 0 else
  let rrel := exp (1 / (1 - x) - 1 / x)
  rrel ^ 3 * (1 / (1 - x) ^ 2 + 1 / x ^ 2) * rrel ^ (-P.gamma) * (1 + rrel ^ P.alpha) ^ ((P.gamma - P.beta) / P.alpha) *
    exp (-(rrel * P.scaleRadius / rcut) ^ P.cutoffStrength)

/-- potential_spheroid.cpp:43-50, SpheroidDensityFnc::value -/
def spheroidDensityFnc (P : SpheroidParam) (r : ℝ) : ℝ :=
  let r0 := r / P.scaleRadius
  let rho := P.densityNorm * r0 ^ (-P.gamma) * (1 + r0 ^ P.alpha) ^ ((P.gamma - P.beta) / P.alpha)
  match P.outerCutoffRadius with
  | some rcut => rho * exp (-(r / rcut) ^ P.cutoffStrength)
  | none => rho

/-- potential_spheroid.cpp:60-68, NukerMassIntegrand::value -/
def nukerMassIntegrand (P : NukerParam) (rcut : ℝ) (x : ℝ) : ℝ :=
  if x = 0 ∨ x = 1 then 0 else
  let Rrel := exp (1 / (1 - x) - 1 / x)
  Rrel ^ 2 * (1 / (1 - x) ^ 2 + 1 / x ^ 2) * Rrel ^ (-P.gamma) * (0.5 + 0.5 * Rrel ^ P.alpha) ^ ((P.gamma - P.beta) / P.alpha) *
    exp (-(Rrel * P.scaleRadius / rcut) ^ P.cutoffStrength)

/-- potential_spheroid.cpp:78-90, NukerIntegrand::value -/
def nukerIntegrand (P : NukerParam) (r t : ℝ) : ℝ :=
  let u := √(1 - 2 * t * (1 - t))
  let R := r * u / (1 - t)
  let Ra := R ^ P.alpha
  let z := P.gamma + P.beta * Ra
  let z' := match P.outerCutoffRadius with
    | some rcut =>
      let y := (R * P.scaleRadius / rcut) ^ P.cutoffStrength
      (z + (1 + Ra) * P.cutoffStrength * y) * exp (-y)
    | none => z
  z' / u / (1 - t) * R ^ (-P.gamma - 1) * (1 + Ra) ^ ((P.gamma - P.beta) / P.alpha - 1)

/-- math_specfunc.h:38-39: upper incomplete Gamma function -/
def gammainc (x y : ℝ) : ℝ := ∫ t in Set.Ioi y, exp (-t) * t ^ (x - 1)

/-- potential_spheroid.cpp:93-97, SersicBRootFinder -/
def sersicBRootFinder (n b : ℝ) : ℝ := Gamma (2 * n) - 2 * gammainc (2 * n) b

/-- potential_spheroid.cpp:100 -/
def maxExp : ℝ := 100

/-- potential_spheroid.cpp:110-115, SersicIntegrand::value -/
def sersicIntegrand (n k x : ℝ) : ℝ :=
  let y := cosh x
  let z := y ^ (1 / n)
  if maxExp < k * z then 0 else z / y * exp (-k * z)

/-- potential_spheroid.cpp:120-131, SpheroidParam::mass -/
def SpheroidParam.mass (P : SpheroidParam) : MassVal :=
  if P.beta ≤ 3 ∧ P.outerCutoffRadius = none then .inf else
  if 3 ≤ P.gamma ∨ P.alpha ≤ 0 then .nan else
  .val (4 * π * P.densityNorm * P.scaleRadius ^ 3 * P.axisRatioY * P.axisRatioZ *
    match P.outerCutoffRadius with
    | none => Gamma ((P.beta - 3) / P.alpha) * Gamma ((3 - P.gamma) / P.alpha) / Gamma ((P.beta - P.gamma) / P.alpha) / P.alpha
    | some rcut => ∫ x in (0 : ℝ)..1, spheroidMassIntegrand P rcut x)

/-- potential_spheroid.cpp:133-142, NukerParam::mass -/
def NukerParam.mass (P : NukerParam) : MassVal :=
  if 2 ≤ P.gamma ∨ P.alpha ≤ 0 then .nan else
  .val (2 * π * P.surfaceDensity * P.scaleRadius ^ 2 * P.axisRatioY * P.axisRatioZ *
    match P.outerCutoffRadius with
    | none => Gamma ((P.beta - 2) / P.alpha) * Gamma ((2 - P.gamma) / P.alpha) / Gamma ((P.beta - P.gamma) / P.alpha) / P.alpha *
        2 ^ ((P.beta - P.gamma) / P.alpha)
    | some rcut => ∫ x in (0 : ℝ)..1, nukerMassIntegrand P rcut x)

/-- potential_spheroid.cpp:149-152, SersicParam::mass; `b` is the value of `b()` -/
def SersicParam.mass (P : SersicParam) (b : ℝ) : ℝ :=
  2 * π * P.surfaceDensity * P.scaleRadius ^ 2 * P.axisRatioY * P.axisRatioZ * P.sersicIndex * Gamma (2 * P.sersicIndex) * b ^ (-2 * P.sersicIndex)

open Classical in
/-- potential_spheroid.cpp:154-174, createSpheroidDensity; `none` is an exception -/
def createSpheroidDensity (P : SpheroidParam) : Option (ℝ → ℝ) :=
  if ¬0 < P.scaleRadius then none
  else if ¬(0 < P.axisRatioY ∧ 0 < P.axisRatioZ) then none
  else if ∃ rcut ∈ P.outerCutoffRadius, ¬0 < rcut then none
  else if ¬0 < P.alpha then none
  else if ¬(2 < P.beta ∨ P.outerCutoffRadius ≠ none) then none
  else if ¬P.gamma < 3 then none
  else if ¬P.gamma ≤ P.beta then none
  else if ¬0 < P.cutoffStrength ∧ P.outerCutoffRadius ≠ none then none
  else some (spheroidDensityFnc P)

open Classical in
/-- potential_spheroid.cpp:176-191, 212-213, 216-217: the checks in createNukerDensity and the function of dimensionless radius whose values enter the spline -/
def createNukerDensity (P : NukerParam) : Option (ℝ → ℝ) :=
  if ¬0 < P.scaleRadius then none
  else if ¬(0 < P.axisRatioY ∧ 0 < P.axisRatioZ) then none
  else if ¬0 < P.alpha then none
  else if ∃ rcut ∈ P.outerCutoffRadius, ¬0 < rcut then none
  else if ¬(2 < P.beta ∨ P.outerCutoffRadius ≠ none) then none
  else if ¬(0 ≤ P.gamma ∧ P.gamma < 2) then none
  else some fun y =>
    let r := exp y
    let coef := (∫ t in (0 : ℝ)..1, nukerIntegrand P r t) * 2 ^ ((P.beta - P.gamma) / P.alpha) / π
    P.surfaceDensity * coef / P.scaleRadius

/-- potential_spheroid.cpp:244-251: the value `gridrho[i]` for the scaled radius `y`; the integral is cut at `xmax` -/
def sersicGridRho (P : SersicParam) (b xmax y : ℝ) : ℝ :=
  let n := P.sersicIndex
  let coef := ∫ x in (0 : ℝ)..xmax, sersicIntegrand n (b * exp y) x
  P.surfaceDensity * b / (π * n * P.scaleRadius) * exp ((1 - n) * y) * coef

/-- potential_spheroid.cpp:250: the value `gridr[i]` -/
def sersicGridR (P : SersicParam) (y : ℝ) : ℝ := P.scaleRadius * exp (P.sersicIndex * y)

/-- potential_spheroid.h:157-159 and 132-133: the squared axis ratios and the profile stored in a SpheroidDensity -/
structure SpheroidDensity where
  p2 : ℝ
  q2 : ℝ
  rho : ℝ → ℝ

/-- potential_spheroid.h:132-133: constructor -/
def SpheroidDensity.make (fnc : ℝ → ℝ) (axisRatioY axisRatioZ : ℝ) : SpheroidDensity := ⟨axisRatioY ^ 2, axisRatioZ ^ 2, fnc⟩

/-- potential_spheroid.cpp:256-259 -/
def SpheroidDensity.densityCar (D : SpheroidDensity) (p : PosCar) : ℝ := D.rho (√(p.x ^ 2 + p.y ^ 2 / D.p2 + p.z ^ 2 / D.q2))

open Classical in
/-- potential_spheroid.cpp:261-266 -/
def SpheroidDensity.densityCyl (D : SpheroidDensity) (p : PosCyl) : ℝ :=
  let R2 := if D.p2 = 1 then p.R ^ 2 else p.R ^ 2 * (1 + sin p.phi ^ 2 * (1 / D.p2 - 1))
  D.rho (√(R2 + p.z ^ 2 / D.q2))

open Classical in
/-- potential_spheroid.cpp:268-274 -/
def SpheroidDensity.densitySph (D : SpheroidDensity) (p : PosSph) : ℝ :=
  if D.p2 = 1 ∧ D.q2 = 1 then D.rho p.r else D.densityCar (sphToCar p)

/-- potential_spheroid.h:150-151 -/
def SpheroidDensity.symmetry (D : SpheroidDensity) : ℕ := ellipsoidalSym D.p2 D.q2

/-! ## specification -/

/-- the documented density profile, potential_spheroid.h:20-22 -/
def spheroidRho (P : SpheroidParam) (r : ℝ) : ℝ :=
  P.densityNorm * (r / P.scaleRadius) ^ (-P.gamma) * (1 + (r / P.scaleRadius) ^ P.alpha) ^ ((P.gamma - P.beta) / P.alpha) *
    match P.outerCutoffRadius with
    | none => 1
    | some rcut => exp (-(r / rcut) ^ P.cutoffStrength)

/-- the documented surface density of the Nuker model, potential_spheroid.h:49-50 -/
def nukerSigma (P : NukerParam) (R : ℝ) : ℝ :=
  P.surfaceDensity * (R / P.scaleRadius) ^ (-P.gamma) * (1 / 2 + 1 / 2 * (R / P.scaleRadius) ^ P.alpha) ^ ((P.gamma - P.beta) / P.alpha) *
    match P.outerCutoffRadius with
    | none => 1
    | some rcut => exp (-(R / rcut) ^ P.cutoffStrength)

/-- the documented surface density of the Sersic model, potential_spheroid.h:89-90 -/
def sersicSigma (P : SersicParam) (b R : ℝ) : ℝ := P.surfaceDensity * exp (-b * (R / P.scaleRadius) ^ (1 / P.sersicIndex))

/-- density of a body stratified on ellipsoids with axis ratios `p` and `q`, at a point of space -/
def ellipsoidal (rho : ℝ → ℝ) (p q : ℝ) (v : EuclideanSpace ℝ (Fin 3)) : ℝ := rho (√(v 0 ^ 2 + (v 1 / p) ^ 2 + (v 2 / q) ^ 2))

/-- the spherical density obtained by deprojecting the surface density `Sigma` (Abel's inversion) -/
def abel (Sigma : ℝ → ℝ) (r : ℝ) : ℝ := -(1 / π) * ∫ R in Set.Ioi r, deriv Sigma R / √(R ^ 2 - r ^ 2)

end

end Verif.Pot
