import Mathlib.Analysis.SpecialFunctions.Pow.Real
import Mathlib.Analysis.SpecialFunctions.Log.Basic

/-!
# Orbit-related functions of a potential: potential_utils.cpp

Models parts of `/repo/src/potential_utils.cpp`: root functions (234-350), energy scaling (402-442), `epicycleFreqs` and `innerSlope`
(633-661), the power-law branch of `findPlanarOrbitExtent` (668-687), the tables and the extrapolation of `Interpolator`
(795-858, 872-911, 1029-1048).

Simplifications.
* (E) `double` is ℝ, `std::pow` is `Real.rpow`; infinities are not represented, and the special cases for them are not modelled.
* (D) The potential in the equatorial plane is a function `P` of the radius with derivatives `P1`, `P2`; `nu2` is the second derivative in z.
-/
namespace Verif.Pot.PotUtils
open Real
noncomputable section

/-- potential_utils.cpp:410-416, `scaleE`: scaledE, dE/dscaledE -/
def scaleE (E invPhi0 : ℝ) : ℝ × ℝ :=
  let expE := invPhi0 - 1 / E
  (log expE, E * E * expE)

/-- potential_utils.cpp:419-427, `unscaleE`: E and its first two derivatives -/
def unscaleE (scaledE invPhi0 : ℝ) : ℝ × ℝ × ℝ :=
  let expE := exp scaledE
  let E := 1 / (invPhi0 - expE)
  let dE := E * E * expE
  (E, dE, E * dE * (invPhi0 + expE))

/-- potential_utils.cpp:907, the third derivative -/
def unscaleE3 (scaledE invPhi0 : ℝ) : ℝ :=
  let dE := (unscaleE scaledE invPhi0).2.1
  dE * (1 + 6 * dE * invPhi0)

/-- potential_utils.cpp:432-442, `unscaleDeltaE`: E1, E2, E1-E2, dE1/dscaledE1 -/
def unscaleDeltaE (scaledE1 scaledE2 invPhi0 : ℝ) : ℝ × ℝ × ℝ × ℝ :=
  let exp1 := exp scaledE1
  let exp2 := exp scaledE2
  let E1 := 1 / (invPhi0 - exp1)
  let E2 := 1 / (invPhi0 - exp2)
  (E1, E2, (exp1 - exp2) * E1 * E2, E1 * E1 * exp1)

/-- potential_utils.cpp:239-256, `RmaxRootFinder::evalDeriv`: value and derivative -/
def rmaxRoot (P P1 : ℝ → ℝ) (E logR : ℝ) : ℝ × ℝ :=
  let R := exp logR
  (P R - E, P1 R * R)

/-- potential_utils.cpp:269-289, `RcircRootFinder::evalDeriv` -/
def rcircRoot (P P1 P2 : ℝ → ℝ) (E logR : ℝ) : ℝ × ℝ :=
  let R := exp logR
  let v := 0.5 * R * P1 R
  (P R - E + v, (1.5 * P1 R + 0.5 * R * P2 R) * R)

/-- potential_utils.cpp:301-315, `RfromLRootFinder::evalDeriv` -/
def rfromLRoot (P1 P2 : ℝ → ℝ) (L logR : ℝ) : ℝ × ℝ :=
  let L2 := L * L
  let R := exp logR
  let F := R ^ 3 * P1 R
  (F - L2, R ^ 3 * (3 * P1 R + R * P2 R))

open Classical in
/-- potential_utils.cpp:327-335, `RPeriApoRootFinder::evalDeriv` -/
def periApo (P P1 : ℝ → ℝ) (E L R : ℝ) : ℝ × ℝ :=
  let halfL2 := L * L / 2
  ((if R > 0 then (E - P R) * R * R else 0) - halfL2, 2 * R * (E - P R) - R * R * P1 R)

open Classical in
/-- potential_utils.cpp:346-351, `RPeriApoRootFinderPowerLaw::evalDeriv` -/
def periApoPL (s v2 x : ℝ) : ℝ × ℝ :=
  (if s ≠ 0 then (2 + s) * x * x - 2 * x ^ (2 + s) - v2 * s else if x = 0 then 0 else x * x * (1 - 2 * log x) - v2,
   if s ≠ 0 then (4 + 2 * s) * (x - x ^ (1 + s)) else -4 * x * log x)

open Classical in
/-- potential_utils.cpp:633-645, `epicycleFreqs`: kappa, nu, Omega (a NaN is the junk value 0 of the square root) -/
def epicycleFreqs (p1 p2 nu2 R : ℝ) : ℝ × ℝ × ℝ :=
  let g := if R = 0 ∧ p1 = 0 then p2 else p1 / R
  (√(p2 + 3 * g), √nu2, √g)

open Classical in
/-- potential_utils.cpp:647-661, `innerSlope` with the radius as a parameter: slope, Phi0, coef -/
def innerSlope (P P1 P2 : ℝ → ℝ) (r : ℝ) : ℝ × ℝ × ℝ :=
  let s := 1 + r * P2 r / P1 r
  (s, if s = 0 then P r - r * P1 r * log r else P r - r * P1 r / s,
   if s = 0 then P1 r * r else P1 r / s * r ^ (1 - s))

/-- potential_utils.cpp:671-672 (positive slope), the radius of the circular orbit near the origin -/
def rcircPL (E Phi0 coef s : ℝ) : ℝ := ((E - Phi0) / (coef * (1 + 0.5 * s))) ^ (1 / s)

/-- potential_utils.cpp:681 (positive slope), its angular momentum -/
def lcircPL (coef s Rcirc : ℝ) : ℝ := Rcirc * (√(coef * s) * Rcirc ^ (0.5 * s))

/-- potential_utils.cpp:798-816, the entries of the tables for one radius: scaled potential, scaled energy of the circular orbit, log of
its angular momentum, and the three derivatives Rder, Lder, Phider -/
structure Node where
  (phi e l rder lder phider : ℝ)

/-- potential_utils.cpp:798-816 -/
def node (P P1 P2 : ℝ → ℝ) (invPhi0 R : ℝ) : Node :=
  let kappa2 := P2 R + 3 * P1 R / R
  let Omega := √(P1 R / R)
  let Ecirc := P R + 0.5 * R * P1 R
  let Lcirc := Omega * R * R
  let sp := scaleE (P R) invPhi0
  let se := scaleE Ecirc invPhi0
  let dRdL := 2 * Omega / (kappa2 * R)
  let dLdE := 1 / Omega
  ⟨sp.1, se.1, log Lcirc, dRdL * Lcirc / R, dLdE * se.2 / Lcirc, P1 R * R / sp.2⟩

open Classical in
/-- potential_utils.cpp:841-858, the outer asymptotics from the values at the last node: slope, coef, mass; `T` is the
threshold for roundoff errors -/
def outer (T p p1 p2 R : ℝ) : ℝ × ℝ × ℝ :=
  let num1 := 2 * p1
  let num2 := -R * p2
  let den1 := p1
  let den2 := -p / R
  let slope := (num1 - num2) / (den1 - den2)
  if |num1 - num2| < max |num1| |num2| * T ∨ |den1 - den2| < max |den1| |den2| * T ∨ slope ≥ 0 then (-1, 0, -p * R)
  else
    let slope := if |slope + 1| < T then -1 else slope
    let coef := (p + R * p1) * R ^ (-slope)
    (slope, coef, -R * p + coef * (if slope = -1 then log R else (R ^ (slope + 1) - 1) / (slope + 1)))

open Classical in
/-- potential_utils.cpp:876-888, the extrapolated potential and its three derivatives (`o` is the result of `outer`) -/
def extrap (o : ℝ × ℝ × ℝ) (R : ℝ) : ℝ × ℝ × ℝ × ℝ :=
  let slope := o.1
  let coef := o.2.1
  let mass := o.2.2
  let Rs := exp (log R * slope)
  let Phi := (-mass + (if slope = -1 then log R else (R * Rs - 1) / (slope + 1)) * coef) / R
  (Phi, (-Phi + coef * Rs) / R, (2 * Phi + coef * Rs * (slope - 2)) / R ^ 2, (-6 * Phi + coef * Rs * ((slope - 2) ^ 2 + 2)) / R ^ 3)

/-- potential_utils.cpp:890-911, the potential and its derivatives from the spline for the scaled potential; `s` is the value
and the three derivatives of the spline at log R -/
def fromScaled (s : ℝ × ℝ × ℝ × ℝ) (invPhi0 R : ℝ) : ℝ × ℝ × ℝ × ℝ :=
  let u := unscaleE s.1 invPhi0
  let d1 := s.2.1
  let d2 := s.2.2.1
  let d3 := s.2.2.2
  (u.1, u.2.1 * d1 / R, (u.2.1 * (d2 - d1) + u.2.2 * d1 ^ 2) / R ^ 2,
   (u.2.1 * (d3 - d2 * 3 + d1 * 2) + u.2.2 * (d2 - d1) * 3 * d1 + unscaleE3 s.1 invPhi0 * d1 ^ 3) / R ^ 3)

/-- potential_utils.cpp:1029-1048 at R>0, `Interpolator::epicycleFreqs`: kappa, nu, Omega and their derivatives; `p1`, `p2`, `p3` are the
derivatives of the potential, `n` and `dn` the interpolated nu²/Omega² and its derivative in log R -/
def epicycleInterp (p1 p2 p3 n dn R : ℝ) : (ℝ × ℝ × ℝ) × (ℝ × ℝ × ℝ) :=
  let g := p1 / R
  let kappa := √(p2 + 3 * g)
  let nu := √(n * g)
  let Omega := √g
  ((kappa, nu, Omega),
   (0.5 * (p3 + 3 * (p2 - g) / R) / kappa, 0.5 * ((p2 - g) * n + g * dn) / nu / R, 0.5 * (p2 - g) / Omega / R))

end
end Verif.Pot.PotUtils
