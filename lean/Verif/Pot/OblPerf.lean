import Verif.Pot.PerfectEllipsoid
import Verif.Coord.ProlSph

/-!
# The oblate perfect ellipsoid in prolate spheroidal coordinates

Models the class `OblatePerfectEllipsoid`, `/repo/src/potential_perfect_ellipsoid.cpp:8-83`.

Simplifications.
* (E) `double` is ℝ; the branch for infinite or huge coordinates (line 28) is not modelled. `none` is an exception.
-/
namespace Verif.Pot.OblPerf
open Real Verif.Coord
noncomputable section

/-- potential_perfect_ellipsoid.h:48-52: the parameters -/
structure Obl where (mass a c : ℝ)

open Classical in
/-- potential_perfect_ellipsoid.cpp:8-16, the constructor -/
def create (mass a c : ℝ) : Option Obl := if c ≤ 0 ∨ c ≥ a then none else some ⟨mass, a, c⟩

namespace Obl

/-- potential_perfect_ellipsoid.cpp:10, Delta² of the coordinate system -/
def D2 (P : Obl) : ℝ := √(P.a ^ 2 - P.c ^ 2) ^ 2

/-- potential_perfect_ellipsoid.cpp:63 -/
def fac (P : Obl) : ℝ := P.mass / P.c * (2 / π)

open Classical in
/-- potential_perfect_ellipsoid.cpp:64-69 -/
def arct (P : Obl) (tau : ℝ) : ℝ :=
  let tauc := tau / P.c ^ 2
  if tauc > 1e-16 then let sqtc := √tauc; arctan sqtc / sqtc else 1

open Classical in
/-- potential_perfect_ellipsoid.cpp:55-82, `evalDeriv`: G and its two derivatives (the argument is not negative) -/
def evalDeriv (P : Obl) (tau : ℝ) : ℝ × ℝ × ℝ :=
  let c2 := P.c ^ 2
  let tauc := tau / c2
  (P.fac * P.arct tau,
   if tauc > 1e-8 then P.fac * 0.5 * (1 / (1 + tauc) - P.arct tau) / tau else P.fac * (-1 / 3 + 2 / 5 * tauc) / c2,
   if tauc > 1e-5 then P.fac * 0.75 * (P.arct tau - (1 + 5 / 3 * tauc) / (1 + tauc) ^ 2) / tau ^ 2
   else P.fac * (2 / 5 - 6 / 7 * tauc) / c2 ^ 2)

open Classical in
/-- potential_perfect_ellipsoid.cpp:18-53, `evalScalar`: the value, derivatives over lambda, nu, second derivatives over lambda, nu and mixed -/
def evalScalar (P : Obl) (lambda nu : ℝ) : Option (ℝ × (ℝ × ℝ) × (ℝ × ℝ × ℝ)) :=
  let absnu := |nu|
  let signu : ℝ := if nu ≥ 0 then 1 else -1
  let lmn := lambda - absnu
  if absnu > P.D2 ∨ lambda < P.D2 then none
  else
    let gl := P.evalDeriv lambda
    let gn := P.evalDeriv absnu
    let coef := (gl.1 - gn.1) / lmn ^ 2
    some ((absnu * gn.1 - lambda * gl.1) / lmn,
      (coef * absnu - gl.2.1 * lambda / lmn, (-coef * lambda + gn.2.1 * absnu / lmn) * signu),
      ((2 * absnu * (-coef + gl.2.1 / lmn) - gl.2.2 * lambda) / lmn,
       (2 * lambda * (-coef + gn.2.1 / lmn) + gn.2.2 * absnu) / lmn,
       ((lambda + absnu) * coef - (lambda * gl.2.1 + absnu * gn.2.1) / lmn) / lmn * signu))

end Obl
end
end Verif.Pot.OblPerf
