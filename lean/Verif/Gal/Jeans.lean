import Mathlib.MeasureTheory.Integral.IntervalIntegral.Basic
import Mathlib.Analysis.SpecialFunctions.Pow.Real
import Verif.Spline.LogLog

/-!
# The spherical Jeans model: galaxymodel_jeans.cpp

Models `/repo/src/galaxymodel_jeans.cpp`, lines 29-110.

Simplifications.
* (E) `double` is ℝ; rounding and infinities are not represented; a NaN (the square root of a negative number) is `none`.
* (D) `dens`, `pot` are functions with their exact derivatives `ddens`, `dpot`: `PointNeighborhood::fder` (a numerical
  derivative if the function does not provide one) is taken to be exact; `math::integrate` is the exact integral.
* (G) The grid returned by `createInterpolationGrid` (already converted from log(r) to r) is a parameter.
-/
namespace Verif.Gal.Jeans
open Real

/-- galaxymodel_jeans.cpp:36-41, `JeansSphIntegrand::value` -/
noncomputable def integrand (dens dpot : ℝ → ℝ) (beta r : ℝ) : ℝ := r ^ (beta * 2) * dens r * dpot r

open Classical in
/-- galaxymodel_jeans.cpp:55-62, the loop which removes the points from the end of the grid while the density there is not
positive or its derivative is zero (`rdropWhile`) -/
noncomputable def trimTail (dens ddens : ℝ → ℝ) (gridr : List ℝ) : List ℝ :=
  (gridr.reverse.dropWhile (fun r => decide (dens r ≤ 0 ∨ ddens r = 0))).reverse

/-- galaxymodel_jeans.cpp:69-73, the exponent of the integrand at the outermost point -/
noncomputable def power (dens ddens pot dpot : ℝ → ℝ) (beta r : ℝ) : ℝ :=
  let powPot := dpot r * r / pot r
  let powDens := ddens r * r / dens r
  2 * beta + powPot - 1 + powDens

/-- galaxymodel_jeans.cpp:76, the integral from the outermost point to infinity -/
noncomputable def tail (dens ddens pot dpot : ℝ → ℝ) (beta r : ℝ) : ℝ :=
  let powPot := dpot r * r / pot r
  pot r * dens r * r ^ (2 * beta) * powPot / (-1 - power dens ddens pot dpot beta r)

/-- galaxymodel_jeans.cpp:76-79, the array `integr` before the conversion: the last element is `last`, the others are filled
from the end -/
noncomputable def integrals (f : ℝ → ℝ) (last : ℝ) : List ℝ → List ℝ
  | [] => []
  | [_] => [last]
  | r :: r' :: t =>
    let rest := integrals f last (r' :: t)
    (rest.headD 0 + ∫ x in r..r', f x) :: rest

/-- the square root, NaN for a negative argument -/
noncomputable def csqrt (x : ℝ) : Option ℝ := open Classical in if x < 0 then none else some √x

/-- `fmin`: a NaN argument is ignored -/
noncomputable def fmin : Option ℝ → Option ℝ → Option ℝ
  | none, b => b
  | a, none => a
  | some a, some b => some (min a b)

open Classical in
/-- galaxymodel_jeans.cpp:81-93: the conversion of the element `I` at the radius `r`; `none` if the point is erased -/
noncomputable def convert (dens pot : ℝ → ℝ) (beta r I : ℝ) : Option (ℝ × Option ℝ) :=
  let rho := dens r
  if rho ≠ 0 ∧ I > 0 then
    some (r, fmin (csqrt (I / (rho * r ^ (2 * beta)))) (csqrt (-2 * pot r)))
  else none

open Classical in
/-- galaxymodel_jeans.cpp:47-93, the nodes (radius, velocity dispersion) of `createJeansSphModel`; `none` is an exception -/
noncomputable def nodes (dens ddens pot dpot : ℝ → ℝ) (beta : ℝ) (grid : List ℝ) : Option (List (ℝ × Option ℝ)) :=
  let gridr := trimTail dens ddens grid
  if gridr.length < 3 then none
  else
    match gridr.getLast? with
    | none => none
    | some rmax =>
      if ¬ power dens ddens pot dpot beta rmax < -1 then none
      else
        let integr := integrals (integrand dens dpot beta) (tail dens ddens pot dpot beta rmax) gridr
        some ((List.zip gridr integr).filterMap (fun p => convert dens pot beta p.1 p.2))

/-- galaxymodel_jeans.cpp:47-104, `createJeansSphModel`.  `none` is an exception (or a NaN in the array). -/
noncomputable def createJeansSphModel (dens ddens pot dpot : ℝ → ℝ) (beta : ℝ) (grid : List ℝ) :
    Option Verif.Spline.LogLog.LogLogSpline := do
  let out ← nodes dens ddens pot dpot beta grid
  let vals ← out.mapM (fun p => p.2)
  Verif.Spline.LogLog.create (fun i => (out.map Prod.fst).getD i 0) (fun i => vals.getD i 0) out.length none none

end Verif.Gal.Jeans
