import Verif.Coord.Orientation
import Verif.Core.Scaling
import Mathlib.MeasureTheory.Integral.IntervalIntegral.Basic

/-!
# Projected density, potential and its derivatives; angles of principal axes: potential_utils.cpp

Models `/repo/src/potential_utils.cpp` 60-145, 477-518 (`projectedDensity`, `projectedEval`), 172-196 (mirrored points) and
616-628 (Euler angles returned by `principalAxes`).

Simplifications.
* (E) `double` is ℝ; `nan2num` is the identity.
* (I) `integrateNdim` is the exact integral of each component.
* The moment of time is fixed; the potential and its derivatives are functions of the position.
-/
namespace Verif.Pot.Projected
open Verif.Coord Verif.Scaling MeasureTheory Real
noncomputable section

/-- potential_utils.cpp:69-75, 84-96, `ProjectedDensityIntegrand` -/
def densIntegrand (rho : PosCar → ℝ) (X Y : ℝ) (o : Orientation) (s : ℝ) : ℝ :=
  let R := √(X * X + Y * Y)
  let Z := unscaleDbl R s
  rho (o.fromRotPos ⟨X, Y, Z⟩) * dudsDbl R s

/-- potential_utils.cpp:477-490, `projectedDensity` -/
def projectedDensity (rho : PosCar → ℝ) (X Y : ℝ) (o : Orientation) : ℝ :=
  ∫ s in (0:ℝ)..1, densIntegrand rho X Y o s

/-- potential_utils.cpp:122-144, `ProjectedEvalIntegrand::eval`: the list of values -/
def evalIntegrand (Phi : PosCar → ℝ) (g : PosCar → GradCar) (h : PosCar → HessCar) (X Y : ℝ) (o : Orientation)
    (needPhi needGrad needHess : Bool) (s : ℝ) : List ℝ :=
  let R := √(X * X + Y * Y)
  let Z := unscaleDbl R s
  let dZds := dudsDbl R s
  let p := o.fromRotPos ⟨X, Y, Z⟩
  (if needPhi then [(Phi p - Phi ⟨0, 0, Z⟩) * dZds] else []) ++
  (if needGrad then [(o.toRotGrad (g p)).dx * dZds, (o.toRotGrad (g p)).dy * dZds] else []) ++
  (if needHess then [(o.toRotHess (h p)).dx2 * dZds, (o.toRotHess (h p)).dy2 * dZds, (o.toRotHess (h p)).dxdy * dZds] else [])

/-- potential_utils.cpp:494-518, `projectedEval`: value, gradient and Hessian, if requested -/
def projectedEval (Phi : PosCar → ℝ) (g : PosCar → GradCar) (h : PosCar → HessCar) (X Y : ℝ) (o : Orientation)
    (needPhi needGrad needHess : Bool) : Option ℝ × Option GradCar × Option HessCar :=
  let result (i : ℕ) := ∫ s in (0:ℝ)..1, (evalIntegrand Phi g h X Y o needPhi needGrad needHess s).getD i 0
  let n1 := if needPhi then 1 else 0
  let n2 := if needGrad then n1 + 2 else n1
  (if needPhi then some (result 0) else none,
   if needGrad then some ⟨result n1, result (n1 + 1), 0⟩ else none,
   if needHess then some ⟨result n2, result (n2 + 1), 0, result (n2 + 2), 0, 0⟩ else none)

/-- potential_utils.cpp:172-195, the eight mirrored points, in the order of the code -/
def mirrored (o : Orientation) (p : PosCar) : List PosCar :=
  let p0 := p
  let p1 : PosCar := ⟨p0.x, p0.y, p0.z * -1⟩
  let p2 : PosCar := ⟨p1.x, p1.y * -1, p1.z⟩
  let p3 : PosCar := ⟨p2.x, p2.y, p2.z * -1⟩
  let p4 : PosCar := ⟨p3.x * -1, p3.y, p3.z⟩
  let p5 : PosCar := ⟨p4.x, p4.y, p4.z * -1⟩
  let p6 : PosCar := ⟨p5.x, p5.y * -1, p5.z⟩
  let p7 : PosCar := ⟨p6.x, p6.y, p6.z * -1⟩
  [p0, p1, p2, p3, p4, p5, p6, p7].map o.fromRotPos

/-- `fmod(x, y)` for positive y: the remainder has the sign of x -/
def fmod (x y : ℝ) : ℝ := if 0 ≤ x then x - y * ⌊x / y⌋ else x - y * ⌈x / y⌉

/-- potential_utils.cpp:619-628, the reduction of the Euler angles -/
def reduceAngles (a : ℝ × ℝ × ℝ) : ℝ × ℝ × ℝ :=
  let a' := if a.2.1 > 0.5 * π then (π + a.1, π - a.2.1, π - a.2.2) else a
  (fmod (a'.1 + π) (π * 2) - π, a'.2.1, fmod (a'.2.2 + π) π)

end
end Verif.Pot.Projected
