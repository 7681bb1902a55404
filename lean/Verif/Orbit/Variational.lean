import Mathlib.Analysis.SpecialFunctions.Trigonometric.Deriv
import Mathlib.Analysis.SpecialFunctions.Log.Basic
import Mathlib.Algebra.Module.LinearMap.Defs
import Mathlib.Algebra.BigOperators.Fin
import Verif.Coord.DerivModel

/-!
# Deviation vectors and the variational equation: orbit_variational.cpp

Models `/repo/src/orbit_variational.cpp` 48-55, 87-117 (`RuntimeVariational::eval`), 120-245 (`processTimestep`, `storeSolution`), 247-299
(`renormalize`), with the macros ORTHOGONALIZE and ROTATING_FRAME undefined, as in the code.

Simplifications.
* (E) `double` is ℝ.
* (S) The solver of the linear equation is exact: a family of linear maps `U t1 t2` takes a deviation vector at `t1` to that at `t2`.
* The choice of output times is not modelled: `outputAt` is what is stored for any moment of time within the timestep.
* The number of vectors is `k+1` (1 or 6 in the code).
-/
namespace Verif.Orbit.Variational
open Real Verif.Coord
noncomputable section

abbrev V6 := Fin 6 → ℝ

/-- orbit_variational.cpp:49-55, `logMagnitude` -/
def logMagnitude (x : V6) : ℝ := 0.5 * log (∑ i, x i ^ 2)

/-- orbit_variational.cpp:105-116, the matrix of the equation d²D/dt² = a D in the inertial frame (rows); `h` is the Hessian at the point
of the trajectory in the rotating frame -/
def eval (Omega t : ℝ) (h : HessCar) : (ℝ × ℝ × ℝ) × (ℝ × ℝ × ℝ) × (ℝ × ℝ × ℝ) :=
  let ca := if Omega ≠ 0 then cos (Omega * t) else 1
  let sa := if Omega ≠ 0 then sin (Omega * t) else 0
  let a0 := -h.dx2 * (ca * ca) - h.dy2 * (sa * sa) + 2 * h.dxdy * (ca * sa)
  let a1 := -h.dxdy * (ca * ca - sa * sa) - (h.dx2 - h.dy2) * (ca * sa)
  let a2 := -h.dxdz * ca + h.dydz * sa
  let a3 := a1
  let a4 := -h.dy2 * (ca * ca) - h.dx2 * (sa * sa) - 2 * h.dxdy * (ca * sa)
  let a5 := -h.dydz * ca - h.dxdz * sa
  let a6 := a2
  let a7 := a5
  let a8 := -h.dz2
  ((a0, a1, a2), (a3, a4, a5), (a6, a7, a8))

/-- orbit_variational.cpp:143-149, the initial set of six vectors -/
def initVectors (Omega tbegin : ℝ) : Fin 6 → V6 :=
  let ca := cos (Omega * tbegin)
  let sa := sin (Omega * tbegin)
  ![![ca, sa, 0, 0, 0, 0], ![-sa, ca, 0, 0, 0, 0], ![0, 0, 1, 0, 0, 0],
    ![0, 0, 0, ca, sa, 0], ![0, 0, 0, -sa, ca, 0], ![0, 0, 0, 0, 0, 1]]

/-- orbit_variational.cpp:45-46, DEV_VEC_INIT, the initial vector if only the Lyapunov exponent is needed -/
def devVecInit : V6 := ![√(7 / 90), √(11 / 90), √(13 / 90), √(17 / 90), √(19 / 90), √(23 / 90)]

/-- orbit_variational.cpp:222-236, one output vector; `mul` is exp(addLogDevVec) -/
def output (Omega time mul : ℝ) (d : V6) : V6 :=
  let ca := if Omega ≠ 0 then cos (Omega * time) else 1
  let sa := if Omega ≠ 0 then sin (Omega * time) else 0
  ![(d 0 * ca + d 1 * sa) * mul, (d 1 * ca - d 0 * sa) * mul, d 2 * mul,
    (d 3 * ca + d 4 * sa) * mul, (d 4 * ca - d 3 * sa) * mul, d 5 * mul]

/-- the state between timesteps: vectors in the solver, addLogDevVec, time -/
structure State (k : ℕ) where
  dev : Fin (k + 1) → V6
  addLog : ℝ
  t : ℝ

/-- orbit_variational.cpp:195-245, the vectors stored for the moment `time` while the solver has the solution on the timestep that begins
in the state `s` -/
def outputAt {k : ℕ} (U : ℝ → ℝ → V6 →ₗ[ℝ] V6) (Omega : ℝ) (s : State k) (time : ℝ) (v : Fin (k + 1)) : V6 :=
  output Omega time (exp s.addLog) (U s.t time (s.dev v))

/-- orbit_variational.cpp:206, 241-244, the value returned by `storeSolution` -/
def maxLog {k : ℕ} (dev : Fin (k + 1) → V6) : ℝ := Finset.univ.sup' Finset.univ_nonempty fun v => logMagnitude (dev v)

/-- orbit_variational.cpp:280-298, `renormalize` -/
def renormalize {k : ℕ} (s : State k) : State k :=
  let logDevVec := maxLog s.dev
  let mult := exp (-logDevVec)
  ⟨fun v => mult • s.dev v, s.addLog + logDevVec, s.t⟩

open Classical in
/-- orbit_variational.cpp:120-123, 156-158, 184-192, `processTimestep`: the new state and the entry added to logDeviationVector -/
def processTimestep {k : ℕ} (U : ℝ → ℝ → V6 →ₗ[ℝ] V6) (t0 : ℝ) (s : State k) (tend : ℝ) : State k × Option (ℝ × ℝ) :=
  if s.t = tend then (s, none)
  else
    let s' : State k := ⟨fun v => U s.t tend (s.dev v), s.addLog, tend⟩
    let logDevVec := maxLog s'.dev
    (if logDevVec > 10 then renormalize s' else s', some (|tend - t0|, logDevVec + s'.addLog))

/-- the sequence of timesteps: final state and logDeviationVector -/
def run {k : ℕ} (U : ℝ → ℝ → V6 →ₗ[ℝ] V6) (t0 : ℝ) : State k → List ℝ → State k × List (ℝ × ℝ)
  | s, [] => (s, [])
  | s, t :: ts =>
    let r := processTimestep U t0 s t
    let q := run U t0 r.1 ts
    (q.1, r.2.toList ++ q.2)

end
end Verif.Orbit.Variational
