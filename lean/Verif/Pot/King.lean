import Mathlib.MeasureTheory.Integral.IntervalIntegral.Basic
import Mathlib.Analysis.SpecialFunctions.Gamma.Basic

/-!
# The generalized King model: potential_king.cpp

Models `/repo/src/potential_king.cpp`.

Simplifications.
* (E) `double` is ℝ; rounding, infinities and NaN are not represented; the initial value NaN of `phitrans` is `none`.
* (S) `math::gamma`, `math::gammainc` are the exact complete and upper incomplete gamma functions.
* (O) The ODE solver and the root-finder are parameters: `sol`, `dsol` are the functions returned by `solver.getSol(r,0)`
  and `solver.getSol(r,1)`, `times` the list of the ends of the successful steps, `root y a b` the result of
  `math::findRoot(FindRadiusFromPhi(solver, y), a, b, ...)`.
-/
namespace Verif.Pot.King
open Real MeasureTheory

/-- math::gammainc, the upper incomplete gamma function -/
noncomputable def gammainc (a x : ℝ) : ℝ := ∫ t in Set.Ioi x, exp (-t) * t ^ (a - 1)

/-- potential_king.cpp:37, the threshold for the series expansion -/
noncomputable def phicrit (trunc : ℝ) : ℝ := 1e-3 * (trunc + 0.1) ^ 3

/-- potential_king.cpp:35-36, the normalization constant -/
noncomputable def norm (W0 trunc : ℝ) : ℝ := exp (-W0) / (Gamma (trunc + 1.5) - gammainc (trunc + 1.5) W0)

open Classical in
/-- potential_king.cpp:41-47, `KingPotentialIntegrator::rho` -/
noncomputable def rho (W0 trunc phi : ℝ) : ℝ :=
  if phi ≤ 0 then 0
  else if phi > phicrit trunc then norm W0 trunc * exp phi * (Gamma (trunc + 1.5) - gammainc (trunc + 1.5) phi)
  else norm W0 trunc * phi ^ (trunc + 1.5) / (trunc + 1.5) * (1 + phi / (trunc + 2.5))

open Classical in
/-- potential_king.cpp:49-54, `KingPotentialIntegrator::eval`: the derivatives of `phi` and `dphi/dr`; `density` is
the function `rho` above -/
noncomputable def eval (density : ℝ → ℝ) (r : ℝ) (y : ℝ × ℝ) : ℝ × ℝ :=
  (y.2, if r = 0 then -3 * density y.1 else -9 * density y.1 - 2 / r * y.2)

/-- One row of the four output arrays. -/
@[ext] structure Row where (r phi dphidr rho : ℝ)

/-- The local variables of the loop `while(!finished)`, potential_king.cpp:101-105 -/
structure State where
  finished : Bool
  rcurr : ℝ
  phicurr : ℝ
  phitrans : Option ℝ
  out : List Row

open Classical in
/-- potential_king.cpp:122-136, one iteration of the loop over `igrid` -/
noncomputable def gridStep (dsol density : ℝ → ℝ) (root : ℝ → ℝ → ℝ → ℝ) (phitrans rprev rcurr phiprev phicurr : ℝ)
    (acc : List Row × Bool) (igrid : ℕ) : List Row × Bool :=
  let phiinter := phitrans * ((igrid : ℝ) * 1 / 8) ^ 2
  if phiinter < phiprev ∧ phiinter ≥ phicurr then
    let rinter := root phiinter rprev rcurr
    (acc.1 ++ [⟨rinter, phiinter, dsol rinter, density phiinter⟩], if phiinter = 0 then true else acc.2)
  else acc

open Classical in
/-- potential_king.cpp:110-145, the body of the loop after a successful step which ends at `rnew` -/
noncomputable def step (sol dsol density : ℝ → ℝ) (root : ℝ → ℝ → ℝ → ℝ) (s : State) (rnew : ℝ) : State :=
  let rprev := s.rcurr
  let phiprev := s.phicurr
  let rcurr := rnew
  let phicurr := sol rcurr
  if phicurr < phiprev * 0.75 ∨ (∃ p, s.phitrans = some p ∧ p > 0) then
    let phitrans := s.phitrans.getD phiprev
    let o := [7, 6, 5, 4, 3, 2, 1, 0].foldl (gridStep dsol density root phitrans rprev rcurr phiprev phicurr) (s.out, s.finished)
    ⟨o.2, rcurr, phicurr, some phitrans, o.1⟩
  else
    ⟨s.finished, rcurr, phicurr, s.phitrans, s.out ++ [⟨rcurr, phicurr, dsol rcurr, density phicurr⟩]⟩

/-- potential_king.cpp:106-147, the loop: it ends when `finished` is set, or when no further step is available -/
noncomputable def loop (sol dsol density : ℝ → ℝ) (root : ℝ → ℝ → ℝ → ℝ) : List ℝ → State → State
  | [], s => s
  | t :: ts, s => if s.finished then s else loop sol dsol density root ts (step sol dsol density root s t)

/-- potential_king.cpp:101-149, the tables in dimensionless units; `none` is the exception.  The 200th step is not
processed (`++numStepsODE >= MAX_NUM_STEPS_ODE`). -/
noncomputable def table (sol dsol density : ℝ → ℝ) (root : ℝ → ℝ → ℝ → ℝ) (W0 : ℝ) (times : List ℝ) : Option (List Row) :=
  let s := loop sol dsol density root (times.take 199) ⟨false, 0, W0, none, []⟩
  match s.out.getLast? with
  | none => none
  | some l => open Classical in if l.phi ≠ 0 then none else some s.out

/-- potential_king.cpp:160-165, the scaling of one row -/
noncomputable def scaleRow (mass scaleRadius totalMass phiadd : ℝ) (q : Row) : Row :=
  ⟨q.r * scaleRadius, -(q.phi + phiadd) * mass / scaleRadius / totalMass, q.dphidr * (-mass / scaleRadius ^ 2 / totalMass),
   q.rho * (9 / 4 / π * mass / scaleRadius ^ 3 / totalMass)⟩

open Classical in
/-- potential_king.cpp:81-166, `createKingModel`; `none` is an exception -/
noncomputable def createKingModel (sol dsol : ℝ → ℝ) (root : ℝ → ℝ → ℝ → ℝ) (times : List ℝ)
    (mass scaleRadius W0 trunc : ℝ) : Option (List Row) := do
  if ¬ (mass > 0 ∧ scaleRadius > 0) then none
  else if ¬ W0 > 0 then none
  else if ¬ (trunc ≥ 0 ∧ trunc < 3.5) then none
  else
    let rows ← table sol dsol (rho W0 trunc) root W0 times
    let l ← rows.getLast?
    let totalMass := -l.dphidr * l.r ^ 2
    let phiadd := totalMass / l.r
    some (rows.map (scaleRow mass scaleRadius totalMass phiadd))

end Verif.Pot.King
