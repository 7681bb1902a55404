import Mathlib.Analysis.SpecialFunctions.Log.Basic
import Mathlib.Analysis.SpecialFunctions.Pow.Real
import Verif.Linalg.SolveBand

/-! # Fokker-Planck solver

Model of the finite-difference (Chang & Cooper) discretization and of the time step of the solver,
/repo/src/galaxymodel_fokkerplanck.cpp, in exact real arithmetic. Vectors are functions of the index; exceptions are `none`. -/

namespace Verif.FP

open Real Verif.Band Verif.Band.BandMatrix

noncomputable section

/-! ## discretization -/

/-- galaxymodel_fokkerplanck.cpp:500, `gridScaled` (SCALEH is the logarithm, line 25) -/
def gridScaled (gridh : ℕ → ℝ) (i : ℕ) : ℝ := log (gridh i)

/-- galaxymodel_fokkerplanck.cpp:501-503, `auxGridScaled` -/
def auxGridScaled (gridh : ℕ → ℝ) (i : ℕ) : ℝ := 0.5 * (gridScaled gridh i + gridScaled gridh (i + 1))

/-- galaxymodel_fokkerplanck.cpp:504-507, `gridWeights` (DHDSCALEH is the exponent, line 29) -/
def gridWeights (gridh : ℕ → ℝ) (gridSize : ℕ) (i : ℕ) : ℝ :=
  let xleft := if i > 0 then auxGridScaled gridh (i - 1) else gridScaled gridh 0
  let xright := if i < gridSize - 1 then auxGridScaled gridh i else gridScaled gridh (gridSize - 1)
  exp (gridScaled gridh i) * (xright - xleft)

/-- galaxymodel_fokkerplanck.cpp:511, `auxGridMult` -/
def auxGridMult (gridh : ℕ → ℝ) (i : ℕ) : ℝ := 1 / (gridScaled gridh (i + 1) - gridScaled gridh i) / exp (auxGridScaled gridh i)

/-- galaxymodel_fokkerplanck.cpp:512, `auxGridCoords` -/
def auxGridCoords (gridh : ℕ → ℝ) (i : ℕ) : ℝ := exp (auxGridScaled gridh i)

/-- a band matrix of width 1 with the given diagonal, filled in a loop (galaxymodel_fokkerplanck.cpp:504-509 and 526-528) -/
def diagMatrix (gridSize : ℕ) (d : ℕ → ℝ) : Option (BandMatrix ℝ) := do
  let M ← BandMatrix.create gridSize 1 0
  (List.range gridSize).foldlM (fun M i => M.set i i (d i)) M

/-- galaxymodel_fokkerplanck.cpp:492-509 and 543, `weightMatrix` -/
def weightMatrix (gridh : ℕ → ℝ) (gridSize : ℕ) : Option (BandMatrix ℝ) := diagMatrix gridSize (gridWeights gridh gridSize)

/-- galaxymodel_fokkerplanck.cpp:516-522, projVector -/
def projVector (gridh : ℕ → ℝ) (gridSize : ℕ) (fnc : ℝ → ℝ) (i : ℕ) : ℝ := fnc (gridh i) * gridWeights gridh gridSize i

/-- galaxymodel_fokkerplanck.cpp:524-530, projMatrix -/
def projMatrix (gridh : ℕ → ℝ) (gridSize : ℕ) (fnc : ℝ → ℝ) : Option (BandMatrix ℝ) :=
  diagMatrix gridSize (projVector gridh gridSize fnc)

/-- galaxymodel_fokkerplanck.cpp:560-562, `nextWminus` -/
def wminus (w : ℝ) : ℝ := if |w| > 0.02 then w / (exp w - 1) else 1 - 0.5 * w * (1 - (1 / 6) * w * (1 - (1 / 60) * w * w))

/-- the variables carried between the iterations of the loop in relaxationMatrix -/
structure Loop where
  mat : BandMatrix ℝ
  wminus : ℝ
  wplus : ℝ
  difDx : ℝ

/-- galaxymodel_fokkerplanck.cpp:552-575, one iteration of the loop in relaxationMatrix -/
def relaxStep (gridh : ℕ → ℝ) (gridSize : ℕ) (gridAdv gridDif : ℕ → ℝ) (s : Loop) (i : ℕ) : Option Loop :=
  let nextDifDx := if i < gridSize - 1 then gridDif i * auxGridMult gridh i else 0
  let w := gridAdv i / nextDifDx
  let nextWminus := if i < gridSize - 1 then wminus w else 0
  let nextWplus := if i < gridSize - 1 then nextWminus + w else 0
  (if i > 0 then s.mat.set i (i - 1) (s.difDx * s.wminus) else some s.mat).bind fun mat =>
  (if i < gridSize - 1 then mat.set i (i + 1) (nextDifDx * nextWplus) else some mat).bind fun mat =>
  (mat.set i i (-(s.difDx * s.wplus + nextDifDx * nextWminus))).bind fun mat =>
  some ⟨mat, nextWminus, nextWplus, nextDifDx⟩

/-- galaxymodel_fokkerplanck.cpp:545-577, relaxationMatrix -/
def relaxationMatrix (gridh : ℕ → ℝ) (gridSize : ℕ) (gridAdv gridDif : ℕ → ℝ) : Option (BandMatrix ℝ) := do
  let M ← BandMatrix.create gridSize 1 0
  let s ← (List.range gridSize).foldlM (relaxStep gridh gridSize gridAdv gridDif) ⟨M, 0, 0, 0⟩
  return s.mat

/-! ## time step -/

/-- what the time step needs to know about one component of the system and about the discretization -/
structure Input where
  /-- weight matrix, relaxation matrix, the one at the previous step, loss-cone matrix -/
  weight : BandMatrix ℝ
  relax : BandMatrix ℝ
  prevRelax : BandMatrix ℝ
  drain : BandMatrix ℝ
  /-- masses of the basis functions (projection of the unit function) -/
  gridMass : ℕ → ℝ
  /-- the amplitudes of the distribution function before the step; their number -/
  gridf : ℕ → ℝ
  dim : ℕ
  sourceRate : ℝ
  gridSourceRate : ℕ → ℝ
  absorbing : Bool
  captureMassFraction : ℝ

/-- galaxymodel_fokkerplanck.cpp:1160-1161: the first row of the matrix is set to zero -/
def zeroFirstRow (M : BandMatrix ℝ) : Option (BandMatrix ℝ) :=
  (List.range (M.band + 1)).foldlM (fun M b => M.set 0 b 0) M

/-- galaxymodel_fokkerplanck.cpp:1182-1189: boundary conditions -/
def boundary (dim : ℕ) (absorbing : Bool) (f : ℕ → ℝ) (bandwidth : ℕ) (lhs : BandMatrix ℝ) (rhs : ℕ → ℝ) : Option (BandMatrix ℝ × (ℕ → ℝ)) :=
  (List.range (bandwidth + 1)).foldlM (fun s b =>
    (s.1.set (dim - 1) (dim - 1 - b) (if b = 0 then 1 else 0)).bind fun lhs =>
    let rhs := Function.update s.2 (dim - 1) (f (dim - 1))
    if absorbing then
      (lhs.set 0 b (if b = 0 then 1 else 0)).bind fun lhs => some (lhs, Function.update rhs 0 (f 0))
    else some (lhs, rhs)) (lhs, rhs)

/-- galaxymodel_fokkerplanck.cpp:1144-1189: the matrix and the right-hand side of the system solved in one step -/
def assemble (p : Input) (useCorrection : Bool) (deltat prevdeltat : ℝ) : Option (BandMatrix ℝ × (ℕ → ℝ)) :=
  (daxpy (-deltat) p.relax p.weight).bind fun lhs =>
  let rhs := dgemv false 1 p.weight p.gridf 0 (fun _ => 0)
  (if useCorrection then
    (daxpy (-1) p.relax p.prevRelax).bind fun deltaRel =>
    (zeroFirstRow deltaRel).bind fun deltaRel =>
    some (dgemv false (-deltat ^ 2 / prevdeltat) deltaRel p.gridf 1 rhs)
  else some rhs).bind fun rhs =>
  (if p.absorbing then daxpy (-deltat) p.drain lhs else some lhs).bind fun lhs =>
  let rhs := if p.sourceRate > 0 then fun i => rhs i + deltat * p.gridSourceRate i else rhs
  boundary p.dim p.absorbing p.gridf p.weight.band lhs rhs

/-- the results of the step: new amplitudes and the increments of the mass created, the mass lost and the mass accreted -/
structure Output where
  newf : ℕ → ℝ
  sourceMass : ℝ
  drainMass : ℝ
  accretedMass : ℝ

/-- galaxymodel_fokkerplanck.cpp:1203-1216: mass lost through the inner boundary -/
def lostInner (p : Input) (deltat : ℝ) (newf : ℕ → ℝ) : ℝ :=
  (List.range p.weight.band).foldl (fun lost k => let b := k + 1
    lost + ((newf b - p.gridf b) * dense p.weight 0 b - newf b * dense p.relax 0 b * deltat)) 0

/-- galaxymodel_fokkerplanck.cpp:1219-1235: mass lost through the loss cone, from a separate system of equations -/
def lostCone (p : Input) (deltat : ℝ) : Option ℝ :=
  (daxpy (-deltat) p.drain p.weight).bind fun lhs =>
  let rhs := dgemv false 1 p.weight p.gridf 0 (fun _ => 0)
  let newfLC := solveBand lhs rhs
  some (∑ i ∈ Finset.range p.dim, (newfLC i - p.gridf i) * p.gridMass i)

/-- galaxymodel_fokkerplanck.cpp:1132-1239: the part of `evolve` for one component (energies are not modelled) -/
def evolveComp (p : Input) (useCorrection : Bool) (deltat prevdeltat : ℝ) : Option Output :=
  (assemble p useCorrection deltat prevdeltat).bind fun s =>
  let newf := solveBand s.1 s.2
  let sourceMass := if p.sourceRate > 0 then deltat * ∑ i ∈ Finset.range p.dim, p.gridSourceRate i else 0
  if p.absorbing then
    let l1 := lostInner p deltat newf
    (lostCone p deltat).bind fun l2 =>
    some ⟨newf, sourceMass, l1 + l2, -l1 * p.captureMassFraction - l2 * p.captureMassFraction⟩
  else some ⟨newf, sourceMass, 0, 0⟩

/-- galaxymodel_fokkerplanck.cpp:1127: whether the correction is used -/
def useCorrection (deltat prevdeltat : ℝ) : Prop := deltat < prevdeltat * 2

/-- galaxymodel_fokkerplanck.cpp:731, 774, 1058-1093: the loss-cone matrix after the constructor: an empty matrix unless the draining is switched on -/
def initialDrain (lossConeDrain : Bool) (mat : BandMatrix ℝ) : BandMatrix ℝ := if lossConeDrain then mat else ⟨0, 0, fun _ => 0⟩

end

end Verif.FP
