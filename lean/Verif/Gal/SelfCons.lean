import Mathlib.Data.Real.Basic
import Mathlib.Logic.Function.Basic

/-!
# Self-consistent modelling: galaxymodel_selfconsistent.cpp

Models `/repo/src/galaxymodel_selfconsistent.cpp`, lines 17-170, and the component classes of
`/repo/src/galaxymodel_selfconsistent.h`, lines 88-270.

Simplifications.
* (E) `double` is ℝ.  Densities and potentials are functions of the point (`X → ℝ`).
* (P) `Multipole::create` and `CylSpline::create` (with the parameters stored in the model) are parameters `mul`, `cyl`;
  `createActionFinder` is a parameter `mk` with values in an abstract type; `none` is an exception.  The density computed
  by `update` of a component with a DF is a parameter: a function of the potential and the action finder it receives.
* (S) The components are shared objects: `heap` is the store of objects, and the array of the model contains references, perhaps
  repeated.  An operation returns the state it leaves and whether it has completed (`false`: an exception was thrown).
-/
namespace Verif.Gal.SelfCons
noncomputable section

variable {X A : Type}

/-- galaxymodel_selfconsistent.h:88-270: a component of the model.  ComponentStatic has `recompute = none` and any density and
potential; the components with a DF have no potential, and `recompute` is the density created in `update` (lines 35-42, 57-66). -/
structure Comp (X A : Type) where
  disk : Bool
  dens : Option (X → ℝ)
  pot : Option (X → ℝ)
  recompute : Option ((X → ℝ) → A → Option (X → ℝ))

/-- galaxymodel_selfconsistent.h:289-340, SelfConsistentModel together with the store of the components -/
structure State (X A : Type) where
  heap : ℕ → Comp X A
  comps : List ℕ
  tp : Option (X → ℝ)
  af : Option A

/-- potential_composite.cpp:202-207 and the analogous loop for potentials: the sum over components -/
def sumF (l : List (X → ℝ)) : X → ℝ := fun x => l.foldl (fun s f => s + f x) 0

/-- galaxymodel_selfconsistent.cpp:131-135 (and 147-150): a composite object for several densities, the object itself for one -/
def combine (l : List (X → ℝ)) : Option (X → ℝ) :=
  if l.length > 1 then some (sumF l) else l.head?

/-- galaxymodel_selfconsistent.cpp:140-143 (and 152-156): the expansion of the density, if there is one, is appended -/
def append (expand : (X → ℝ) → Option (X → ℝ)) (d : Option (X → ℝ)) (pots : List (X → ℝ)) : Option (List (X → ℝ)) :=
  match d with
  | none => some pots
  | some d =>
    match expand d with
    | none => none
    | some p => some (pots ++ [p])

/-- galaxymodel_selfconsistent.cpp:110-164, the new total potential in `updateTotalPotential` -/
def assemble (mul cyl : (X → ℝ) → Option (X → ℝ)) (cs : List (Comp X A)) : Option (X → ℝ) :=
  -- lines 110-128
  let compDensSph := cs.filterMap (fun c => if c.disk then none else c.dens)
  let compDensDisk := cs.filterMap (fun c => if c.disk then c.dens else none)
  let compPot := cs.filterMap (fun c => c.pot)
  match append mul (combine compDensSph) compPot with
  | none => none
  | some compPot =>
    match append cyl (combine compDensDisk) compPot with
    | none => none
    | some compPot =>
      -- lines 159-164
      if compPot.length = 0 then none
      else if compPot.length = 1 then compPot.head?
      else some (sumF compPot)

/-- galaxymodel_selfconsistent.cpp:69-78, `updateActionFinder` (a null pointer is dereferenced if there is no potential: `false`) -/
def updateActionFinder (mk : (X → ℝ) → Option A) (s : State X A) : State X A × Bool :=
  match s.tp with
  | none => (s, false)
  | some p =>
    match mk p with
    | none => (s, false)
    | some a => ({ s with af := some a }, true)

/-- galaxymodel_selfconsistent.cpp:104-170, `updateTotalPotential` -/
def updateTotalPotential (mul cyl : (X → ℝ) → Option (X → ℝ)) (mk : (X → ℝ) → Option A) (s : State X A) : State X A × Bool :=
  match assemble mul cyl (s.comps.map s.heap) with
  | none => (s, false)
  | some p => updateActionFinder mk { s with tp := some p }

/-- galaxymodel_selfconsistent.cpp:88-98, the loop over components in `doIteration`; the potential and the action finder of the
model are passed to each `update` -/
def updateLoop (p : X → ℝ) (a : A) : List ℕ → State X A → State X A × Bool
  | [], s => (s, true)
  | i :: t, s =>
    match (s.heap i).recompute with
    | none => updateLoop p a t s
    | some f =>
      match f p a with
      | none => (s, false)
      | some d => updateLoop p a t { s with heap := Function.update s.heap i { s.heap i with dens := some d } }

/-- galaxymodel_selfconsistent.cpp:80-102, `doIteration` -/
def doIteration (mul cyl : (X → ℝ) → Option (X → ℝ)) (mk : (X → ℝ) → Option A) (s : State X A) : State X A × Bool :=
  -- lines 82-87
  let r := match s.tp with
    | none => updateTotalPotential mul cyl mk s
    | some _ =>
      match s.af with
      | none => updateActionFinder mk s
      | some _ => (s, true)
  if r.2 = false then r
  else
    match r.1.tp, r.1.af with
    | some p, some a =>
      let r2 := updateLoop p a r.1.comps r.1
      if r2.2 = false then r2 else updateTotalPotential mul cyl mk r2.1
    | _, _ => (r.1, false)

end
end Verif.Gal.SelfCons
