import Verif.Cubature.Kronrod
import Verif.Cubature.Heap
import Mathlib.MeasureTheory.Integral.Bochner.Set
import Mathlib.MeasureTheory.Constructions.Pi

/-! Adaptive subdivision of the integration volume (/repo/src/cubature.cpp:113-294, 564-575, 892-1150, and integrateNdim, /repo/src/math_core.cpp:1255-1346 without the CUBA library); C88.
Simplifications: floating-point numbers are real numbers; memory allocation always succeeds; unsigned counters do not overflow; the check of finiteness of the integrand
(math_core.cpp:1267-1277) is irrelevant for real numbers. -/
namespace Verif.Cubature

noncomputable section

open Finset

variable {d m : ℕ}

/-! ## Model -/

/-- cubature.cpp:128-132, 180-186: a region: hypercube (centers and half-widths, volume), the dimension to split, the values and errors of integrals, the largest error -/
structure Region (d m : ℕ) where
  c : Vec d
  h : Vec d
  vol : ℝ
  splitDim : Fin d
  val : Fin m → ℝ
  err : Fin m → ℝ
  errmax : ℝ

/-- cubature.cpp:134-141, compute_vol -/
def computeVol (h : Vec d) : ℝ := (List.finRange d).foldl (fun vol i => vol * (2 * h i)) 1

/-- cubature.cpp:119-126, errMax -/
def errMax (err : Fin m → ℝ) : ℝ := (List.finRange m).foldl (fun e k => if err k > e then err k else e) 0

/-- cubature.cpp:143-172, 188-197: the region covering the integration volume (make_hypercube_range, make_region); the content of `ee` and `errmax` is set later -/
def initRegion [NeZero d] (lo hi : Vec d) : Region d m where
  c := fun i => 0.5 * (lo i + hi i)
  h := fun i => 0.5 * (hi i - lo i)
  vol := computeVol fun i => 0.5 * (hi i - lo i)
  splitDim := 0
  val := 0
  err := 0
  errmax := 0

/-- cubature.cpp:206-218, cut_region: the two halves -/
def cut (R : Region d m) : Region d m × Region d m :=
  let k := R.splitDim
  let h := Function.update R.h k (R.h k * 0.5)
  ({ R with c := Function.update R.c k (R.c k - h k), h := h, vol := R.vol * 0.5 },
   { R with c := Function.update R.c k (R.c k + h k), h := h, vol := computeVol h })

/-- cubature.cpp:229-238: a rule. `val`, `err` give the integral and the error of one component from the half-widths, the volume and the values at points; `diff` is the measure
of variation along the given dimension. -/
structure Rule (d : ℕ) where
  num : ℕ
  points : Vec d → Vec d → List (Vec d)
  val : Vec d → ℝ → (ℕ → ℝ) → ℝ
  err : Vec d → ℝ → (ℕ → ℝ) → ℝ
  diff : (ℕ → ℝ) → Fin d → ℝ

/-- cubature.cpp:455-577 -/
def gmRule (L : Lambdas) (d : ℕ) : Rule d where
  num := gmNum d
  points := gmPoints L
  val := fun _ vol v => gmResult d vol v
  err := fun _ vol v => |gmRes5th d vol v - gmResult d vol v|
  diff := fun v k => gmDiff L v k

/-- cubature.cpp:618-757; splitDim=0 is the same as without differences (line 682) -/
def gkRule : Rule 1 where
  num := 15
  points := gkPoints
  val := fun h _ v => gkResult (h 0) v
  err := fun h _ v => gkError (h 0) v
  diff := fun _ _ => 0

/-- cubature.cpp:1115-1116: the choice of the rule -/
def cubRule : (d : ℕ) → Rule d
  | 1 => gkRule
  | d => gmRule codeLambdas d

open Classical in
/-- cubature.cpp:566-574: the first dimension with the largest variation -/
def splitOf [NeZero d] (diff : Fin d → ℝ) : Fin d :=
  ((List.finRange d).foldl (fun (s : ℝ × Fin d) i => if diff i > s.1 then (diff i, i) else s) (0, 0)).2

/-- The integrand: `none` means that an exception was thrown (math_core.cpp:1280-1283) -/
abbrev Integrand (d m : ℕ) := Vec d → Option (Fin m → ℝ)

/-- cubature.cpp:285-294, 505-577, 685-756: the evaluation of a region from the values of the integrand at its points -/
def fill [NeZero d] (r : Rule d) (R : Region d m) (vals : List (Fin m → ℝ)) : Region d m :=
  let v := fun (j : Fin m) (k : ℕ) => (vals.map fun x => x j).getD k 0
  let err := fun j => r.err R.h R.vol (v j)
  { R with
    val := fun j => r.val R.h R.vol (v j)
    err := err
    splitDim := splitOf fun i => ∑ j, r.diff (v j) i
    errmax := errMax err }

/-- cubature.cpp:285-294: eval_regions for one region; two regions are evaluated in one call, but independently -/
def evalRegion [NeZero d] (r : Rule d) (f : Integrand d m) (R : Region d m) : Option (Region d m) := ((r.points R.c R.h).mapM f).map (fill r R)

/-- The variables of rulecubature; `calls` is the number of points at which the integrand was evaluated (math_core.cpp:1265) -/
structure St (d m : ℕ) where
  heap : Heap (Region d m)
  tval : Fin m → ℝ
  terr : Fin m → ℝ
  numEval : ℕ
  calls : ℕ

/-- cubature.cpp:819-843: heap_push with the totals -/
def St.push (s : St d m) (R : Region d m) : St d m :=
  { s with heap := s.heap.push Region.errmax R, tval := fun j => s.tval j + R.val j, terr := fun j => s.terr j + R.err j }

open Classical in
/-- cubature.cpp:894-915, converged for ERROR_INDIVIDUAL -/
def converged (val err : Fin m → ℝ) (absTol relTol : ℝ) : Prop := ∀ j, ¬ (err j > absTol ∧ err j > |val j| * relTol)

/-- Outcome of rulecubature: failure of the integrand; exit from the program on an empty heap (line 861); the final state -/
inductive Outcome (d m : ℕ)
  | failure
  | abort
  | done (s : St d m)

/-- cubature.cpp:1066-1071: one iteration -/
def refine1 [NeZero d] (r : Rule d) (f : Integrand d m) (s : St d m) : Outcome d m :=
  match s.heap.pop Region.errmax with
  | none => .abort
  | some (R, heap) =>
    let s := { s with heap := heap, tval := fun j => s.tval j - R.val j, terr := fun j => s.terr j - R.err j }
    let R1 := (cut R).1
    let R2 := (cut R).2
    match evalRegion r f R1, evalRegion r f R2 with
    | some A, some B =>
      let s := (s.push A).push B
      .done { s with numEval := s.numEval + r.num * 2, calls := s.calls + ((r.points R1.c R1.h).length + (r.points R2.c R2.h).length) }
    | _, _ => .failure

open Classical in
/-- cubature.cpp:1010-1015: the loop ends: the limit of evaluations is reached, or the error is small enough -/
def finished (r : Rule d) (maxEval : ℕ) (absTol relTol : ℝ) (s : St d m) : Prop :=
  ¬ (s.numEval < maxEval ∨ maxEval = 0) ∨ converged s.tval s.terr absTol (if s.numEval > r.num then relTol else 1e-12)

open Classical in
/-- cubature.cpp:1010-1073: the loop; the result is `none` if it does not end in `fuel` iterations. -/
def loop [NeZero d] (r : Rule d) (f : Integrand d m) (maxEval : ℕ) (absTol relTol : ℝ) : ℕ → St d m → Option (Outcome d m)
  | 0, _ => none
  | fuel + 1, s =>
    if finished r maxEval absTol relTol s then some (.done s)
    else match refine1 r f s with
      | .done s' => loop r f maxEval absTol relTol fuel s'
      | o => some o

/-- cubature.cpp:994-1008: the first evaluation; `garbage` is the content of the allocated memory -/
def start [NeZero d] (r : Rule d) (f : Integrand d m) (lo hi : Vec d) (garbage : ℕ → Region d m) : Option (St d m) :=
  (evalRegion r f (initRegion lo hi)).map fun R =>
    let s : St d m := ⟨Heap.empty garbage, 0, 0, 0, 0⟩
    let R0 : Region d m := initRegion lo hi
    { s.push R with numEval := r.num, calls := (r.points R0.c R0.h).length }

/-- The result for the user: the integrals, errors, the number of evaluations -/
structure Result (m : ℕ) where
  val : Fin m → ℝ
  err : Fin m → ℝ
  numEval : ℕ

/-- cubature.cpp:1076-1083: the sums over all regions -/
def resum (s : St d m) : Result m where
  val := fun j => ∑ i ∈ range s.heap.n, (s.heap.items i).val j
  err := fun j => ∑ i ∈ range s.heap.n, (s.heap.items i).err j
  numEval := s.calls

/-- The outcome of integrateNdim: exception, termination of the program, or the result -/
inductive Ret (m : ℕ)
  | exception
  | abort
  | ok (r : Result m)

/-- cubature.cpp:976-1096 -/
def rulecubature [NeZero d] (r : Rule d) (f : Integrand d m) (lo hi : Vec d) (maxEval : ℕ) (absTol relTol : ℝ) (garbage : ℕ → Region d m) (fuel : ℕ) : Option (Ret m) :=
  match start r f lo hi garbage with
  | none => some .exception
  | some s => (loop r f maxEval absTol relTol fuel s).map fun
    | .failure => .exception
    | .abort => .abort
    | .done s => .ok (resum s)

/-- math_core.cpp:1289-1346, cubature.cpp:1098-1150: integrateNdim; 0 values: nothing is evaluated (the sums over no components are the empty array) -/
def integrateNdim (d m : ℕ) (f : Integrand d m) (lo hi : Vec d) (relTol : ℝ) (maxEval : ℕ) (garbage : ℕ → Region d m) (fuel : ℕ) : Option (Ret m) :=
  if h : d = 0 then some .exception
  else if d > 10 then some .exception
  else if m = 0 then some (.ok ⟨0, 0, 0⟩)
  else
    haveI : NeZero d := ⟨h⟩
    rulecubature (cubRule d) f lo hi maxEval 0 relTol garbage fuel

/-! ## Specification -/

/-- The half-open box with the given centre and half-widths -/
def Box (c h : Vec d) : Set (Vec d) := {x | ∀ i, c i - h i ≤ x i ∧ x i < c i + h i}

open Classical in
/-- A collection of boxes (centres and half-widths) covers a box without overlaps -/
def Tiling (c h : Vec d) (M : Multiset (Vec d × Vec d)) : Prop :=
  (∀ p ∈ M, ∀ i, 0 ≤ p.2 i ∧ |p.1 i - c i| + p.2 i ≤ h i) ∧ ∀ x, (M.filter fun p => x ∈ Box p.1 p.2).card = if x ∈ Box c h then 1 else 0

/-- The integral over the box of the given collection, sum over boxes -/
def sumInt (M : Multiset (Vec d × Vec d)) (g : Vec d → ℝ) : ℝ := (M.map fun p => ∫ x in Set.Icc (p.1 - p.2) (p.1 + p.2), g x).sum

end

end Verif.Cubature
