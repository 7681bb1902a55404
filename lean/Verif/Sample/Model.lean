import Verif.Random.Sampling
import Verif.Core.Arith
import Mathlib.Analysis.SpecialFunctions.Log.Basic
import Mathlib.Data.List.FinRange

/-! Sampling from an N-dimensional probability distribution (/repo/src/math_sample.cpp); C89.
Simplifications: floating-point numbers are real numbers; counters do not overflow; the loops over blocks of points and over cells, which may be executed by several threads, are performed
sequentially (`Sched.lean` shows that the order is irrelevant); the code is compiled without DISABLE_QRNG. -/
namespace Verif.Sample

open Verif.Random Verif.Core

noncomputable section

/-- An array of `Ndim` numbers -/
abbrev Vec (d : ℕ) := Fin d → ℝ

/-- How the routine may fail: a C++ exception; a failed assertion; access beyond an array (or with an index -1); a loop that does not end -/
inductive Err
  | exception
  | assertion
  | memory
  | hang

/-- math_sample.cpp:66-87: a cell of the tree; the index -1 is `none` -/
structure Cell (d : ℕ) where
  head : Option ℕ
  parent : Option ℕ
  child : Option ℕ
  splitDim : Option (Fin d)
  weight : ℝ

/-- The arguments of sampleNdim and the environment: the function (`none` is an exception), the region, the number of output samples; the random offsets (drawn in the constructor, line 232);
the random integers used in the permutations with the given seed (line 424) and in the output permutation; the state of the Ctrl-Break handler at each iteration -/
structure Env (d : ℕ) where
  f : Vec d → Option ℝ
  lo : Vec d
  hi : Vec d
  N : ℕ
  off : Vec d
  draws : ℕ → ℕ → ℕ
  drawsOut : ℕ → ℕ
  brk : ℕ → Bool

/-- math_sample.cpp:104-143: the arrays of cells and points, the estimates of the integral, the queue of cells -/
structure St (d : ℕ) where
  cells : ℕ → Cell d
  ncells : ℕ
  next : ℕ → Option ℕ
  coords : ℕ → Vec d
  fval : ℕ → ℝ
  npts : ℕ
  integ : ℝ
  integErr : ℝ
  queue : List (ℕ × ℕ)

variable {d : ℕ}

/-- math_sample.cpp:25, 28, 33, 36 -/
def maxInitSamples : ℕ := 1048576
def minNumPointsInCell : ℕ := 256
def numBinsEntropy : ℕ := 16
def maxNumIter : ℕ := 50

/-- math_random.h:80-81 -/
def maxPrimes : ℕ := 10
def prime (i : ℕ) : ℕ := [2, 3, 5, 7, 19, 11, 13, 23, 29, 17].getD i 0

/-- The points of the list that starts at the given head, in the order of traversal `for(p=head; p>=0; p=nextPoint[p])` (e.g. lines 252-254); `none` if it does not end in `fuel` steps -/
def walk (next : ℕ → Option ℕ) : ℕ → Option ℕ → Option (List ℕ)
  | _, none => some []
  | 0, some _ => none
  | fuel + 1, some p => (walk next fuel (next p)).map (p :: ·)

/-- The points of a cell. A list cannot have more distinct points than there are in the array, hence the limit. -/
def points (s : St d) (i : ℕ) : Except Err (List ℕ) :=
  match walk s.next s.npts (s.cells i).head with
  | none => .error .hang
  | some l => .ok l

/-- math_sample.cpp:325-340: the loop from the cell towards the root -/
def relLoop (cells : ℕ → Cell d) : ℕ → ℕ → Vec d × Vec d → Except Err (Vec d × Vec d)
  | _, 0, b => .ok b
  | 0, _ + 1, _ => .error .hang
  | fuel + 1, index + 1, b =>
    match (cells (index + 1)).parent with
    | none => .error .memory
    | some p =>
      match (cells p).splitDim with
      | none => .error .memory
      | some k =>
        if (cells p).child = some (index + 1) then
          relLoop cells fuel p (Function.update b.1 k (b.1 k * 0.5), Function.update b.2 k (b.2 k * 0.5))
        else if (cells p).child = some index then
          relLoop cells fuel p (Function.update b.1 k (0.5 * (1 + b.1 k)), Function.update b.2 k (0.5 * (1 + b.2 k)))
        else .error .assertion

/-- math_sample.cpp:317-347, getCellBoundaries -/
def getCellBoundaries (e : Env d) (s : St d) (i : ℕ) : Except Err (Vec d × Vec d) := do
  let b ← relLoop s.cells s.ncells i (fun _ => 0, fun _ => 1)
  pure (fun k => e.lo k + (e.hi k - e.lo k) * b.1 k, fun k => e.lo k + (e.hi k - e.lo k) * b.2 k)

/-- math_sample.cpp:375-376: `numPoints *= 0.5` for each step towards the root -/
def halveLoop (cells : ℕ → Cell d) : ℕ → ℕ → ℝ → Except Err ℝ
  | _, 0, x => .ok x
  | 0, _ + 1, _ => .error .hang
  | fuel + 1, index + 1, x =>
    match (cells (index + 1)).parent with
    | none => .error .memory
    | some p => halveLoop cells fuel p (x * 0.5)

/-- math_sample.cpp:383: the last element of the queue -/
def queueTotal (q : List (ℕ × ℕ)) : ℕ := match q.getLast? with
  | none => 0
  | some x => x.2

/-- math_sample.cpp:371-386, addCellToQueue -/
def addCellToQueue (s : St d) (i : ℕ) : Except Err (St d) := do
  let numPoints ← halveLoop s.cells s.ncells i (1 / (s.cells i).weight)
  pure { s with
    cells := Function.update s.cells i { s.cells i with weight := (s.cells i).weight * 0.5 }
    queue := s.queue ++ [(i, ⌊numPoints⌋₊ + queueTotal s.queue)] }

/-- The number returned by quasiRandomHalton (math_random.cpp:223-232); the loop always ends within `ind` iterations for the bases used here (C24_value) -/
def haltonVal (ind base : ℕ) : ℝ := match halton ind ind base with
  | .value v => v
  | _ => 0

/-- math_sample.cpp:433-434: `fmod(quasiRandomHalton(ind, PRIMES[d]) + offsets[d], 1)`, the argument is not negative -/
def quasi (e : Env d) (ind : ℕ) (k : Fin d) : ℝ := Int.fract (haltonVal ind (prime k) + e.off k)

/-- math_sample.cpp:427-442: the loop over new points; `count` points remain. The state is the array of coordinates, the links and nextPointInList. -/
def addLoop (e : Env d) (b : Vec d × Vec d) (first : ℕ) (perm : List ℕ) : ℕ → ℕ → (ℕ → Vec d) × (ℕ → Option ℕ) × Option ℕ → (ℕ → Vec d) × (ℕ → Option ℕ) × Option ℕ
  | 0, _, st => st
  | count + 1, p, st =>
    addLoop e b first perm count (p + 1)
      (Function.update st.1 p fun k => b.1 k + (b.2 k - b.1 k) * quasi e (first + perm.getD (p - first) 0) k, Function.update st.2.1 p st.2.2, some p)

/-- math_sample.cpp:388-444, addPointsToCell; the array `perm` is not initialized before the call of getRandomPermutation -/
def addPointsToCell (e : Env d) (s : St d) (i first last : ℕ) : Except Err (St d) := do
  let b ← getCellBoundaries e s i
  match permLoop (e.draws last) (List.replicate (last - first) 0) (last - first) with
  | none => .error .memory
  | some perm =>
    let r := addLoop e b first perm (last - first) first (s.coords, s.next, (s.cells i).head)
    pure { s with coords := r.1, next := r.2.1, cells := Function.update s.cells i { s.cells i with head := r.2.2 } }

/-- math_sample.cpp:460-480: the loop which distributes points between the child cells; the state is the array of links and the heads of the two lists -/
def distribute (coords : ℕ → Vec d) (k : Fin d) (boundary : ℝ) : ℕ → Option ℕ → (ℕ → Option ℕ) × Option ℕ × Option ℕ → Except Err ((ℕ → Option ℕ) × Option ℕ × Option ℕ)
  | _, none, st => .ok st
  | 0, some _, _ => .error .hang
  | fuel + 1, some p, st =>
    let nx := st.1 p
    if coords p k < boundary then distribute coords k boundary fuel nx (Function.update st.1 p st.2.1, some p, st.2.2)
    else distribute coords k boundary fuel nx (Function.update st.1 p st.2.2, st.2.1, some p)

/-- math_sample.cpp:446-481, splitCell -/
def splitCell (s : St d) (i : ℕ) (k : Fin d) (boundary : ℝ) : Except Err (St d) :=
  if (s.cells i).head = none then .error .assertion
  else do
    let r ← distribute s.coords k boundary s.npts (s.cells i).head (s.next, none, none)
    let c := s.ncells
    pure { s with
      ncells := c + 2
      next := r.1
      cells := Function.update (Function.update (Function.update s.cells
        c ⟨r.2.1, some i, none, none, (s.cells i).weight⟩)
        (c + 1) ⟨r.2.2, some i, none, none, (s.cells i).weight⟩)
        i { s.cells i with head := none, child := some c, splitDim := some k } }

/-- math_sample.cpp:501: static_cast<int> -/
def truncInt (x : ℝ) : ℤ := if 0 ≤ x then ⌊x⌋ else ⌈x⌉

/-- math_sample.cpp:499-501: the number of the bin -/
def binOf (b : Vec d × Vec d) (x : Vec d) (k : Fin d) : ℤ := truncInt ((x k - b.1 k) / (b.2 k - b.1 k) * numBinsEntropy)

/-- math_sample.cpp:490, 496-505: the histogram -/
def hist (s : St d) (b : Vec d × Vec d) (l : List ℕ) (k : Fin d) (j : ℕ) : ℝ := ((l.filter fun p => binOf b (s.coords p) k = j).map s.fval).sum

/-- math_sample.cpp:513-517: entropy -/
def entropy (h : ℕ → ℝ) : ℝ := (List.range numBinsEntropy).foldl (fun (a : ℝ) (j : ℕ) => if h j > 0 then a - h j * Real.log (h j) else a) 0

/-- math_sample.cpp:518-521 -/
def argStep (ent : Fin d → ℝ) (st : Option (ℝ × Fin d)) (k : Fin d) : Option (ℝ × Fin d) := match st with
  | none => some (ent k, k)
  | some x => if ent k < x.1 then some (ent k, k) else some x

/-- math_sample.cpp:510-522: the dimension with the smallest entropy, `none` if there is none -/
def argMin (ent : Fin d → ℝ) : Option (Fin d) := ((List.finRange d).foldl (argStep ent) none).map Prod.snd

open Classical in
/-- math_sample.cpp:483-528, decideHowToSplitCell; a bin outside the histogram of the given dimension is an access beyond the array -/
def decideHowToSplitCell (e : Env d) (s : St d) (i : ℕ) : Except Err (St d) := do
  let b ← getCellBoundaries e s i
  let l ← points s i
  if l = [] then .error .assertion
  else if ∃ p ∈ l, ∃ k, ¬ (0 ≤ binOf b (s.coords p) k ∧ binOf b (s.coords p) k < numBinsEntropy) then .error .memory
  else match argMin fun k => entropy (hist s b l k) with
    | none => .error .assertion
    | some k => splitCell s i k (0.5 * (b.1 k + b.2 k))

/-- math_sample.cpp:535-548: the largest and the second largest value -/
def top2 (l : List ℝ) : ℝ × ℝ := l.foldl (fun a v => if v > a.1 then (v, a.1) else if v > a.2 then (a.1, v) else a) (0, 0)

/-- math_sample.cpp:530-562, processCell -/
def processCell (e : Env d) (s : St d) (i : ℕ) : Except Err (St d) := do
  let l ← points s i
  let t := top2 (l.map s.fval)
  if l.length = 0 then pure s
  else if (s.cells i).weight * e.N / s.integ * (t.1 * 2 - t.2) < 1 then pure s
  else if l.length > 2 * minNumPointsInCell then decideHowToSplitCell e s i
  else addCellToQueue s i

/-- math_sample.cpp:590-591: the loop over all cells, including those created in the process -/
def processLoop (e : Env d) : ℕ → ℕ → St d → Except Err (St d)
  | 0, i, s => if i < s.ncells then .error .hang else .ok s
  | fuel + 1, i, s => if i < s.ncells then do processLoop e fuel (i + 1) (← processCell e s i) else .ok s

open Classical in
/-- math_sample.cpp:280-315, evalFncLoop: an exception in the function or a negative value leads to an exception, otherwise the values are stored -/
def evalFncLoop (e : Env d) (s : St d) (first last : ℕ) : Except Err (St d) :=
  if ∃ p, first ≤ p ∧ p < last ∧ ∀ v, e.f (s.coords p) = some v → v < 0 then .error .exception
  else .ok { s with fval := fun p => if first ≤ p ∧ p < last then (e.f (s.coords p)).getD 0 else s.fval p }

/-- The points of all cells in the order of traversal (lines 251-254, 636-647), with the indices of cells -/
def allPoints (s : St d) : Except Err (List (ℕ × ℕ)) := (List.range s.ncells).foldlM (fun acc i => do pure (acc ++ (← points s i).map fun p => (i, p))) []

/-- math_sample.cpp:256, 639: sampleWeight -/
def sampleWeight (s : St d) (x : ℕ × ℕ) : ℝ := s.fval x.2 * (s.cells x.1).weight

/-- math_sample.cpp:244-278, computeResult; returns refineFactor -/
def computeResult (e : Env d) (s : St d) : Except Err (ℝ × St d) := do
  let l ← allPoints s
  let avg := (l.map (sampleWeight s)).foldl Averager.add Averager.init
  let integ := (l.map (sampleWeight s)).foldl (fun a w => a + w) 0
  let maxw := (l.map (sampleWeight s)).foldl max 0
  if avg.count ≠ s.npts then .error .assertion
  else if integ ≤ 0 then .error .exception
  else pure (maxw * e.N / integ, { s with integ := integ, integErr := √(avg.disp * s.npts) })

/-- math_sample.cpp:604-607: the loop over the queue; `prev` is cellsQueue[queueIndex-1].second -/
def addLoopQueue (e : Env d) (existing : ℕ) : List (ℕ × ℕ) → ℕ → St d → Except Err (St d)
  | [], _, s => .ok s
  | x :: q, prev, s => do addLoopQueue e existing q x.2 (← addPointsToCell e s x.1 (existing + prev) (existing + x.2))

/-- math_sample.cpp:589-615: one iteration -/
def iteration (e : Env d) (fuel : ℕ) (s : St d) : Except Err (ℝ × St d) := do
  let s ← processLoop e fuel 0 { s with queue := [] }
  if s.queue = [] then .error .assertion
  else do
    let existing := s.npts
    let overall := existing + queueTotal s.queue
    let s ← addLoopQueue e existing s.queue 0 { s with npts := overall }
    let s ← evalFncLoop e s existing overall
    computeResult e s

/-- math_sample.cpp:581-620: the do-while loop; `left` iterations remain -/
def runLoop (e : Env d) (fuel : ℕ) : ℕ → ℕ → St d → Except Err (St d)
  | 0, _, _ => .error .exception
  | left + 1, nIter, s =>
    if e.brk nIter then .error .exception
    else do
      let r ← iteration e fuel s
      if r.1 ≤ 1 then pure r.2 else runLoop e fuel left (nIter + 1) r.2

/-- math_sample.cpp:569-570 -/
def numInit (N : ℕ) : ℕ := min maxInitSamples ((1 + N / minNumPointsInCell) * minNumPointsInCell)

/-- math_sample.cpp:218, 571-574: the root cell; the new elements of arrays are zeros -/
def initSt (d N : ℕ) : St d where
  cells := fun _ => ⟨none, none, none, none, 1 / (numInit N : ℝ)⟩
  ncells := 1
  next := fun _ => some 0
  coords := fun _ _ => 0
  fval := fun _ => 0
  npts := numInit N
  integ := 0
  integErr := 0
  queue := []

/-- math_sample.cpp:564-621, run -/
def run (e : Env d) (fuel : ℕ) : Except Err (St d) := do
  let s ← addPointsToCell e (initSt d e.N) 0 0 (numInit e.N)
  let s ← evalFncLoop e s 0 (numInit e.N)
  let r ← computeResult e s
  if r.1 ≤ 1 then pure r.2 else runLoop e fuel (maxNumIter - 1) 1 r.2

/-- math_sample.cpp:629-631: the variables of drawSamples: partialSum, outputIndex, the matrix (`none`: not assigned) -/
structure Draw (d : ℕ) where
  sum : ℝ
  idx : ℕ
  out : ℕ → Option (Vec d)

/-- math_sample.cpp:639-646: the body of the loop -/
def drawStep (e : Env d) (s : St d) (perm : List ℕ) (w : ℝ) (t : Draw d) (x : ℕ × ℕ) : Except Err (Draw d) :=
  if sampleWeight s x > w then .error .assertion
  else
    let sum := t.sum + sampleWeight s x
    if sum ≥ (t.idx + 0.5) * w then
      if t.idx < e.N then pure ⟨sum, t.idx + 1, Function.update t.out (perm.getD t.idx 0) (some (s.coords x.2))⟩ else .error .memory
    else pure { t with sum := sum }

/-- math_sample.cpp:623-651, drawSamples -/
def drawSamples (e : Env d) (s : St d) : Except Err (ℕ → Option (Vec d)) :=
  match permLoop e.drawsOut (List.replicate e.N 0) e.N with
  | none => .error .memory
  | some perm => do
    let l ← allPoints s
    let t ← l.foldlM (drawStep e s perm (s.integ / e.N)) ⟨0, 0, fun _ => none⟩
    if t.idx ≠ e.N then .error .assertion else pure t.out

/-- math_sample.cpp:655-657: the output: the samples (rows of the matrix), the number of function evaluations, the integral and its error -/
structure Result (d : ℕ) where
  samples : ℕ → Option (Vec d)
  numTrial : ℕ
  integral : ℝ
  error : ℝ

/-- math_sample.cpp:234-241: volume -/
def volume (e : Env d) : ℝ := (List.finRange d).foldl (fun v k => v * (e.hi k - e.lo k)) 1

/-- math_sample.cpp:655-673 and the constructor (211-242); a function with several values is rejected in the same way and is not modelled -/
def sampleNdim (e : Env d) (fuel : ℕ) : Except Err (Result d) :=
  if d > maxPrimes then .error .exception
  else if ∃ k, ¬ e.hi k > e.lo k then .error .exception
  else do
    let s ← run e fuel
    let out ← drawSamples e s
    pure ⟨out, s.npts, volume e * s.integ, volume e * s.integErr⟩

end

end Verif.Sample
