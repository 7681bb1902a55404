import Verif.Pot.Kepler
import Mathlib.Analysis.SpecialFunctions.Pow.Real
import Mathlib.Analysis.Calculus.Deriv.MeanValue

/-! # Raga: capture of stars by the central black hole(s)

Model of /repo/src/raga_losscone.cpp in exact real arithmetic; a NaN is `none`. The text output (lines 165-194) is not modelled. -/

namespace Verif.Raga

open Real Verif.Pot

noncomputable section

/-- position and velocity (coord::PosVelCar) -/
abbrev PV := Verif.Coord.PosVelCar

/-- raga_losscone.h:34-51, CaptureData; `tcapt` is `none` for NaN -/
structure CaptureData where
  tcapt : Option ℝ := none
  E : ℝ := 0
  rperi : ℝ := 0
  rcapt : ℝ := 0
  indexBH : ℕ := 0

/-- coordinates and velocities of the black hole number b -/
def bhX (s : KBState) (b : ℕ) : ℝ := if b = 0 then s.X0 else s.X1
def bhY (s : KBState) (b : ℕ) : ℝ := if b = 0 then s.Y0 else s.Y1
def bhVX (s : KBState) (b : ℕ) : ℝ := if b = 0 then s.VX0 else s.VX1
def bhVY (s : KBState) (b : ℕ) : ℝ := if b = 0 then s.VY0 else s.VY1

/-- raga_losscone.cpp:28-37, PericenterFinder::value -/
def pericenterFnc (orb : ℝ → KBState) (sol : ℝ → PV) (b : ℕ) (time : ℝ) : ℝ :=
  ((sol time).x - bhX (orb time) b) * ((sol time).vx - bhVX (orb time) b) + ((sol time).y - bhY (orb time) b) * ((sol time).vy - bhVY (orb time) b) + (sol time).z * (sol time).vz

/-- raga_losscone.cpp:79, distance to the black hole -/
def dist (orb : ℝ → KBState) (sol : ℝ → PV) (b : ℕ) (t : ℝ) : ℝ := √(((sol t).x - bhX (orb t) b) ^ 2 + ((sol t).y - bhY (orb t) b) ^ 2 + (sol t).z ^ 2)

/-- raga_losscone.cpp:50, 149 -/
def numBH (bh : KBParams) : ℕ := if bh.sma > 0 then 2 else 1

/-- what the function changes: stored derivatives, the record of capture, the state of the orbit integrator (if it was reset) -/
structure St where
  drdt : ℕ → ℝ
  out : CaptureData
  stop : Option (PV × ℝ) := none

/-- what it is given: the parameters of the black holes, their orbit (`keplerOrbit`), the solution of the orbit integrator, the root-finder (`none` is NaN), and the capture radii -/
structure Ctx where
  bh : KBParams
  orb : ℝ → KBState
  sol : ℝ → PV
  findRoot : (ℝ → ℝ) → ℝ → ℝ → Option ℝ
  captureRadius : ℕ → ℝ

/-- raga_losscone.cpp:52-100, one iteration of the loop over black holes; the second value is whether the particle is captured -/
def processBH (c : Ctx) (tbegin tend : ℝ) (b : ℕ) (s : St) : St × Bool :=
  let pf := pericenterFnc c.orb c.sol b
  let prevdrdt := if tbegin = 0 then pf tbegin else s.drdt b
  let s := { s with drdt := Function.update s.drdt b (pf tend) }
  if ¬ (prevdrdt ≤ 0 ∧ s.drdt b > 0) then (s, false)
  else
    let tperi := (c.findRoot pf tbegin tend).getD tbegin
    let rperi := dist c.orb c.sol b tperi
    if rperi > c.captureRadius b then (s, false)
    else
      let Mbh := c.bh.mass * (if numBH c.bh = 1 then 1 else (if b = 0 then 1 else c.bh.q) / (1 + c.bh.q))
      let pv := c.sol tperi
      let o := c.orb tperi
      ({ s with
          out := { tcapt := some tperi, E := -Mbh / rperi + 0.5 * ((pv.vx - bhVX o b) ^ 2 + (pv.vy - bhVY o b) ^ 2 + pv.vz ^ 2), rperi := rperi, rcapt := c.captureRadius b, indexBH := b }
          stop := some (pv, tperi) }, true)

/-- raga_losscone.cpp:51-104, the loop over black holes; the second value is whether the integration continues -/
def loopBH (c : Ctx) (tbegin tend : ℝ) : List ℕ → St → St × Bool
  | [], s => (s, true)
  | b :: bs, s => if (processBH c tbegin tend b s).2 then ((processBH c tbegin tend b s).1, false) else loopBH c tbegin tend bs (processBH c tbegin tend b s).1

/-- raga_losscone.cpp:43-105, processTimestep -/
def processTimestep (c : Ctx) (tbegin tend : ℝ) (s : St) : St × Bool :=
  if ∃ t, s.out.tcapt = some t ∧ t ≥ 0 then (s, false) else loopBH c tbegin tend (List.range (numBH c.bh)) s

/-- raga_losscone.cpp:122-137, createRuntimeFnc: capture radii of the two black holes; `invc2` is one over the square of the speed of light (0 if it is infinite) -/
def captureRadius (bh : KBParams) (invc2 stellarMass stellarRadius : ℝ) (b : ℕ) : ℝ :=
  let Mbh0 := if bh.sma = 0 then bh.mass / (1 + bh.q) else bh.mass
  let Mbh1 := if bh.sma = 0 then bh.mass / (1 + bh.q) * bh.q else 0
  let r := fun M => max (8 * M * invc2) (stellarRadius * (M / stellarMass) ^ (1 / 3 : ℝ))
  if b = 0 then r Mbh0 else r Mbh1

/-- raga_losscone.cpp:149-162: which particles were captured in this episode -/
def isCaptured (mass : ℕ → ℝ) (cap : ℕ → CaptureData) (ip : ℕ) : Prop := mass ip ≠ 0 ∧ ∃ t, (cap ip).tcapt = some t ∧ t ≥ 0

/-- the state changed at the end of an episode -/
structure Episode where
  mass : ℕ → ℝ
  bh : KBParams
  totalNumCaptured : ℕ

open Classical in
/-- raga_losscone.cpp:146-207, finishEpisode (without the text output) -/
def finishEpisode (n : ℕ) (cap : ℕ → CaptureData) (captureMassFraction : ℝ) (s : Episode) : Episode :=
  let sorted := (List.range n).filter (fun ip => isCaptured s.mass cap ip)
  let capturedMass := fun b => sorted.foldl (fun m ip => if (cap ip).indexBH = b then m + s.mass ip else m) 0
  if sorted.length > 0 then
    let mass := sorted.foldl (fun m ip => Function.update m ip 0) s.mass
    let q := if numBH s.bh > 1 then (s.bh.mass * s.bh.q + capturedMass 1 * (1 + s.bh.q)) / (s.bh.mass + capturedMass 0 * (1 + s.bh.q)) else s.bh.q
    { mass := mass, bh := { s.bh with q := q, mass := s.bh.mass + (capturedMass 0 + capturedMass 1) * captureMassFraction }, totalNumCaptured := s.totalNumCaptured + sorted.length }
  else s

end

end Verif.Raga
