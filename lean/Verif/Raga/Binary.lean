import Verif.Raga.Losscone

/-! # Raga: evolution of a binary black hole

Model of /repo/src/raga_binary.cpp in exact real arithmetic. Not modelled: text output, the sorting of encounters for it (lines 237, 249-259, 275-313), and the wrapping of the orbital phase. -/

namespace Verif.Raga

open Real Verif.Pot

noncomputable section

/-- raga_binary.h, BinaryEncounterData (without the direction of the velocity) -/
structure Encounter where
  Tbegin : ℝ
  Tlength : ℝ
  Ebegin : ℝ
  Lbegin : ℝ
  deltaE : ℝ
  deltaLz : ℝ

/-- what the recorder of encounters sees along the orbit: position, velocity, energy (including the potential of the binary), total angular momentum, gradient of the stellar potential in x and y,
whether this potential is axisymmetric, square of the critical radius (line 78), and the root-finder -/
structure Traj where
  sol : ℝ → PV
  E : ℝ → ℝ
  L : ℝ → ℝ
  gx : PV → ℝ
  gy : PV → ℝ
  axisym : Bool
  r2crit : ℝ
  findRoot : (ℝ → ℝ) → ℝ → ℝ → ℝ

/-- squared distance from origin (raga_binary.cpp:76-77) -/
def Traj.r2 (c : Traj) (t : ℝ) : ℝ := (c.sol t).x ^ 2 + (c.sol t).y ^ 2 + (c.sol t).z ^ 2

/-- z-component of angular momentum -/
def Traj.Lz (c : Traj) (t : ℝ) : ℝ := (c.sol t).x * (c.sol t).vy - (c.sol t).y * (c.sol t).vx

/-- raga_binary.cpp:78: square of the critical radius -/
def r2critOf (bh : KBParams) : ℝ := (bh.sma * 5) ^ 2

/-- raga_binary.cpp:47-66, computeLztorque (all values are finite) -/
def computeLztorque (c : Traj) (t1 t2 : ℝ) : ℝ :=
  if c.axisym then 0 else
  let delta : ℝ := 0.211324865
  let ta := t1 * delta + t2 * (1 - delta)
  let tb := t2 * delta + t1 * (1 - delta)
  let pa := c.sol ta
  let pb := c.sol tb
  0.5 * (t2 - t1) * (pa.x * c.gy pa - pa.y * c.gx pa + pb.x * c.gy pb - pb.y * c.gx pb)

/-- raga_binary.cpp:85-99: beginning and end of the part of the timestep spent inside the critical radius -/
def encTimes (c : Traj) (tbegin tend : ℝ) : ℝ × ℝ :=
  if (c.r2 tend < c.r2crit ∧ ¬ c.r2 tbegin < c.r2crit) ∨ (¬ c.r2 tend < c.r2crit ∧ c.r2 tbegin < c.r2crit) then
    let tcross := c.findRoot (fun t => c.r2 t - c.r2crit) tbegin tend
    if c.r2 tbegin ≥ c.r2crit then (tcross, tend) else (tbegin, tcross)
  else (tbegin, tend)

/-- raga_binary.cpp:104-106 -/
def newEncounter (c : Traj) (tbegin tend : ℝ) : Prop := (c.r2 tend < c.r2crit ∧ c.r2 tbegin ≥ c.r2crit) ∨ (tbegin = 0 ∧ c.r2 tbegin < c.r2crit)

/-- raga_binary.cpp:128-130: update of a record -/
def updateEnc (c : Traj) (tb te : ℝ) (e : Encounter) : Encounter :=
  { e with Tlength := e.Tlength + (te - tb), deltaE := e.deltaE + (c.E te - c.E tb), deltaLz := e.deltaLz + (c.Lz te - c.Lz tb - computeLztorque c tb te) }

open Classical in
/-- raga_binary.cpp:69-135, processTimestep; `none` is the failure of the assertion at line 110; the most recent encounter is at the head of the list -/
def binTimestep (c : Traj) (tbegin tend : ℝ) (encs : List Encounter) : Option (List Encounter) :=
  if c.r2 tbegin ≥ c.r2crit ∧ c.r2 tend ≥ c.r2crit then some encs
  else
    let tt := encTimes c tbegin tend
    let encs := if newEncounter c tbegin tend then ⟨tt.1, 0, c.E tt.1, c.L tt.1, 0, 0⟩ :: encs else encs
    match encs with
    | [] => none
    | e :: es => some (updateEnc c tt.1 tt.2 e :: es)

/-- consecutive timesteps, the first of which begins at the given time -/
def binRun (c : Traj) : ℝ → List ℝ → List Encounter → Option (List Encounter)
  | _, [], encs => some encs
  | t, t' :: ts, encs => (binTimestep c t t' encs).bind (binRun c t' ts)

/-! ## evolution of the orbit -/

/-- state of the loop at lines 202-225 -/
structure EvSt where
  sma : ℝ
  ecc : ℝ
  timePassed : ℝ
  maxTime : ℝ

/-- parameters that do not change during the loop; `invc` is the inverse of the speed of light (0 if it is infinite) -/
structure EvPar where
  mass : ℝ
  q : ℝ
  invc : ℝ
  H : ℝ
  K : ℝ

/-- raga_binary.cpp:205-206: common multiple -/
def gwMult (p : EvPar) (a e : ℝ) : ℝ := p.mass ^ 3 * (p.invc / a) ^ 5 * a * p.q / (1 + p.q) ^ 2 * (1 - e ^ 2) ^ (-3.5 : ℝ)

/-- raga_binary.cpp:207 -/
def Hgw (p : EvPar) (a e : ℝ) : ℝ := gwMult p a e * (192 + e ^ 2 * (584 + 74 * e ^ 2)) / 15 / a

/-- raga_binary.cpp:208 -/
def Kgw (p : EvPar) (a e : ℝ) : ℝ := -gwMult p a e * (608 + e ^ 2 * 242) / 15 * (1 - e ^ 2) * e ^ 2

/-- ratio of a positive number to |den|, which is infinite if den = 0 -/
def ratioInf (num den : ℝ) : WithTop ℝ := if den = 0 then ⊤ else ((num / |den| : ℝ) : WithTop ℝ)

/-- raga_binary.cpp:209-213: the length of the sub-step -/
def tstepOf (p : EvPar) (s : EvSt) : ℝ :=
  let r := min (ratioInf (min (1 - s.ecc ^ 2) (s.ecc ^ 2 + 1e-3)) (p.K + Kgw p s.sma s.ecc)) (ratioInf (1 / s.sma) (p.H + Hgw p s.sma s.ecc))
  match r with
  | ⊤ => s.maxTime - s.timePassed
  | (t : ℝ) => if 0.01 * t > s.maxTime - s.timePassed then s.maxTime - s.timePassed else 0.01 * t

/-- raga_binary.cpp:214: imminent coalescence (the ratio is infinite if there is no emission) -/
def coalesces (p : EvPar) (s : EvSt) : Prop := Hgw p s.sma s.ecc ≠ 0 ∧ 0.25 / s.sma / Hgw p s.sma s.ecc < s.maxTime - s.timePassed ∧ s.ecc < 0.01

open Classical in
/-- raga_binary.cpp:203-224, the body of the loop -/
def evStep (p : EvPar) (s : EvSt) : EvSt :=
  let tstep := tstepOf p s
  if coalesces p s then
    let t := s.timePassed + 0.25 / s.sma / Hgw p s.sma s.ecc
    ⟨0, 0, t, t⟩
  else
    ⟨1 / (1 / s.sma + tstep * (p.H + Hgw p s.sma s.ecc)), min 0.999 (√(max 0 (s.ecc ^ 2 + tstep * (p.K + Kgw p s.sma s.ecc)))), s.timePassed + tstep, s.maxTime⟩

/-- raga_binary.cpp:225: the condition of continuing the loop -/
def evGo (s : EvSt) : Prop := s.timePassed < s.maxTime * (1 - 1e-10)

open Classical in
/-- raga_binary.cpp:202-225, the loop with a limited number of iterations (`none` if they are exhausted) -/
def evLoop (p : EvPar) : ℕ → EvSt → Option EvSt
  | 0, _ => none
  | n + 1, s => if evGo (evStep p s) then evLoop p n (evStep p s) else some (evStep p s)

/-- raga_binary.cpp:195-227, evolveBH: `EvolvesTo p a e T s` means that the function terminates with the given orbit parameters and duration -/
def EvolvesTo (p : EvPar) (a e T : ℝ) (s : EvSt) : Prop := ∃ n, evLoop p n ⟨a, e, 0, T⟩ = some s

/-! ## end of episode -/

/-- raga_binary.cpp:241-260: the sum over particles and encounters (list of masses and encounters) -/
def sumDelta (f : Encounter → ℝ) (l : List (ℝ × List Encounter)) : ℝ := l.foldl (fun d pe => pe.2.foldl (fun d e => d + pe.1 * f e) d) 0

/-- raga_binary.cpp:263 -/
def hkMult (bh : KBParams) (T : ℝ) : ℝ := 2 * (1 + bh.q) ^ 2 / bh.q / bh.mass ^ 2 / T

/-- raga_binary.cpp:264: hardening rate -/
def hardeningH (bh : KBParams) (T dE : ℝ) : ℝ := hkMult bh T * dE

/-- raga_binary.cpp:265-266: eccentricity growth rate -/
def growthK (bh : KBParams) (T dE dLz : ℝ) : ℝ := hkMult bh T * (√((1 - bh.ecc ^ 2) * bh.mass / bh.sma) * dLz - (1 - bh.ecc ^ 2) * dE * bh.sma)

end

end Verif.Raga
