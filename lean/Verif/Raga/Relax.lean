import Verif.Random.Props
import Verif.Coord.Model
import Mathlib.Analysis.SpecialFunctions.Pow.Deriv
import Mathlib.Analysis.SpecialFunctions.Pow.Continuity

/-! # Raga: two-body relaxation

Model of parts of /repo/src/raga_relaxation.cpp and of the total energy in /repo/src/raga_core.cpp, in exact real arithmetic. Not modelled: the fit of the distribution function and the diffusion coefficients
(galaxymodel_spherical.cpp), which are given here; the state of the pseudo-random generator, whose output is arbitrary here; text output. -/

namespace Verif.Raga

open Real

noncomputable section

open Classical in
/-- raga_relaxation.cpp:20-26: the loop that stores samples taken at regular intervals of time; `out` is the list of samples stored so far (earliest first), `num` is the space reserved for this particle,
`f` is the phase volume at the given moment of time along the orbit; `fuel` bounds the recursion and is at least the remaining space -/
def sampleLoop (dt : ℝ) (num : ℕ) (f : ℝ → ℝ) (tbegin tend : ℝ) : ℕ → List ℝ → List ℝ
  | 0, out => out
  | fuel + 1, out =>
    let tsamp := dt * (out.length + 1)
    if tsamp > tbegin ∧ tsamp ≤ tend ∧ out.length ≠ num then sampleLoop dt num f tbegin tend fuel (out ++ [f tsamp]) else out

/-- sampling during one timestep -/
def sampleStep (dt : ℝ) (num : ℕ) (f : ℝ → ℝ) (tbegin tend : ℝ) (out : List ℝ) : List ℝ := sampleLoop dt num f tbegin tend (num - out.length + 1) out

/-- sampling during consecutive timesteps -/
def sampleRun (dt : ℝ) (num : ℕ) (f : ℝ → ℝ) : ℝ → List ℝ → List ℝ → List ℝ
  | _, [], out => out
  | t, t' :: ts, out => sampleRun dt num f t' ts (sampleStep dt num f t t' out)

/-- diffusion coefficients returned by the relaxation model: v <Delta v_par>, <Delta v_par^2>, <Delta v_per^2> (per unit time) -/
structure DifCoef where
  dvpar : ℝ
  dv2par : ℝ
  dv2per : ℝ

open Classical in
/-- raga_relaxation.cpp:30-85: perturbation of the velocity at the end of a timestep (returns the new velocity); `u1`, `u2` are the uniform random numbers used in getRandomPerpendicularVector -/
def kick (v : ℝ × ℝ × ℝ) (d : Option DifCoef) (coulombLog timestep rand1 rand2 u1 u2 : ℝ) : ℝ × ℝ × ℝ :=
  let vel := √(v.1 ^ 2 + v.2.1 ^ 2 + v.2.2 ^ 2)
  if vel = 0 then v else
  match d with
  | none => v   -- not finite
  | some d =>
    if d.dv2par < 0 ∨ d.dv2per < 0 then v else
    let dvpar := d.dvpar * coulombLog
    let dv2par := d.dv2par * coulombLog
    let dv2per := d.dv2per * coulombLog
    let deltavpar := rand1 * √(dv2par * timestep) + dvpar / vel * timestep
    let deltavper := rand2 * √(dv2per * timestep)
    let pv := Verif.Random.perpVector v u1 u2
    (v.1 + (v.1 / pv.1 * deltavpar + pv.2.1 * deltavper), v.2.1 + (v.2.1 / pv.1 * deltavpar + pv.2.2.1 * deltavper), v.2.2 + (v.2.2 / pv.1 * deltavpar + pv.2.2.2 * deltavper))

/-! ## elimination of bad samples -/

/-- raga_relaxation.cpp:158: the condition of retaining a sample (`none` is a value that is not finite) -/
def goodSample (h : Option ℝ) (m : ℝ) : Prop := (∃ x, h = some x ∧ x > 0) ∧ m > 0

/-- the three arrays that are modified in place -/
structure Arrs where
  h : ℕ → Option ℝ
  m : ℕ → ℝ
  s : ℕ → ℝ

open Classical in
/-- raga_relaxation.cpp:157-166: one iteration: `src` is the position of the source iterators, `dest` of the destination ones -/
def elimIter (a : Arrs) (dest src : ℕ) : Arrs × ℕ :=
  if goodSample (a.h src) (a.m src) then
    ({ h := Function.update a.h dest (a.h src), m := Function.update a.m dest (a.m src), s := Function.update a.s dest (a.s src) }, dest + 1)
  else (a, dest)

/-- raga_relaxation.cpp:146-173, eliminateBadSamples for arrays of length n: returns the arrays and their new length -/
def eliminateBadSamples (a : Arrs) (n : ℕ) : Arrs × ℕ := (List.range n).foldl (fun st src => elimIter st.1 st.2 src) (a, 0)

/-! ## extrapolation of the distribution function -/

/-- CautiousLogLogSpline: the original function with its derivative, the endpoints, the values there and the slopes -/
structure Cautious where
  spl : ℝ → ℝ
  dspl : ℝ → ℝ
  xin : ℝ
  xout : ℝ
  fin : ℝ
  fout : ℝ
  slopein : ℝ
  slopeout : ℝ

/-- raga_relaxation.cpp:100-114, constructor -/
def Cautious.mk' (spl dspl : ℝ → ℝ) (xin xout minslope : ℝ) : Cautious where
  spl := spl
  dspl := dspl
  xin := xin
  xout := xout
  fin := spl xin
  fout := spl xout
  slopein := let slopein := dspl xin * (xin / spl xin); if ¬ slopein ≥ minslope then minslope else slopein
  slopeout := min (dspl xout * xout / spl xout) (-1.05)

open Classical in
/-- raga_relaxation.cpp:116-140, value -/
def Cautious.value (c : Cautious) (x : ℝ) : ℝ := if x < c.xin then c.fin * (x / c.xin) ^ c.slopein else if x > c.xout then c.fout * (x / c.xout) ^ c.slopeout else c.spl x

open Classical in
/-- raga_relaxation.cpp:116-140, derivative -/
def Cautious.deriv (c : Cautious) (x : ℝ) : ℝ :=
  if x < c.xin then c.fin * (x / c.xin) ^ c.slopein * c.slopein / x else if x > c.xout then c.fout * (x / c.xout) ^ c.slopeout * c.slopeout / x else c.dspl x

open Classical in
/-- raga_relaxation.cpp:116-140, second derivative in the regions of extrapolation (`d2spl` is the one of the spline) -/
def Cautious.deriv2 (c : Cautious) (d2spl : ℝ → ℝ) (x : ℝ) : ℝ :=
  if x < c.xin then c.fin * (x / c.xin) ^ c.slopein * c.slopein * (c.slopein - 1) / x ^ 2
  else if x > c.xout then c.fout * (x / c.xout) ^ c.slopeout * c.slopeout * (c.slopeout - 1) / x ^ 2 else d2spl x

/-! ## slope of the potential -/

/-- raga_relaxation.cpp:197-200: the estimate of the inner slope of the potential from its values at two innermost grid points and the derivative at the first one -/
def slopeEstimate (r0 r1 Phi0 Phi1 dPhi0 : ℝ) : ℝ := ((Phi1 - Phi0) / (dPhi0 * r0 * log (r1 / r0)) - 1) / log (r1 / r0) * 2

open Classical in
/-- raga_relaxation.cpp:201-207: the corrected derivative -/
def correctDeriv (r0 r1 Phi0 Phi1 dPhi0 : ℝ) : ℝ :=
  if slopeEstimate r0 r1 Phi0 Phi1 dPhi0 < 1 / 4 then (Phi1 - Phi0) / ((1 / 4 * 0.5 * log (r1 / r0) + 1) * r0 * log (r1 / r0)) else dPhi0

/-! ## total energy -/

/-- a particle: mass, kinetic energy per unit mass, potential of stars and of black holes at its position -/
structure PartE where
  mass : ℝ
  vx : ℝ
  vy : ℝ
  vz : ℝ
  PhiStars : ℝ
  PhiBH : ℝ

open Classical in
/-- raga_core.cpp:16-51, computeTotalEnergyModel: returns (Etot, Esum) -/
def totalEnergyModel (PhiCenter bhMass bhSma bhQ : ℝ) (parts : List PartE) : ℝ × ℝ :=
  let E : ℝ × ℝ := (0, 0)
  let E := if bhMass > 0 then (E.1 + bhMass * PhiCenter * 0.5, E.2 + bhMass * PhiCenter) else E
  let E := if bhSma > 0 then
      let Ebin := 0.5 * bhMass ^ 2 / bhSma * bhQ / (1 + bhQ) ^ 2
      (E.1 - Ebin, E.2 - Ebin * 2)
    else E
  parts.foldl (fun E p =>
    let Epot := p.PhiStars + p.PhiBH
    let Ekin := (p.vx ^ 2 + p.vy ^ 2 + p.vz ^ 2) * 0.5
    (E.1 + p.mass * (Ekin + Epot * 0.5), E.2 + p.mass * (Ekin + Epot))) E

/-- raga_core.cpp:63-64, printLog: (Ekin, Epot) -/
def kinPot (E : ℝ × ℝ) : ℝ × ℝ := (2 * E.1 - E.2, -E.1 + E.2)

end

end Verif.Raga
