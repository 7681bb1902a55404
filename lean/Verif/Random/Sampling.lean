import Mathlib.Analysis.SpecialFunctions.Trigonometric.Basic
import Mathlib.Analysis.SpecialFunctions.Sqrt

/-
Model of the routines of math_random.cpp which turn uniform random numbers into vectors, rotations,
permutations, and of the quasi-random Halton sequence.
Simplification (E): `double` is ℝ (ℚ for Halton); the uniform numbers are explicit arguments.
-/
namespace Verif.Random

/-- math_random.cpp:147-155, `getRandomUnitVector`; `u1`, `u2` are the two successive values of
`random(state)`. -/
noncomputable def unitVector (u1 u2 : ℝ) : ℝ × ℝ × ℝ :=
  let costh := u1 * 2 - 1
  let sinth := Real.sqrt (1 - costh^2)
  let phi := 2 * Real.pi * u2
  (sinth * Real.cos phi, sinth * Real.sin phi, costh)

open Classical in
/-- math_random.cpp:157-184, `getRandomPerpendicularVector`; `u1`, `u2` are the successive values of
`random(state)` (the second one is used only in the third branch). Returns (return value, vper). -/
noncomputable def perpVector (v : ℝ × ℝ × ℝ) (u1 u2 : ℝ) : ℝ × (ℝ × ℝ × ℝ) :=
  let phi := 2 * Real.pi * u1
  let sinphi := Real.sin phi
  let cosphi := Real.cos phi
  let v0 := v.1
  let v1 := v.2.1
  let v2 := v.2.2
  if v1 ≠ 0 ∨ v2 ≠ 0 then
    let vmag := Real.sqrt (v0^2 + v1^2 + v2^2)
    let norm := 1 / Real.sqrt (v1^2 + v2^2) / vmag
    (vmag, norm * (sinphi * (v0^2 - vmag^2)),
           norm * (sinphi * v0 * v1 - cosphi * vmag * v2),
           norm * (sinphi * v0 * v2 + cosphi * vmag * v1))
  else if v0 ≠ 0 then (|v0|, 0, cosphi, sinphi)
  else
    let costh := u2 * 2 - 1
    let sinth := Real.sqrt (1 - costh^2)
    (0, sinth * cosphi, sinth * sinphi, costh)

/-- math_random.cpp:186-211, `getRandomRotationMatrix`: the 9 elements in the order stored. -/
noncomputable def rotationMatrix (u1 u2 u3 : ℝ) : Fin 9 → ℝ :=
  let st := Real.sin (2 * Real.pi * u1)
  let ct := Real.cos (2 * Real.pi * u1)
  let sinphi := Real.sin (2 * Real.pi * u2)
  let cosphi := Real.cos (2 * Real.pi * u2)
  let mu := u3 * 2
  let nu := Real.sqrt mu
  let vx := sinphi * nu
  let vy := cosphi * nu
  let vz := Real.sqrt (2 - mu)
  let sx := vx * ct - vy * st
  let sy := vx * st + vy * ct
  ![vx*sx-ct, vx*sy-st, vx*vz, vy*sx+st, vy*sy-ct, vy*vz, vz*sx, vz*sy, 1-mu]

/-- math_random.cpp:216-220, one iteration of the loop of `getRandomPermutation` on the output array.
Simplification (O): `draw` is the value `static_cast<size_t>(random(state)*(i+1))`, arbitrary.
Returns `none` if the array is too short (out-of-bounds access). -/
def permStep (draw : Nat) (i : Nat) (output : List Nat) : Option (List Nat) :=
  let j := min draw i
  match output[j]? with
  | none => none
  | some x => if i < output.length then some ((output.set i x).set j i) else none

/-- math_random.cpp:213-221, iterations `0 .. count-1` of the loop; `draws i` is the random integer
obtained in the i-th iteration. -/
def permLoop (draws : Nat → Nat) (output : List Nat) : Nat → Option (List Nat)
  | 0 => some output
  | i+1 => (permLoop draws output i).bind (permStep (draws i) i)

/-- Outcome of the Halton loop: a value, an integer division by zero (undefined behaviour), or still
running when the iteration budget is exhausted. -/
inductive HaltonRes where
  | value (v : ℚ)
  | divByZero
  | running
deriving DecidableEq

/-- math_random.cpp:226-230, the loop of `quasiRandomHalton` with an iteration budget. -/
def haltonLoop (base : Nat) : Nat → Nat → ℚ → ℚ → HaltonRes
  | fuel, ind, val, fac =>
    if ind = 0 then .value val else
    if base = 0 then .divByZero else
    match fuel with
    | 0 => .running
    | fuel+1 =>
      let fac := fac * (1 / (base : ℚ))
      haltonLoop base fuel (ind / base) (val + fac * ((ind % base : ℕ) : ℚ)) fac

/-- math_random.cpp:223-232, `quasiRandomHalton(ind, base)`. -/
def halton (fuel ind base : Nat) : HaltonRes := haltonLoop base fuel ind 0 1

end Verif.Random
