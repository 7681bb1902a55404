import Verif.Coord.Model
import Verif.Random.Sampling
import Mathlib.Data.List.Perm.Basic
import Mathlib.Data.List.Range

/-!
# Assignment of velocities to particles: galaxymodel_velocitysampler.cpp

Models `/repo/src/galaxymodel_velocitysampler.cpp` and `getNormalRandomNumbers` of
`/repo/src/math_random.cpp`.

Simplifications.
* (E) `double` is ℝ; rounding, infinities and NaN are not represented.
* (G) The generator is a parameter: `σ` is the type of its state (`math::PRNGState`), `random s` the pair
  (value of `math::random(&s)`, next state), `hash p i` the state `math::hash(&point, 3, i)`.
* (O) The parallel loop is a sequence of complete iterations in an arbitrary order (each writes one slot of the output).
* (M) The velocity sampler `SphericalIsotropicModelLocal::sampleVelocity` and the Jeans models are parameters; the
  sampler is total (the code throws std::invalid_argument, inside a parallel region, if the potential is not negative).
-/
namespace Verif.Gal
open Real Verif.Coord Verif.Random

variable {σ : Type}

open Classical in
/-- math_random.cpp:137-145, `getNormalRandomNumbers`, as a function of the two numbers `p1`, `p2` -/
noncomputable def normalPair (p1 p2 : ℝ) : ℝ × ℝ :=
  let p := if p1 > 0 then √(-2 * log p1) else p1
  (p * sin (2 * π * p2), p * cos (2 * π * p2))

/-- math_random.cpp:137-145 with the generator: the two numbers and the next state -/
noncomputable def getNormal (random : σ → ℝ × σ) (s : σ) : (ℝ × ℝ) × σ :=
  let (p1, s1) := random s
  let (p2, s2) := random s1
  (normalPair p1 p2, s2)

open Classical in
/-- The loop `do { draw } while(bad && ++numAttempts<100)` (lines 34-36, 76-80, 114-120) with `left` further attempts
allowed; initially `left = 99`.  Returns the last draw, the state of the generator and `numAttempts`. -/
noncomputable def attempts {α : Type} (draw : σ → α × σ) (bad : α → Prop) : ℕ → σ → α × σ × ℕ
  | left, s =>
    let (a, s') := draw s
    if bad a then
      match left with
      | 0 => (a, s', 100)
      | left+1 => attempts draw bad left s'
    else (a, s', 99 - left)

/-- galaxymodel_velocitysampler.cpp:29-46, one iteration of the loop of `assignVelocityEdd`; `sample Phi s` is
`sphModel.sampleVelocity(Phi, &s)` -/
noncomputable def iterEdd (hash : PosCyl → ℕ → σ) (random : σ → ℝ × σ) (pot : PosCyl → ℝ) (sample : ℝ → σ → ℝ × σ)
    (i : ℕ) (point : PosCyl) (mass : ℝ) : PosVelCar × ℝ :=
  let state := hash point i
  let Phi := pot point
  let (v, state, numAttempts) := attempts (sample Phi) (fun v => Phi + 0.5 * v * v ≥ 0) 99 state
  let v := if numAttempts ≥ 100 then 0 else v
  let (u1, state) := random state
  let (u2, _) := random state
  let vec := unitVector u1 u2
  (⟨point.R * cos point.phi, point.R * sin point.phi, point.z, v * vec.1, v * vec.2.1, v * vec.2.2⟩, mass)

open Classical in
/-- galaxymodel_velocitysampler.cpp:67-92, one iteration of the loop of `assignVelocityJeansSph`; `jeans r` is
`jeansSphModel.value(r)`.  Simplification: the generator is advanced twice for the perpendicular vector (the code does
it only for a null vector); its state is not used afterwards. -/
noncomputable def iterJeansSph (hash : PosCyl → ℕ → σ) (random : σ → ℝ × σ) (pot : PosCyl → ℝ) (jeans : ℝ → ℝ) (beta : ℝ)
    (i : ℕ) (point : PosCyl) (mass : ℝ) : PosVelCar × ℝ :=
  let state := hash point i
  let r := √(point.R ^ 2 + point.z ^ 2)
  let sigma_r := jeans r
  let sigma_t := sigma_r * √(2 - 2 * beta)
  let Phi := pot point
  let draw := fun s => let (n, s) := getNormal random s; ((n.1 * sigma_r, n.2 * sigma_t), s)
  let (w, state, _) := attempts draw (fun w => Phi + 0.5 * (w.1 * w.1 + w.2 * w.2) > 0) 99 state
  let vr := w.1
  let vt := w.2
  let x := point.R * cos point.phi
  let y := point.R * sin point.phi
  let z := point.z
  let (u1, state) := random state
  let (u2, _) := random state
  let vper := (perpVector (x, y, z) u1 u2).2
  let r := if r = 0 then 1 else r
  (⟨x, y, z, vr * x / r + vt * vper.1, vr * y / r + vt * vper.2.1, vr * z / r + vt * vper.2.2⟩, mass)

/-- What `JeansAxi::moments` returns: mean azimuthal velocity and the second moments (galaxymodel_jeans.cpp). -/
structure Moments where (vphi vR2 vz2 vphi2 : ℝ)

/-- galaxymodel_velocitysampler.cpp:105-125, one iteration of the loop of `assignVelocityJeansAxi`;
`toPosVelCar` is coord.cpp:457-463 -/
noncomputable def iterJeansAxi (hash : PosCyl → ℕ → σ) (random : σ → ℝ × σ) (pot : PosCyl → ℝ) (moments : PosCyl → Moments)
    (i : ℕ) (point : PosCyl) (mass : ℝ) : PosVelCar × ℝ :=
  let state := hash point i
  let m := moments point
  let sigma_z := √m.vz2
  let sigma_R := √m.vR2
  let sigma_phi := √(max 0 (m.vphi2 - m.vphi ^ 2))
  let Phi := pot point
  let draw := fun s =>
    let (n, s) := getNormal random s
    let vphi := m.vphi + n.1 * sigma_phi
    let (n, s) := getNormal random s
    ((n.1 * sigma_R, n.2 * sigma_z, vphi), s)
  let (w, _, _) := attempts draw
    (fun w => Phi + 0.5 * (w.1 * w.1 + w.2.1 * w.2.1 + w.2.2 * w.2.2) > 0) 99 state
  (vCylToCar ⟨point.R, point.z, point.phi, w.1, w.2.1, w.2.2⟩, mass)

/-- The common loop over particles (lines 22-48, 59-94, 100-126): `result.data.resize(npoints)`, then for every `i`
in `order` the slot `i` is written; `dflt` is the default-constructed element. -/
noncomputable def assignAll (dflt : PosVelCar × ℝ) (iter : ℕ → PosCyl → ℝ → PosVelCar × ℝ) (points : List (PosCyl × ℝ))
    (order : List ℕ) : List (PosVelCar × ℝ) :=
  order.foldl (fun result i =>
    match points[i]? with
    | some (p, m) => result.set i (iter i p m)
    | none => result) (List.replicate points.length dflt)

end Verif.Gal
