import Verif.Pot.Composite
import Verif.Core.BinSearch

/-!
# C67 (modifiers)

Models `/repo/src/potential_composite.cpp:163-187, 400-830` and `/repo/src/potential_composite.h:90-560`: `Shifted`, `Tilted`, `Rotating`,
`Scaled`, `UniformAcceleration`, `Evolving`.  Number model (E).  Time is fixed: the splines for the centre,
angle, amplitude and scale are represented by their values at this time.
-/

namespace Verif.Pot

open Real Verif.Coord

/-! ## model -/

/-- potential_composite.h:146-160 (`UniformAcceleration::evalCar`), acceleration `(ax, ay, az)` -/
def uniformAcc (ax ay az : ℝ) (pos : PosCar) : OutCar :=
  { pot := pos.x * -ax + pos.y * -ay + pos.z * -az
    grad := ⟨-ax, -ay, -az⟩
    hess := ⟨0, 0, 0, 0, 0, 0⟩ }

/-- potential_composite.h:251-256 (`Shifted<BasePotential>::evalCar`; the density is evaluated at the same shifted point) -/
def shiftPos (cx cy cz : ℝ) (pos : PosCar) : PosCar := ⟨pos.x - cx, pos.y - cy, pos.z - cz⟩
/-- potential_composite.h:251-256 -/
def shifted (cx cy cz : ℝ) (pot : PosCar → OutCar) (pos : PosCar) : OutCar := pot (shiftPos cx cy cz pos)
/-- potential_composite.h:258-261 -/
def shiftedDens (cx cy cz : ℝ) (dens : PosCar → ℝ) (pos : PosCar) : ℝ := dens (shiftPos cx cy cz pos)

/-- potential_composite.h:348-354 (`Tilted<BasePotential>::evalCar`) -/
def tilted (o : Orientation) (pot : PosCar → OutCar) (pos : PosCar) : OutCar :=
  let r := pot (o.toRotPos pos)
  { pot := r.pot, grad := o.fromRotGrad r.grad, hess := o.fromRotHess r.hess }
/-- potential_composite.h:356-357 -/
def tiltedDens (o : Orientation) (dens : PosCar → ℝ) (pos : PosCar) : ℝ := dens (o.toRotPos pos)

/-- potential_composite.cpp:596-601, 651-654: position in the rotated frame -/
noncomputable def rotPos (angle : ℝ) (pos : PosCar) : PosCar :=
  ⟨pos.x * cos angle + pos.y * sin angle, pos.y * cos angle - pos.x * sin angle, pos.z⟩
/-- potential_composite.cpp:643-668 -/
noncomputable def rotatingCar (angle : ℝ) (pot : PosCar → OutCar) (pos : PosCar) : OutCar :=
  let sa := sin angle
  let ca := cos angle
  let r := pot (rotPos angle pos)
  { pot := r.pot
    grad :=
    { dx := r.grad.dx * ca - r.grad.dy * sa
      dy := r.grad.dy * ca + r.grad.dx * sa
      dz := r.grad.dz }
    hess :=
    { dx2 := ca * ca * r.hess.dx2 + sa * sa * r.hess.dy2 - 2 * ca * sa * r.hess.dxdy
      dy2 := sa * sa * r.hess.dx2 + ca * ca * r.hess.dy2 + 2 * ca * sa * r.hess.dxdy
      dxdy := ca * sa * (r.hess.dx2 - r.hess.dy2) + (ca * ca - sa * sa) * r.hess.dxdy
      dxdz := ca * r.hess.dxdz - sa * r.hess.dydz
      dydz := ca * r.hess.dydz + sa * r.hess.dxdz
      dz2 := r.hess.dz2 } }
/-- potential_composite.cpp:670-674 -/
def rotatingCyl (angle : ℝ) (pot : PosCyl → OutCyl) (pos : PosCyl) : OutCyl := pot ⟨pos.R, pos.z, pos.phi - angle⟩
/-- potential_composite.cpp:676-680 -/
def rotatingSph (angle : ℝ) (pot : PosSph → OutSph) (pos : PosSph) : OutSph := pot ⟨pos.r, pos.theta, pos.phi - angle⟩
/-- the whole modified potential; `Rotating` is not derived from `BasePotentialCar` etc., so it has no preferred coordinate system -/
noncomputable def rotating (angle : ℝ) (c : Potl) : Potl := ⟨0, rotatingCar angle c.car, rotatingCyl angle c.cyl, rotatingSph angle c.sph⟩

/-- potential_composite.cpp:766-787 -/
noncomputable def scaledCar (ampl scale : ℝ) (pot : PosCar → OutCar) (pos : PosCar) : OutCar :=
  let s := 1 / scale
  let as1 := ampl * s
  let as2 := as1 * s
  let as3 := as2 * s
  let r := pot ⟨pos.x * s, pos.y * s, pos.z * s⟩
  { pot := r.pot * as1
    grad := ⟨r.grad.dx * as2, r.grad.dy * as2, r.grad.dz * as2⟩
    hess :=
    { dx2 := r.hess.dx2 * as3, dy2 := r.hess.dy2 * as3, dz2 := r.hess.dz2 * as3
      dxdy := r.hess.dxdy * as3, dxdz := r.hess.dxdz * as3, dydz := r.hess.dydz * as3 } }
/-- potential_composite.cpp:789-807 -/
noncomputable def scaledCyl (ampl scale : ℝ) (pot : PosCyl → OutCyl) (pos : PosCyl) : OutCyl :=
  let s := 1 / scale
  let as1 := ampl * s
  let as2 := as1 * s
  let as3 := as2 * s
  let r := pot ⟨pos.R * s, pos.z * s, pos.phi⟩
  { pot := r.pot * as1
    grad := ⟨r.grad.dR * as2, r.grad.dz * as2, r.grad.dphi * as1⟩
    hess :=
    { dR2 := r.hess.dR2 * as3, dz2 := r.hess.dz2 * as3, dphi2 := r.hess.dphi2 * as1
      dRdz := r.hess.dRdz * as3, dRdphi := r.hess.dRdphi * as2, dzdphi := r.hess.dzdphi * as2 } }
/-- potential_composite.cpp:809-828 -/
noncomputable def scaledSph (ampl scale : ℝ) (pot : PosSph → OutSph) (pos : PosSph) : OutSph :=
  let s := 1 / scale
  let as1 := ampl * s
  let as2 := as1 * s
  let as3 := as2 * s
  let r := pot ⟨pos.r * s, pos.theta, pos.phi⟩
  { pot := r.pot * as1
    grad := ⟨r.grad.dr * as2, r.grad.dtheta * as1, r.grad.dphi * as1⟩
    hess :=
    { dr2 := r.hess.dr2 * as3, dtheta2 := r.hess.dtheta2 * as1, dphi2 := r.hess.dphi2 * as1
      drdtheta := r.hess.drdtheta * as2, drdphi := r.hess.drdphi * as2, dthetadphi := r.hess.dthetadphi * as1 } }
/-- the whole modified potential (no preferred coordinate system) -/
noncomputable def scaled (ampl scale : ℝ) (c : Potl) : Potl := ⟨0, scaledCar ampl scale c.car, scaledCyl ampl scale c.cyl, scaledSph ampl scale c.sph⟩
/-- potential_composite.h:541-545, potential_composite.cpp:697-707 -/
noncomputable def scaledDens (ampl scale : ℝ) (dens : PosCar → ℝ) (pos : PosCar) : ℝ :=
  let s := 1 / scale
  s * s * s * ampl * dens ⟨pos.x * s, pos.y * s, pos.z * s⟩

/-- potential_composite.cpp:163-187; `bin` is the result of `math::binSearch` (modelled in `Core/BinSearch.lean`) -/
noncomputable def searchInterp (val : ℝ) (arr : List ℝ) (interpLinear : Bool) (bin : ℤ) : ℕ × ℝ :=
  let size : ℤ := arr.length
  if bin < 0 then (0, 1)
  else if bin ≥ size - 1 then (arr.length - 1, 1)
  else
    let i := bin.toNat
    let a := arr.getD i 0
    let b := arr.getD (i + 1) 0
    if interpLinear then (i, (b - val) / (b - a))
    else (if b - val < val - a then i + 1 else i, 1)

/-- `math::binSearch(time, times)` in exact arithmetic -/
noncomputable def timeBin (t : ℝ) (times : List ℝ) : ℤ :=
  (BinSearch.binSearch (BinSearch.guessR id t (times.headD 0) (times.getLastD 0) times.length) (some t) times).getD (-1)

/-- potential_composite.cpp:440-461 (`Evolving::evalCar`): `inst i` are the outputs of the i-th instance at the given point and time -/
noncomputable def evolving (times : List ℝ) (interpLinear : Bool) (t : ℝ) (inst : ℕ → PosCar → OutCar) (pos : PosCar) : OutCar :=
  let iw := searchInterp t times interpLinear (timeBin t times)
  let index := iw.1
  let w := iw.2
  let a := inst index pos
  if w ≠ 1 then
    let b := inst (index + 1) pos
    { pot := w * a.pot + (1 - w) * b.pot
      grad := ⟨w * a.grad.dx + (1 - w) * b.grad.dx, w * a.grad.dy + (1 - w) * b.grad.dy, w * a.grad.dz + (1 - w) * b.grad.dz⟩
      hess :=
      { dx2 := w * a.hess.dx2 + (1 - w) * b.hess.dx2
        dy2 := w * a.hess.dy2 + (1 - w) * b.hess.dy2
        dz2 := w * a.hess.dz2 + (1 - w) * b.hess.dz2
        dxdy := w * a.hess.dxdy + (1 - w) * b.hess.dxdy
        dydz := w * a.hess.dydz + (1 - w) * b.hess.dydz
        dxdz := w * a.hess.dxdz + (1 - w) * b.hess.dxdz } }
  else a
/-- potential_composite.cpp:463-472 (`Evolving::densityCar`) -/
noncomputable def evolvingDens (times : List ℝ) (interpLinear : Bool) (t : ℝ) (inst : ℕ → PosCar → ℝ) (pos : PosCar) : ℝ :=
  let iw := searchInterp t times interpLinear (timeBin t times)
  if iw.2 ≠ 1 then iw.2 * inst iw.1 pos + (1 - iw.2) * inst (iw.1 + 1) pos else inst iw.1 pos

/-! ## C67: modifiers -/

/-- uniform acceleration: the force is the given acceleration, the second derivatives vanish -/
theorem C67_uniformAcc (ax ay az : ℝ) (p : PosCar) :
    OkCar (uniformAcc ax ay az) p ∧ -(uniformAcc ax ay az p).grad.dx = ax ∧ -(uniformAcc ax ay az p).grad.dy = ay ∧
      -(uniformAcc ax ay az p).grad.dz = az ∧ poisson (uniformAcc ax ay az p).hess = 0 := by
  refine ⟨⟨?_, ?_, ?_, ?_⟩, by simp [uniformAcc], by simp [uniformAcc], by simp [uniformAcc], by simp [uniformAcc, poisson]⟩ <;>
    intro x y z x' y' z' t hx hy hz hp
  · refine (((hx.mul_const (-ax)).add (hy.mul_const (-ay))).add (hz.mul_const (-az))).congr_deriv ?_
    simp only [uniformAcc]; ring
  all_goals exact (hasDerivAt_const _ _).congr_deriv (by simp [uniformAcc])

/-- the shifted potential at a point moved by the offset is the original potential at that point; derivatives are correct -/
theorem C67_shifted (cx cy cz : ℝ) (pot : PosCar → OutCar) (dens : PosCar → ℝ) (p : PosCar) (h : OkCar pot p) (hd : dens p = poisson (pot p).hess) :
    let q : PosCar := ⟨p.x + cx, p.y + cy, p.z + cz⟩
    (shifted cx cy cz pot q).pot = (pot p).pot ∧ OkCar (shifted cx cy cz pot) q ∧
      shiftedDens cx cy cz dens q = dens p ∧ shiftedDens cx cy cz dens q = poisson (shifted cx cy cz pot q).hess := by
  have e : shiftPos cx cy cz ⟨p.x + cx, p.y + cy, p.z + cz⟩ = p := by simp [shiftPos]
  have key : ∀ (F : PosCar → ℝ) (g : GradCar), IsGradCar F p g → IsGradCar (fun q => F (shiftPos cx cy cz q)) ⟨p.x + cx, p.y + cy, p.z + cz⟩ g := by
    intro F g hF x y z x' y' z' t hx hy hz hp
    refine hF (fun s => x s - cx) (fun s => y s - cy) (fun s => z s - cz) x' y' z' t (hx.sub_const cx) (hy.sub_const cy) (hz.sub_const cz) ?_
    injection hp with a b c
    simp [a, b, c]
  simp only [shifted, shiftedDens, e]
  refine ⟨trivial, ⟨?_, ?_, ?_, ?_⟩, trivial, hd⟩ <;> simp only [shifted, e]
  · exact key _ _ h.1
  · exact key _ _ h.2.1
  · exact key _ _ h.2.2.1
  · exact key _ _ h.2.2.2

/-- trace of the Hessian is invariant under rotations -/
theorem poisson_fromRot {o : Orientation} (ho : o.IsRotation) (h : HessCar) : poisson (o.fromRotHess h) = poisson h := by
  obtain ⟨⟨r1, r2, r3, r4, r5, r6⟩, -⟩ := ho.eqs
  simp only [poisson, Orientation.fromRotHess, Orientation.fromRot]
  congr 1
  linear_combination h.dx2 * r1 + h.dy2 * r2 + h.dz2 * r3 + 2 * h.dxdy * r4 + 2 * h.dxdz * r5 + 2 * h.dydz * r6

/-- the tilted potential at a point that has coordinates `p` in the tilted frame is the original potential at `p`; derivatives and
density are correct -/
theorem C67_tilted (alpha beta gamma : ℝ) (pot : PosCar → OutCar) (dens : PosCar → ℝ) (p : PosCar) (h : OkCar pot p)
    (hd : dens p = poisson (pot p).hess) :
    let o := Orientation.ofEuler alpha beta gamma
    let q := o.fromRotPos p
    (tilted o pot q).pot = (pot p).pot ∧ OkCar (tilted o pot) q ∧ tiltedDens o dens q = dens p ∧
      tiltedDens o dens q = poisson (tilted o pot q).hess := by
  intro o q
  have ho : o.IsRotation := C61_isRotation alpha beta gamma
  have e : o.toRotPos q = p := (C61_roundtrip_pos ho p).2
  refine ⟨by simp [tilted, e], ⟨?_, ?_⟩, by simp [tiltedDens, e], ?_⟩
  · exact C61_grad_from (fun r => (pot r).pot) q _ (by rw [e]; exact h.1)
  · exact C61_hess_from (fun r => (pot r).grad) q _ (by rw [e]; exact h.2)
  · simp only [tiltedDens, tilted, e, poisson_fromRot ho, hd]

/-- rotation of the potential by `angle` counter-clockwise about the z axis -/
noncomputable def turnPos (angle : ℝ) (p : PosCar) : PosCar := ⟨p.x * cos angle - p.y * sin angle, p.x * sin angle + p.y * cos angle, p.z⟩

theorem rotPos_turnPos (a : ℝ) (p : PosCar) : rotPos a (turnPos a p) = p := by
  have := sin_sq_add_cos_sq a
  ext <;> simp only [rotPos, turnPos]
  · linear_combination p.x * this
  · linear_combination p.y * this

/-- the rotating potential at a point turned by `angle` is the original potential at the original point; derivatives and density are
correct -/
theorem C67_rotating_car (angle : ℝ) (pot : PosCar → OutCar) (dens : PosCar → ℝ) (p : PosCar) (h : OkCar pot p) (hd : dens p = poisson (pot p).hess) :
    let q := turnPos angle p
    (rotatingCar angle pot q).pot = (pot p).pot ∧ OkCar (rotatingCar angle pot) q ∧ dens (rotPos angle q) = poisson (rotatingCar angle pot q).hess := by
  intro q
  have e : rotPos angle q = p := rotPos_turnPos angle p
  have hsc := sin_sq_add_cos_sq angle
  have key : ∀ (F : PosCar → ℝ) (g : GradCar), IsGradCar F p g →
      IsGradCar (fun q => F (rotPos angle q)) q ⟨g.dx * cos angle - g.dy * sin angle, g.dy * cos angle + g.dx * sin angle, g.dz⟩ := by
    intro F g hF x y z x' y' z' t hx hy hz hp
    have := hF _ _ _ _ _ _ t ((hx.mul_const (cos angle)).add (hy.mul_const (sin angle))) ((hy.mul_const (cos angle)).sub (hx.mul_const (sin angle))) hz
      (by rw [← e, ← hp]; rfl)
    refine this.congr_deriv ?_
    simp only []; ring
  obtain ⟨h0, h1, h2, h3⟩ := h
  have k0 := key _ _ h0
  have k1 := key _ _ h1
  have k2 := key _ _ h2
  have k3 := key _ _ h3
  refine ⟨by simp [rotatingCar, e], ⟨?_, ?_, ?_, ?_⟩, ?_⟩
  · simp only [rotatingCar, e]; exact k0
  · intro x y z x' y' z' t hx hy hz hp
    have a1 := k1 x y z x' y' z' t hx hy hz hp
    have a2 := k2 x y z x' y' z' t hx hy hz hp
    refine ((a1.mul_const (cos angle)).sub (a2.mul_const (sin angle))).congr_deriv ?_
    simp only [rotatingCar, e]; ring
  · intro x y z x' y' z' t hx hy hz hp
    have a1 := k1 x y z x' y' z' t hx hy hz hp
    have a2 := k2 x y z x' y' z' t hx hy hz hp
    refine ((a2.mul_const (cos angle)).add (a1.mul_const (sin angle))).congr_deriv ?_
    simp only [rotatingCar, e]; ring
  · intro x y z x' y' z' t hx hy hz hp
    refine (k3 x y z x' y' z' t hx hy hz hp).congr_deriv ?_
    simp only [rotatingCar, e]; ring
  · rw [e, hd]
    simp only [rotatingCar, e, poisson]
    congr 1
    linear_combination -((pot p).hess.dx2 + (pot p).hess.dy2) * hsc

theorem C67_rotating_cyl (angle : ℝ) (pot : PosCyl → OutCyl) (p : PosCyl) (h : OkCyl pot p) :
    let q : PosCyl := ⟨p.R, p.z, p.phi + angle⟩
    (rotatingCyl angle pot q).pot = (pot p).pot ∧ OkCyl (rotatingCyl angle pot) q := by
  intro q
  have e : (⟨q.R, q.z, q.phi - angle⟩ : PosCyl) = p := by simp [q]
  have key : ∀ (F : PosCyl → ℝ) (g : GradCyl), IsGradCyl F p g → IsGradCyl (fun q => F ⟨q.R, q.z, q.phi - angle⟩) q g := by
    intro F g hF x y z x' y' z' t hx hy hz hp
    exact hF x y (fun s => z s - angle) x' y' z' t hx hy (hz.sub_const angle) (by rw [← e, ← hp])
  refine ⟨by simp [rotatingCyl, e], ⟨?_, ?_, ?_, ?_⟩⟩ <;> simp only [rotatingCyl, e]
  · exact key _ _ h.1
  · exact key _ _ h.2.1
  · exact key _ _ h.2.2.1
  · exact key _ _ h.2.2.2

theorem C67_rotating_sph (angle : ℝ) (pot : PosSph → OutSph) (p : PosSph) (h : OkSph pot p) :
    let q : PosSph := ⟨p.r, p.theta, p.phi + angle⟩
    (rotatingSph angle pot q).pot = (pot p).pot ∧ OkSph (rotatingSph angle pot) q := by
  intro q
  have e : (⟨q.r, q.theta, q.phi - angle⟩ : PosSph) = p := by simp [q]
  have key : ∀ (F : PosSph → ℝ) (g : GradSph), IsGradSph F p g → IsGradSph (fun q => F ⟨q.r, q.theta, q.phi - angle⟩) q g := by
    intro F g hF x y z x' y' z' t hx hy hz hp
    exact hF x y (fun s => z s - angle) x' y' z' t hx hy (hz.sub_const angle) (by rw [← e, ← hp])
  refine ⟨by simp [rotatingSph, e], ⟨?_, ?_, ?_, ?_⟩⟩ <;> simp only [rotatingSph, e]
  · exact key _ _ h.1
  · exact key _ _ h.2.1
  · exact key _ _ h.2.2.1
  · exact key _ _ h.2.2.2

/-- the three coordinate systems of the rotating potential describe the same scalar field -/
theorem C67_rotating_represents (angle : ℝ) (c : Potl) (Phi : PosCar → ℝ) (h : Represents c Phi) :
    Represents (rotating angle c) (fun p => Phi (rotPos angle p)) := by
  refine ⟨fun p => h.1 _, fun p => (h.2.1 _).trans (congrArg Phi ?_), fun p => (h.2.2 _).trans (congrArg Phi ?_)⟩
  · ext <;> simp only [cylToCar, rotPos, cos_sub, sin_sub] <;> ring
  · ext <;> simp only [sphToCar, rotPos, cos_sub, sin_sub] <;> ring

/-- the scaled potential: `Phi'(x) = (ampl/scale) Phi(x/scale)`; derivatives are correct -/
theorem C67_scaled_car (ampl scale : ℝ) (hs : scale ≠ 0) (pot : PosCar → OutCar) (dens : PosCar → ℝ) (p : PosCar) (h : OkCar pot p)
    (hd : dens p = poisson (pot p).hess) :
    let q : PosCar := ⟨p.x * scale, p.y * scale, p.z * scale⟩
    (scaledCar ampl scale pot q).pot = ampl / scale * (pot p).pot ∧ OkCar (scaledCar ampl scale pot) q ∧
      scaledDens ampl scale dens q = ampl / scale ^ 3 * dens p ∧ scaledDens ampl scale dens q = poisson (scaledCar ampl scale pot q).hess := by
  intro q
  have e : (⟨q.x * (1 / scale), q.y * (1 / scale), q.z * (1 / scale)⟩ : PosCar) = p := by ext <;> simp only [q] <;> field_simp
  have key : ∀ (F : PosCar → ℝ) (g : GradCar) (k : ℝ), IsGradCar F p g →
      IsGradCar (fun q => F ⟨q.x * (1 / scale), q.y * (1 / scale), q.z * (1 / scale)⟩ * k) q
        ⟨g.dx * (k * (1 / scale)), g.dy * (k * (1 / scale)), g.dz * (k * (1 / scale))⟩ := by
    intro F g k hF x y z x' y' z' t hx hy hz hp
    refine ((hF _ _ _ _ _ _ t (hx.mul_const (1 / scale)) (hy.mul_const (1 / scale)) (hz.mul_const (1 / scale)) (by rw [← e, ← hp])).mul_const k).congr_deriv ?_
    ring
  refine ⟨?_, ⟨?_, ?_, ?_, ?_⟩, ?_, ?_⟩
  · simp only [scaledCar, e]; field_simp
  · simp only [scaledCar, e]; exact key _ _ _ h.1
  · simp only [scaledCar, e]; exact key _ _ _ h.2.1
  · simp only [scaledCar, e]; exact key _ _ _ h.2.2.1
  · simp only [scaledCar, e]; exact key _ _ _ h.2.2.2
  · simp only [scaledDens, e]; field_simp
  · simp only [scaledDens, scaledCar, e, hd, poisson]; ring

theorem C67_scaled_cyl (ampl scale : ℝ) (hs : scale ≠ 0) (pot : PosCyl → OutCyl) (p : PosCyl) (h : OkCyl pot p) :
    let q : PosCyl := ⟨p.R * scale, p.z * scale, p.phi⟩
    (scaledCyl ampl scale pot q).pot = ampl / scale * (pot p).pot ∧ OkCyl (scaledCyl ampl scale pot) q := by
  intro q
  have e : (⟨q.R * (1 / scale), q.z * (1 / scale), q.phi⟩ : PosCyl) = p := by ext <;> simp only [q] <;> field_simp
  have key : ∀ (F : PosCyl → ℝ) (g : GradCyl) (k : ℝ), IsGradCyl F p g →
      IsGradCyl (fun q => F ⟨q.R * (1 / scale), q.z * (1 / scale), q.phi⟩ * k) q
        ⟨g.dR * (k * (1 / scale)), g.dz * (k * (1 / scale)), g.dphi * k⟩ := by
    intro F g k hF x y z x' y' z' t hx hy hz hp
    refine ((hF _ _ _ _ _ _ t (hx.mul_const (1 / scale)) (hy.mul_const (1 / scale)) hz (by rw [← e, ← hp])).mul_const k).congr_deriv ?_
    ring
  refine ⟨?_, ⟨?_, ?_, ?_, ?_⟩⟩
  · simp only [scaledCyl, e]; field_simp
  · simp only [scaledCyl, e]; exact key _ _ _ h.1
  · simp only [scaledCyl, e]; exact key _ _ _ h.2.1
  · simp only [scaledCyl, e]; exact key _ _ _ h.2.2.1
  · simp only [scaledCyl, e]; exact key _ _ _ h.2.2.2

theorem C67_scaled_sph (ampl scale : ℝ) (hs : scale ≠ 0) (pot : PosSph → OutSph) (p : PosSph) (h : OkSph pot p) :
    let q : PosSph := ⟨p.r * scale, p.theta, p.phi⟩
    (scaledSph ampl scale pot q).pot = ampl / scale * (pot p).pot ∧ OkSph (scaledSph ampl scale pot) q := by
  intro q
  have e : (⟨q.r * (1 / scale), q.theta, q.phi⟩ : PosSph) = p := by ext <;> simp only [q] <;> field_simp
  have key : ∀ (F : PosSph → ℝ) (g : GradSph) (k : ℝ), IsGradSph F p g →
      IsGradSph (fun q => F ⟨q.r * (1 / scale), q.theta, q.phi⟩ * k) q
        ⟨g.dr * (k * (1 / scale)), g.dtheta * k, g.dphi * k⟩ := by
    intro F g k hF x y z x' y' z' t hx hy hz hp
    refine ((hF _ _ _ _ _ _ t (hx.mul_const (1 / scale)) hy hz (by rw [← e, ← hp])).mul_const k).congr_deriv ?_
    ring
  refine ⟨?_, ⟨?_, ?_, ?_, ?_⟩⟩
  · simp only [scaledSph, e]; field_simp
  · simp only [scaledSph, e]; exact key _ _ _ h.1
  · simp only [scaledSph, e]; exact key _ _ _ h.2.1
  · simp only [scaledSph, e]; exact key _ _ _ h.2.2.1
  · simp only [scaledSph, e]; exact key _ _ _ h.2.2.2

theorem C67_scaled_represents (ampl scale : ℝ) (c : Potl) (Phi : PosCar → ℝ) (h : Represents c Phi) :
    Represents (scaled ampl scale c) (fun p => Phi ⟨p.x * (1 / scale), p.y * (1 / scale), p.z * (1 / scale)⟩ * (ampl * (1 / scale))) := by
  refine ⟨fun p => congrArg (· * _) (h.1 _), fun p => congrArg (· * _) ((h.2.1 _).trans (congrArg Phi ?_)),
    fun p => congrArg (· * _) ((h.2.2 _).trans (congrArg Phi ?_))⟩
  · ext <;> simp only [cylToCar] <;> ring
  · ext <;> simp only [sphToCar] <;> ring

/-! ## C67: time-dependent interpolation -/

/-- weighted mean of two evaluations (specification) -/
def blend (w : ℝ) (a b : OutCar) : OutCar :=
  { pot := w * a.pot + (1 - w) * b.pot
    grad := ⟨w * a.grad.dx + (1 - w) * b.grad.dx, w * a.grad.dy + (1 - w) * b.grad.dy, w * a.grad.dz + (1 - w) * b.grad.dz⟩
    hess := ⟨w * a.hess.dx2 + (1 - w) * b.hess.dx2, w * a.hess.dy2 + (1 - w) * b.hess.dy2, w * a.hess.dz2 + (1 - w) * b.hess.dz2,
      w * a.hess.dxdy + (1 - w) * b.hess.dxdy, w * a.hess.dydz + (1 - w) * b.hess.dydz, w * a.hess.dxdz + (1 - w) * b.hess.dxdz⟩ }

theorem blend_one (a b : OutCar) : blend 1 a b = a := by simp [blend]
theorem blend_zero (a b : OutCar) : blend 0 a b = b := by simp [blend]

theorem evolving_eq_blend (times : List ℝ) (lin : Bool) (t : ℝ) (inst : ℕ → PosCar → OutCar) (pos : PosCar) :
    evolving times lin t inst pos = blend (searchInterp t times lin (timeBin t times)).2
      (inst (searchInterp t times lin (timeBin t times)).1 pos) (inst ((searchInterp t times lin (timeBin t times)).1 + 1) pos) := by
  by_cases h : (searchInterp t times lin (timeBin t times)).2 = 1
  · simp only [evolving, h, blend_one, ne_eq, not_true_eq_false, if_false]
  · simp only [evolving, ne_eq, h, not_false_eq_true, if_true, blend]

theorem evolvingDens_eq (times : List ℝ) (lin : Bool) (t : ℝ) (inst : ℕ → PosCar → ℝ) (pos : PosCar) :
    evolvingDens times lin t inst pos = (searchInterp t times lin (timeBin t times)).2 * inst (searchInterp t times lin (timeBin t times)).1 pos +
      (1 - (searchInterp t times lin (timeBin t times)).2) * inst ((searchInterp t times lin (timeBin t times)).1 + 1) pos := by
  by_cases h : (searchInterp t times lin (timeBin t times)).2 = 1
  · simp only [evolvingDens, h, ne_eq, not_true_eq_false, if_false]; ring
  · simp only [evolvingDens, ne_eq, h, not_false_eq_true, if_true]

theorem timeBin_isBin (t : ℝ) (times : List ℝ) (hs : times.Pairwise (· < ·)) :
    BinSearch.IsBin times (some t) (timeBin t times) ∧ ∀ k', BinSearch.IsBin times (some t) k' → k' = timeBin t times := by
  obtain ⟨k, h1, h2, h3⟩ := BinSearch.C11_binSearch_partial (some t) times hs
  simp only [Option.getD_some] at h1
  simp only [timeBin, h1, Option.getD_some]
  exact ⟨h2, h3⟩

/-- before the first time stamp the first instance is used -/
theorem C67_evolving_before (times : List ℝ) (hs : times.Pairwise (· < ·)) (lin : Bool) (t t0 : ℝ) (h0 : times[0]? = some t0) (ht : t < t0)
    (inst : ℕ → PosCar → OutCar) (pos : PosCar) : evolving times lin t inst pos = inst 0 pos := by
  have := (timeBin_isBin t times hs).2 _ (.left t t0 h0 ht)
  rw [evolving_eq_blend, ← this]
  simp [searchInterp, blend_one]

/-- at and after the last time stamp the last instance is used -/
theorem C67_evolving_after (times : List ℝ) (hs : times.Pairwise (· < ·)) (lin : Bool) (t t1 : ℝ) (h1 : times[times.length - 1]? = some t1) (ht : t1 ≤ t)
    (inst : ℕ → PosCar → OutCar) (pos : PosCar) : evolving times lin t inst pos = inst (times.length - 1) pos := by
  have hne : times.length - 1 < times.length := by
    by_contra hc
    rw [List.getElem?_eq_none (by omega)] at h1
    exact absurd h1 (by simp)
  rcases ht.lt_or_eq with ht | rfl
  · have := (timeBin_isBin t times hs).2 _ (.right t t1 h1 ht)
    rw [evolving_eq_blend, ← this]
    rcases times with _ | ⟨a, l⟩
    · simp at hne
    · have e : ¬ ((((a :: l).length : ℤ) - 1) < 0) := by simp only [List.length_cons]; push_cast; omega
      simp only [searchInterp, if_neg e, ge_iff_le, le_refl, if_true, blend_one]
  · rcases Nat.lt_or_ge 1 times.length with hl | hl
    · obtain ⟨k, hk⟩ : ∃ k, k + 2 = times.length := ⟨times.length - 2, by omega⟩
      have e1 : times.length - 1 = k + 1 := by omega
      rw [e1] at h1 ⊢
      have ha : times[k]? = some (times[k]'(by omega)) := List.getElem?_eq_getElem _
      have hlt : times[k]'(by omega) < t1 := by
        have hb : times[k + 1]? = some (times[k + 1]'(by omega)) := List.getElem?_eq_getElem _
        rw [hb] at h1
        injection h1 with h1
        rw [← h1]
        exact List.pairwise_iff_getElem.1 hs k (k + 1) (by omega) (by omega) (by omega)
      have := (timeBin_isBin t1 times hs).2 _ (.last t1 _ t1 k hk ha h1 hlt.le rfl)
      rw [evolving_eq_blend, ← this]
      have n1 : ¬ ((k : ℤ) < 0) := by omega
      have n2 : ¬ ((k : ℤ) ≥ (times.length : ℤ) - 1) := by omega
      have ga : times.getD k 0 = times[k]'(by omega) := by rw [List.getD_eq_getElem?_getD, ha]; rfl
      have gb : times.getD (k + 1) 0 = t1 := by rw [List.getD_eq_getElem?_getD, h1]; rfl
      cases lin
      · have n3 : t1 - t1 < t1 - times[k]'(by omega) := by linarith
        simp only [searchInterp, if_neg n1, if_neg n2, Int.toNat_natCast, ga, gb, if_pos n3, blend_one]
        simp [blend_one]
      · simp only [searchInterp, if_neg n1, if_neg n2, Int.toNat_natCast, ga, gb, if_true, sub_self, zero_div, blend_zero]
    · have hl1 : times.length = 1 := by omega
      obtain ⟨a, rfl⟩ := List.length_eq_one_iff.1 hl1
      simp only [List.length_cons, List.length_nil, Nat.zero_add, Nat.sub_self, List.getElem?_cons_zero, Option.some.injEq] at h1
      have := (timeBin_isBin t1 [a] hs).2 _ (.single t1 a rfl h1.symm)
      rw [evolving_eq_blend, ← this]
      simp [searchInterp, blend_one]

/-- between two time stamps, with linear interpolation: potential and all derivatives are the weighted means, weight growing linearly from the
earlier to the later instance -/
theorem C67_evolving_linear (times : List ℝ) (hs : times.Pairwise (· < ·)) (t a b : ℝ) (k : ℕ) (ha : times[k]? = some a)
    (hb : times[k + 1]? = some b) (h1 : a ≤ t) (h2 : t ≤ b) (inst : ℕ → PosCar → OutCar) (pos : PosCar) :
    evolving times true t inst pos = blend ((b - t) / (b - a)) (inst k pos) (inst (k + 1) pos) ∧ 0 ≤ (b - t) / (b - a) ∧ (b - t) / (b - a) ≤ 1 := by
  have hk : k + 1 < times.length := by
    by_contra hc
    rw [List.getElem?_eq_none (by omega)] at hb
    exact absurd hb (by simp)
  have hab : a < b := by
    rw [List.getElem?_eq_getElem (by omega)] at ha hb
    injection ha with ha; injection hb with hb
    rw [← ha, ← hb]
    exact List.pairwise_iff_getElem.1 hs k (k + 1) (by omega) (by omega) (by omega)
  refine ⟨?_, div_nonneg (by linarith) (by linarith), (div_le_one (by linarith)).2 (by linarith)⟩
  have n2 : (k : ℤ) < (times.length : ℤ) - 1 := by omega
  rcases h2.lt_or_eq with h2 | rfl
  · have := (timeBin_isBin t times hs).2 _ (.bin t a b k ha hb h1 h2)
    have ga : times.getD k 0 = a := by rw [List.getD_eq_getElem?_getD, ha]; rfl
    have gb : times.getD (k + 1) 0 = b := by rw [List.getD_eq_getElem?_getD, hb]; rfl
    rw [evolving_eq_blend, ← this]
    simp only [searchInterp, if_neg (show ¬ ((k : ℤ) < 0) by omega), if_neg (show ¬ ((k : ℤ) ≥ (times.length : ℤ) - 1) by omega), Int.toNat_natCast,
      ga, gb, if_true]
  · rw [sub_self, zero_div, blend_zero]
    by_cases hl : k + 2 = times.length
    · have := C67_evolving_after times hs true t t (by rw [show times.length - 1 = k + 1 by omega]; exact hb) le_rfl inst pos
      rw [this, show times.length - 1 = k + 1 by omega]
    · have hc : times[k + 1 + 1]? = some (times[k + 1 + 1]'(by omega)) := List.getElem?_eq_getElem _
      have hbc : t < times[k + 1 + 1]'(by omega) := by
        rw [List.getElem?_eq_getElem hk] at hb
        injection hb with hb
        rw [← hb]
        exact List.pairwise_iff_getElem.1 hs (k + 1) (k + 1 + 1) (by omega) (by omega) (by omega)
      have := (timeBin_isBin t times hs).2 _ (.bin t t _ (k + 1) hb hc le_rfl hbc)
      have ga : times.getD (k + 1) 0 = t := by rw [List.getD_eq_getElem?_getD, hb]; rfl
      have gb : times.getD (k + 1 + 1) 0 = times[k + 1 + 1]'(by omega) := by rw [List.getD_eq_getElem?_getD, hc]; rfl
      rw [evolving_eq_blend, ← this]
      simp only [searchInterp, if_neg (show ¬ (((k + 1 : ℕ) : ℤ) < 0) by omega),
        if_neg (show ¬ (((k + 1 : ℕ) : ℤ) ≥ (times.length : ℤ) - 1) by omega), Int.toNat_natCast, ga, gb, if_true]
      rw [div_self (by linarith), blend_one]

/-- strictly between two time stamps, without interpolation: the nearest instance (the earlier one in case of a tie) -/
theorem C67_evolving_nearest (times : List ℝ) (hs : times.Pairwise (· < ·)) (t a b : ℝ) (k : ℕ) (ha : times[k]? = some a)
    (hb : times[k + 1]? = some b) (h1 : a ≤ t) (h2 : t < b) (inst : ℕ → PosCar → OutCar) (pos : PosCar) :
    evolving times false t inst pos = if |t - a| ≤ |b - t| then inst k pos else inst (k + 1) pos := by
  have hk : k + 1 < times.length := by
    by_contra hc
    rw [List.getElem?_eq_none (by omega)] at hb
    exact absurd hb (by simp)
  have := (timeBin_isBin t times hs).2 _ (.bin t a b k ha hb h1 h2)
  have ga : times.getD k 0 = a := by rw [List.getD_eq_getElem?_getD, ha]; rfl
  have gb : times.getD (k + 1) 0 = b := by rw [List.getD_eq_getElem?_getD, hb]; rfl
  rw [evolving_eq_blend, ← this, abs_of_nonneg (sub_nonneg.2 h1), abs_of_nonneg (sub_nonneg.2 h2.le)]
  simp only [searchInterp, if_neg (show ¬ ((k : ℤ) < 0) by omega), if_neg (show ¬ ((k : ℤ) ≥ (times.length : ℤ) - 1) by omega), Int.toNat_natCast,
      ga, gb, Bool.false_eq_true, if_false, blend_one]
  by_cases hc : b - t < t - a
  · rw [if_pos hc, if_neg (by linarith)]
  · rw [if_neg hc, if_pos (by linarith)]

/-- the instances accessed always exist -/
theorem C67_evolving_safe (times : List ℝ) (hs : times.Pairwise (· < ·)) (hne : times ≠ []) (lin : Bool) (t : ℝ) :
    let iw := searchInterp t times lin (timeBin t times)
    iw.1 < times.length ∧ (iw.2 ≠ 1 → iw.1 + 1 < times.length) := by
  intro iw
  have hl : 0 < times.length := List.length_pos_iff.2 hne
  simp only [iw, searchInterp]
  split_ifs with c1 c2 c3 c4
  · exact ⟨hl, fun h => absurd rfl h⟩
  · exact ⟨by simp only []; omega, fun h => absurd rfl h⟩
  · exact ⟨by simp only []; omega, fun _ => by simp only []; omega⟩
  · exact ⟨by simp only []; omega, fun h => absurd rfl h⟩
  · exact ⟨by simp only []; omega, fun h => absurd rfl h⟩

/-- at every time the derivatives and the density of an evolving potential are consistent with its potential -/
theorem C67_evolving_derivs (times : List ℝ) (lin : Bool) (t : ℝ) (inst : ℕ → PosCar → OutCar) (dens : ℕ → PosCar → ℝ) (p : PosCar)
    (h : ∀ i, OkCar (inst i) p) (hd : ∀ i, dens i p = poisson (inst i p).hess) :
    OkCar (evolving times lin t inst) p ∧ evolvingDens times lin t dens p = poisson (evolving times lin t inst p).hess := by
  have e : evolving times lin t inst = fun q => blend (searchInterp t times lin (timeBin t times)).2
      (inst (searchInterp t times lin (timeBin t times)).1 q) (inst ((searchInterp t times lin (timeBin t times)).1 + 1) q) :=
    funext fun q => evolving_eq_blend ..
  rw [e, evolvingDens_eq]
  generalize (searchInterp t times lin (timeBin t times)).2 = w
  generalize (searchInterp t times lin (timeBin t times)).1 = i
  obtain ⟨a0, a1, a2, a3⟩ := h i
  obtain ⟨b0, b1, b2, b3⟩ := h (i + 1)
  have key : ∀ (F G : PosCar → ℝ) (g k : GradCar), IsGradCar F p g → IsGradCar G p k →
      IsGradCar (fun q => w * F q + (1 - w) * G q) p ⟨w * g.dx + (1 - w) * k.dx, w * g.dy + (1 - w) * k.dy, w * g.dz + (1 - w) * k.dz⟩ := by
    intro F G g k hF hG x y z x' y' z' t hx hy hz hp
    refine (((hF x y z x' y' z' t hx hy hz hp).const_mul w).add ((hG x y z x' y' z' t hx hy hz hp).const_mul (1 - w))).congr_deriv ?_
    ring
  refine ⟨⟨key _ _ _ _ a0 b0, key _ _ _ _ a1 b1, key _ _ _ _ a2 b2, key _ _ _ _ a3 b3⟩, ?_⟩
  rw [hd, hd]
  simp only [blend, poisson]; ring

example : ∃ p : PosCar, OkCar (evolving [0, 1, 3] true 2 (fun i => harmonic (1 + i) 0.81 0.64)) p ∧
    (evolving [0, 1, 3] true 2 (fun i => harmonic (1 + i) 0.81 0.64) p) = blend (1 / 2) (harmonic 2 0.81 0.64 p) (harmonic 3 0.81 0.64 p) := by
  refine ⟨⟨1, 2, 3⟩, (C67_evolving_derivs [0, 1, 3] true 2 (fun i => harmonic (1 + i) 0.81 0.64) (fun i q => poisson (harmonic (1 + i) 0.81 0.64 q).hess) _
    (fun i => C62_harmonic _ _ _ _) (fun i => rfl)).1, ?_⟩
  have := (C67_evolving_linear [0, 1, 3] (by norm_num) 2 1 3 1 rfl rfl (by norm_num) (by norm_num) (fun i => harmonic (1 + i) 0.81 0.64) ⟨1, 2, 3⟩).1
  rw [this]
  norm_num

/-- non-vacuity of the modifier theorems: a flattened logarithmic potential, tilted, shifted, rotated, scaled -/
example : OkCar (tilted (Orientation.ofEuler 0.3 0.4 0.5) (logarithmic 1 0.1 0.81 0.64 1)) ((Orientation.ofEuler 0.3 0.4 0.5).fromRotPos ⟨1, 2, 3⟩) ∧
    OkCar (shifted 1 2 3 (logarithmic 1 0.1 0.81 0.64 1)) ⟨1 + 1, 2 + 2, 3 + 3⟩ ∧
    OkCar (rotatingCar 0.7 (logarithmic 1 0.1 0.81 0.64 1)) (turnPos 0.7 ⟨1, 2, 3⟩) ∧
    OkCar (scaledCar 5 2 (logarithmic 1 0.1 0.81 0.64 1)) ⟨1 * 2, 2 * 2, 3 * 2⟩ := by
  have h : OkCar (logarithmic 1 0.1 0.81 0.64 1) ⟨1, 2, 3⟩ := C62_logarithmic 1 0.1 0.81 0.64 1 ⟨1, 2, 3⟩ (by norm_num) (by norm_num) (by norm_num) (by norm_num)
  exact ⟨(C67_tilted 0.3 0.4 0.5 _ (fun q => poisson (logarithmic 1 0.1 0.81 0.64 1 q).hess) _ h rfl).2.1,
    (C67_shifted 1 2 3 _ (fun q => poisson (logarithmic 1 0.1 0.81 0.64 1 q).hess) _ h rfl).2.1,
    (C67_rotating_car 0.7 _ (fun q => poisson (logarithmic 1 0.1 0.81 0.64 1 q).hess) _ h rfl).2.1,
    (C67_scaled_car 5 2 (by norm_num) _ (fun q => poisson (logarithmic 1 0.1 0.81 0.64 1 q).hess) _ h rfl).2.1⟩

end Verif.Pot

