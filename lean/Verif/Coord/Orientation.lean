import Verif.Coord.DerivSpec
import Mathlib.LinearAlgebra.Matrix.Adjugate
import Mathlib.LinearAlgebra.Matrix.NonsingularInverse
import Mathlib.Algebra.BigOperators.Group.List.Basic

/-!
# C61: rotations of the reference frame

Models `/repo/src/coord.cpp:1012-1044` and `/repo/src/coord.h:927-1156` (class `Orientation`).  Number model (E).
-/

namespace Verif.Coord

open Real Matrix

/-! ## model -/

/-- coord.h:957: the flattened matrix, row-major -/
@[ext] structure Orientation where (m0 m1 m2 m3 m4 m5 m6 m7 m8 : ℝ)

/-- coord.cpp:1012-1027 -/
noncomputable def Orientation.ofEuler (alpha beta gamma : ℝ) : Orientation :=
  let sa := sin alpha; let ca := cos alpha
  let sb := sin beta; let cb := cos beta
  let sc := sin gamma; let cc := cos gamma
  { m0 := ca * cc - sa * cb * sc
    m1 := sa * cc + ca * cb * sc
    m2 := sb * sc
    m3 := -ca * sc - sa * cb * cc
    m4 := -sa * sc + ca * cb * cc
    m5 := sb * cc
    m6 := sa * sb
    m7 := -ca * sb
    m8 := cb }

open Classical in
/-- coord.cpp:1029-1044; the result is (alpha, beta, gamma) -/
noncomputable def Orientation.toEulerAngles (o : Orientation) : ℝ × ℝ × ℝ :=
  let beta := atan2 (√(o.m2 ^ 2 + o.m5 ^ 2)) o.m8
  if o.m2 = 0 ∧ o.m5 = 0 ∧ o.m6 = 0 ∧ o.m7 = 0 then
    (0, beta, atan2 o.m1 o.m0 * (if o.m8 > 0 then 1 else -1))
  else (atan2 o.m6 (-o.m7), beta, atan2 o.m2 o.m5)

/-- coord.h:966 -/
def Orientation.isFaceOn (o : Orientation) : Prop := o.m8 = 1 ∨ o.m8 = -1

/-- coord.h:978-983 -/
def Orientation.toRot (o : Orientation) (v : ℝ × ℝ × ℝ) : ℝ × ℝ × ℝ :=
  (o.m0 * v.1 + o.m1 * v.2.1 + o.m2 * v.2.2,
   o.m3 * v.1 + o.m4 * v.2.1 + o.m5 * v.2.2,
   o.m6 * v.1 + o.m7 * v.2.1 + o.m8 * v.2.2)
/-- coord.h:986-992 -/
def Orientation.fromRot (o : Orientation) (v : ℝ × ℝ × ℝ) : ℝ × ℝ × ℝ :=
  (o.m0 * v.1 + o.m3 * v.2.1 + o.m6 * v.2.2,
   o.m1 * v.1 + o.m4 * v.2.1 + o.m7 * v.2.2,
   o.m2 * v.1 + o.m5 * v.2.1 + o.m8 * v.2.2)
/-- coord.h:996-1001 -/
def Orientation.toRotPos (o : Orientation) (p : PosCar) : PosCar :=
  let r := o.toRot (p.x, p.y, p.z); ⟨r.1, r.2.1, r.2.2⟩
/-- coord.h:1005-1010 -/
def Orientation.fromRotPos (o : Orientation) (p : PosCar) : PosCar :=
  let r := o.fromRot (p.x, p.y, p.z); ⟨r.1, r.2.1, r.2.2⟩
/-- coord.h:1032-1039 -/
def Orientation.toRotPosVel (o : Orientation) (p : PosVelCar) : PosVelCar :=
  let r := o.toRot (p.x, p.y, p.z); let v := o.toRot (p.vx, p.vy, p.vz)
  ⟨r.1, r.2.1, r.2.2, v.1, v.2.1, v.2.2⟩
/-- coord.h:1043-1050 -/
def Orientation.fromRotPosVel (o : Orientation) (p : PosVelCar) : PosVelCar :=
  let r := o.fromRot (p.x, p.y, p.z); let v := o.fromRot (p.vx, p.vy, p.vz)
  ⟨r.1, r.2.1, r.2.2, v.1, v.2.1, v.2.2⟩

/-- coord.h:291-293 second moments of velocity -/
@[ext] structure Vel2Car where (vx2 vy2 vz2 vxvy vyvz vxvz : ℝ)

/-- coord.h:1054-1071 -/
def Orientation.toRotVel2 (o : Orientation) (v : Vel2Car) : Vel2Car :=
  let x := o.toRot (v.vx2, v.vxvy, v.vxvz)
  let y := o.toRot (v.vxvy, v.vy2, v.vyvz)
  let z := o.toRot (v.vxvz, v.vyvz, v.vz2)
  { vx2 := o.m0 * x.1 + o.m1 * y.1 + o.m2 * z.1
    vy2 := o.m3 * x.2.1 + o.m4 * y.2.1 + o.m5 * z.2.1
    vz2 := o.m6 * x.2.2 + o.m7 * y.2.2 + o.m8 * z.2.2
    vxvy := o.m3 * x.1 + o.m4 * y.1 + o.m5 * z.1
    vyvz := o.m6 * x.2.1 + o.m7 * y.2.1 + o.m8 * z.2.1
    vxvz := o.m0 * x.2.2 + o.m1 * y.2.2 + o.m2 * z.2.2 }
/-- coord.h:1075-1092 -/
def Orientation.fromRotVel2 (o : Orientation) (v : Vel2Car) : Vel2Car :=
  let x := o.fromRot (v.vx2, v.vxvy, v.vxvz)
  let y := o.fromRot (v.vxvy, v.vy2, v.vyvz)
  let z := o.fromRot (v.vxvz, v.vyvz, v.vz2)
  { vx2 := o.m0 * x.1 + o.m3 * y.1 + o.m6 * z.1
    vy2 := o.m1 * x.2.1 + o.m4 * y.2.1 + o.m7 * z.2.1
    vz2 := o.m2 * x.2.2 + o.m5 * y.2.2 + o.m8 * z.2.2
    vxvy := o.m1 * x.1 + o.m4 * y.1 + o.m7 * z.1
    vyvz := o.m2 * x.2.1 + o.m5 * y.2.1 + o.m8 * z.2.1
    vxvz := o.m0 * x.2.2 + o.m3 * y.2.2 + o.m6 * z.2.2 }

/-- coord.h:1095-1104 -/
def Orientation.toRotGrad (o : Orientation) (g : GradCar) : GradCar :=
  let r := o.toRot (g.dx, g.dy, g.dz); ⟨r.1, r.2.1, r.2.2⟩
/-- coord.h:1107-1116 -/
def Orientation.fromRotGrad (o : Orientation) (g : GradCar) : GradCar :=
  let r := o.fromRot (g.dx, g.dy, g.dz); ⟨r.1, r.2.1, r.2.2⟩
/-- coord.h:1119-1136 -/
def Orientation.toRotHess (o : Orientation) (h : HessCar) : HessCar :=
  let x := o.toRot (h.dx2, h.dxdy, h.dxdz)
  let y := o.toRot (h.dxdy, h.dy2, h.dydz)
  let z := o.toRot (h.dxdz, h.dydz, h.dz2)
  { dx2 := o.m0 * x.1 + o.m1 * y.1 + o.m2 * z.1
    dy2 := o.m3 * x.2.1 + o.m4 * y.2.1 + o.m5 * z.2.1
    dz2 := o.m6 * x.2.2 + o.m7 * y.2.2 + o.m8 * z.2.2
    dxdy := o.m3 * x.1 + o.m4 * y.1 + o.m5 * z.1
    dydz := o.m6 * x.2.1 + o.m7 * y.2.1 + o.m8 * z.2.1
    dxdz := o.m0 * x.2.2 + o.m1 * y.2.2 + o.m2 * z.2.2 }
/-- coord.h:1139-1156 -/
def Orientation.fromRotHess (o : Orientation) (h : HessCar) : HessCar :=
  let x := o.fromRot (h.dx2, h.dxdy, h.dxdz)
  let y := o.fromRot (h.dxdy, h.dy2, h.dydz)
  let z := o.fromRot (h.dxdz, h.dydz, h.dz2)
  { dx2 := o.m0 * x.1 + o.m3 * y.1 + o.m6 * z.1
    dy2 := o.m1 * x.2.1 + o.m4 * y.2.1 + o.m7 * z.2.1
    dz2 := o.m2 * x.2.2 + o.m5 * y.2.2 + o.m8 * z.2.2
    dxdy := o.m1 * x.1 + o.m4 * y.1 + o.m7 * z.1
    dydz := o.m2 * x.2.1 + o.m5 * y.2.1 + o.m8 * z.2.1
    dxdz := o.m0 * x.2.2 + o.m3 * y.2.2 + o.m6 * z.2.2 }

/-! ## specification -/

/-- the matrix as Mathlib sees it -/
def Orientation.matrix (o : Orientation) : Matrix (Fin 3) (Fin 3) ℝ :=
  !![o.m0, o.m1, o.m2; o.m3, o.m4, o.m5; o.m6, o.m7, o.m8]

/-- a proper rotation: orthogonal with determinant 1 -/
def Orientation.IsRotation (o : Orientation) : Prop := o.matrix * o.matrixᵀ = 1 ∧ o.matrix.det = 1

/-- coordinates of a fixed vector in a frame turned by `a` about the z axis (counter-clockwise) -/
noncomputable def turnZ (a : ℝ) (v : ℝ × ℝ × ℝ) : ℝ × ℝ × ℝ :=
  (cos a * v.1 + sin a * v.2.1, -sin a * v.1 + cos a * v.2.1, v.2.2)
/-- the same about the x axis -/
noncomputable def turnX (a : ℝ) (v : ℝ × ℝ × ℝ) : ℝ × ℝ × ℝ :=
  (v.1, cos a * v.2.1 + sin a * v.2.2, -sin a * v.2.1 + cos a * v.2.2)

/-! ## the matrix built from Euler angles -/

/-- the constructor composes the three documented elementary rotations: `alpha` about z, then `beta` about x', then
`gamma` about z'' -/
theorem C61_euler_sequence (alpha beta gamma : ℝ) (v : ℝ × ℝ × ℝ) :
    (Orientation.ofEuler alpha beta gamma).toRot v = turnZ gamma (turnX beta (turnZ alpha v)) := by
  obtain ⟨x, y, z⟩ := v
  simp only [Orientation.ofEuler, Orientation.toRot, turnZ, turnX, Prod.mk.injEq]
  refine ⟨?_, ?_, ?_⟩ <;> ring

/-- the constructed matrix is a proper rotation -/
theorem C61_isRotation (alpha beta gamma : ℝ) : (Orientation.ofEuler alpha beta gamma).IsRotation := by
  have ha := sin_sq_add_cos_sq alpha
  have hb := sin_sq_add_cos_sq beta
  have hc := sin_sq_add_cos_sq gamma
  constructor
  · ext i j
    fin_cases i <;> fin_cases j <;>
      simp [Orientation.ofEuler, Orientation.matrix, Matrix.mul_apply, Fin.sum_univ_three]
    · linear_combination (cos gamma ^ 2 + cos beta ^ 2 * sin gamma ^ 2) * ha + sin gamma ^ 2 * hb + hc
    · linear_combination (- cos gamma * sin gamma + cos beta ^ 2 * sin gamma * cos gamma) * ha + sin gamma * cos gamma * hb
    · linear_combination (- sin beta * cos beta * sin gamma) * ha
    · linear_combination (- cos gamma * sin gamma + cos beta ^ 2 * sin gamma * cos gamma) * ha + sin gamma * cos gamma * hb
    · linear_combination (sin gamma ^ 2 + cos beta ^ 2 * cos gamma ^ 2) * ha + cos gamma ^ 2 * hb + hc
    · linear_combination (- sin beta * cos beta * cos gamma) * ha
    · linear_combination (- sin beta * cos beta * sin gamma) * ha
    · linear_combination (- sin beta * cos beta * cos gamma) * ha
    · linear_combination sin beta ^ 2 * ha + hb
  · simp only [Orientation.ofEuler, Orientation.matrix, Matrix.det_fin_three]
    simp
    have h : ∀ sa ca sb cb sc cc : ℝ, sa ^ 2 + ca ^ 2 = 1 → sb ^ 2 + cb ^ 2 = 1 → sc ^ 2 + cc ^ 2 = 1 →
        (sa ^ 2 + ca ^ 2) * (sb ^ 2 + cb ^ 2) * (sc ^ 2 + cc ^ 2) = 1 := by
      intro sa ca sb cb sc cc h1 h2 h3; rw [h1, h2, h3]; norm_num
    linear_combination h _ _ _ _ _ _ ha hb hc

/-- the nine scalar equations behind orthogonality (rows, then columns), and the cofactor identities -/
theorem Orientation.IsRotation.eqs {o : Orientation} (h : o.IsRotation) :
    (o.m0 ^ 2 + o.m1 ^ 2 + o.m2 ^ 2 = 1 ∧ o.m3 ^ 2 + o.m4 ^ 2 + o.m5 ^ 2 = 1 ∧ o.m6 ^ 2 + o.m7 ^ 2 + o.m8 ^ 2 = 1 ∧
     o.m0 * o.m3 + o.m1 * o.m4 + o.m2 * o.m5 = 0 ∧ o.m0 * o.m6 + o.m1 * o.m7 + o.m2 * o.m8 = 0 ∧
     o.m3 * o.m6 + o.m4 * o.m7 + o.m5 * o.m8 = 0) ∧
    (o.m0 ^ 2 + o.m3 ^ 2 + o.m6 ^ 2 = 1 ∧ o.m1 ^ 2 + o.m4 ^ 2 + o.m7 ^ 2 = 1 ∧ o.m2 ^ 2 + o.m5 ^ 2 + o.m8 ^ 2 = 1 ∧
     o.m0 * o.m1 + o.m3 * o.m4 + o.m6 * o.m7 = 0 ∧ o.m0 * o.m2 + o.m3 * o.m5 + o.m6 * o.m8 = 0 ∧
     o.m1 * o.m2 + o.m4 * o.m5 + o.m7 * o.m8 = 0) ∧
    (o.m0 = o.m4 * o.m8 - o.m5 * o.m7 ∧ o.m1 = o.m5 * o.m6 - o.m3 * o.m8 ∧ o.m3 = o.m2 * o.m7 - o.m1 * o.m8 ∧
     o.m4 = o.m0 * o.m8 - o.m2 * o.m6) := by
  obtain ⟨h1, hd⟩ := h
  have h2 : o.matrixᵀ * o.matrix = 1 := mul_eq_one_comm.mp h1
  have hadj : o.matrix.adjugate = o.matrixᵀ := by
    have := congrArg (fun A => A * o.matrixᵀ) (Matrix.adjugate_mul o.matrix)
    simp only [Matrix.mul_assoc, h1, hd, one_smul, Matrix.mul_one, Matrix.one_mul] at this
    exact this
  have e1 := fun i j => congrFun (congrFun h1 i) j
  have e2 := fun i j => congrFun (congrFun h2 i) j
  have e3 := fun i j => congrFun (congrFun hadj i) j
  rw [Orientation.matrix, Matrix.adjugate_fin_three_of] at e3
  simp only [Matrix.mul_apply, Fin.sum_univ_three, Matrix.transpose_apply, Orientation.matrix] at e1 e2
  have r00 := e1 0 0; have r11 := e1 1 1; have r22 := e1 2 2; have r01 := e1 0 1; have r02 := e1 0 2; have r12 := e1 1 2
  have c00 := e2 0 0; have c11 := e2 1 1; have c22 := e2 2 2; have c01 := e2 0 1; have c02 := e2 0 2; have c12 := e2 1 2
  have a00 := e3 0 0; have a10 := e3 1 0; have a01 := e3 0 1; have a11 := e3 1 1
  simp at r00 r11 r22 r01 r02 r12 c00 c11 c22 c01 c02 c12 a00 a10 a01 a11
  refine ⟨⟨?_, ?_, ?_, ?_, ?_, ?_⟩, ⟨?_, ?_, ?_, ?_, ?_, ?_⟩, ?_, ?_, ?_, ?_⟩ <;> linarith

/-- the transposed matrix -/
def Orientation.transpose (o : Orientation) : Orientation := ⟨o.m0, o.m3, o.m6, o.m1, o.m4, o.m7, o.m2, o.m5, o.m8⟩

theorem Orientation.IsRotation.transpose {o : Orientation} (h : o.IsRotation) : o.transpose.IsRotation := by
  have e : o.transpose.matrix = o.matrixᵀ := by
    ext i j; fin_cases i <;> fin_cases j <;> rfl
  refine ⟨?_, ?_⟩
  · rw [e, Matrix.transpose_transpose]; exact mul_eq_one_comm.mp h.1
  · rw [e, Matrix.det_transpose]; exact h.2

/-! ## round trips -/

/-- vectors (hence positions and velocities): the two transformations are inverse to each other in both orders -/
theorem C61_roundtrip_vec {o : Orientation} (h : o.IsRotation) (v : ℝ × ℝ × ℝ) :
    o.fromRot (o.toRot v) = v ∧ o.toRot (o.fromRot v) = v := by
  obtain ⟨⟨r1, r2, r3, r4, r5, r6⟩, ⟨c1, c2, c3, c4, c5, c6⟩, -⟩ := h.eqs
  obtain ⟨x, y, z⟩ := v
  simp only [Orientation.toRot, Orientation.fromRot, Prod.mk.injEq]
  refine ⟨⟨?_, ?_, ?_⟩, ?_, ?_, ?_⟩
  · linear_combination x * c1 + y * c4 + z * c5
  · linear_combination x * c4 + y * c2 + z * c6
  · linear_combination x * c5 + y * c6 + z * c3
  · linear_combination x * r1 + y * r4 + z * r5
  · linear_combination x * r4 + y * r2 + z * r6
  · linear_combination x * r5 + y * r6 + z * r3

/-- positions -/
theorem C61_roundtrip_pos {o : Orientation} (h : o.IsRotation) (p : PosCar) :
    o.fromRotPos (o.toRotPos p) = p ∧ o.toRotPos (o.fromRotPos p) = p := by
  obtain ⟨h1, h2⟩ := C61_roundtrip_vec h (p.x, p.y, p.z)
  constructor
  · show (⟨_, _, _⟩ : PosCar) = p
    have : o.fromRot (o.toRot (p.x, p.y, p.z)) = (p.x, p.y, p.z) := h1
    ext
    · exact congrArg (·.1) this
    · exact congrArg (·.2.1) this
    · exact congrArg (·.2.2) this
  · show (⟨_, _, _⟩ : PosCar) = p
    have : o.toRot (o.fromRot (p.x, p.y, p.z)) = (p.x, p.y, p.z) := h2
    ext
    · exact congrArg (·.1) this
    · exact congrArg (·.2.1) this
    · exact congrArg (·.2.2) this

/-- positions with velocities -/
theorem C61_roundtrip_posvel {o : Orientation} (h : o.IsRotation) (p : PosVelCar) :
    o.fromRotPosVel (o.toRotPosVel p) = p ∧ o.toRotPosVel (o.fromRotPosVel p) = p := by
  obtain ⟨h1, h2⟩ := C61_roundtrip_vec h (p.x, p.y, p.z)
  obtain ⟨h3, h4⟩ := C61_roundtrip_vec h (p.vx, p.vy, p.vz)
  constructor
  · ext
    · exact congrArg (·.1) h1
    · exact congrArg (·.2.1) h1
    · exact congrArg (·.2.2) h1
    · exact congrArg (·.1) h3
    · exact congrArg (·.2.1) h3
    · exact congrArg (·.2.2) h3
  · ext
    · exact congrArg (·.1) h2
    · exact congrArg (·.2.1) h2
    · exact congrArg (·.2.2) h2
    · exact congrArg (·.1) h4
    · exact congrArg (·.2.1) h4
    · exact congrArg (·.2.2) h4

/-- the documented inverse: the angles (−γ,−β,−α) give the transposed matrix, whose forward transformation is the
backward transformation of the original one -/
theorem C61_inverse_angles (alpha beta gamma : ℝ) :
    Orientation.ofEuler (-gamma) (-beta) (-alpha) = (Orientation.ofEuler alpha beta gamma).transpose ∧
    (∀ v, (Orientation.ofEuler (-gamma) (-beta) (-alpha)).toRot v = (Orientation.ofEuler alpha beta gamma).fromRot v) ∧
    (∀ v, (Orientation.ofEuler (-gamma) (-beta) (-alpha)).fromRot v = (Orientation.ofEuler alpha beta gamma).toRot v) := by
  have e : Orientation.ofEuler (-gamma) (-beta) (-alpha) = (Orientation.ofEuler alpha beta gamma).transpose := by
    ext <;> simp only [Orientation.ofEuler, Orientation.transpose, sin_neg, cos_neg] <;> ring
  refine ⟨e, fun v => ?_, fun v => ?_⟩ <;> rw [e] <;> rfl

/-- zero angles: the two frames coincide -/
theorem C61_identity (v : ℝ × ℝ × ℝ) :
    (Orientation.ofEuler 0 0 0).toRot v = v ∧ (Orientation.ofEuler 0 0 0).fromRot v = v := by
  constructor <;> · simp [Orientation.ofEuler, Orientation.toRot, Orientation.fromRot]

/-! ## what a rotation preserves -/

/-- scalar products (hence lengths and angles) do not change; vector products are carried along (no mirror reflection) -/
theorem C61_isometry {o : Orientation} (h : o.IsRotation) (v w : ℝ × ℝ × ℝ) :
    (o.toRot v).1 * (o.toRot w).1 + (o.toRot v).2.1 * (o.toRot w).2.1 + (o.toRot v).2.2 * (o.toRot w).2.2
      = v.1 * w.1 + v.2.1 * w.2.1 + v.2.2 * w.2.2 := by
  obtain ⟨-, ⟨c1, c2, c3, c4, c5, c6⟩, -⟩ := h.eqs
  simp only [Orientation.toRot]
  linear_combination v.1 * w.1 * c1 + v.2.1 * w.2.1 * c2 + v.2.2 * w.2.2 * c3 + (v.1 * w.2.1 + v.2.1 * w.1) * c4 +
    (v.1 * w.2.2 + v.2.2 * w.1) * c5 + (v.2.1 * w.2.2 + v.2.2 * w.2.1) * c6

/-- distance from the origin, speed and total angular momentum of a phase-space point do not change -/
theorem C61_invariants {o : Orientation} (h : o.IsRotation) (p : PosVelCar) :
    let q := o.toRotPosVel p
    q.x ^ 2 + q.y ^ 2 + q.z ^ 2 = p.x ^ 2 + p.y ^ 2 + p.z ^ 2 ∧
    q.vx ^ 2 + q.vy ^ 2 + q.vz ^ 2 = p.vx ^ 2 + p.vy ^ 2 + p.vz ^ 2 ∧
    LtotalCar q = LtotalCar p := by
  have h1 := C61_isometry h (p.x, p.y, p.z) (p.x, p.y, p.z)
  have h2 := C61_isometry h (p.vx, p.vy, p.vz) (p.vx, p.vy, p.vz)
  have h3 := C61_isometry h (p.x, p.y, p.z) (p.vx, p.vy, p.vz)
  simp only at h1 h2 h3
  refine ⟨by simp only [Orientation.toRotPosVel]; linarith, by simp only [Orientation.toRotPosVel]; linarith, ?_⟩
  -- Lagrange's identity
  simp only [LtotalCar, Orientation.toRotPosVel]
  congr 1
  generalize o.toRot (p.x, p.y, p.z) = r at *
  generalize o.toRot (p.vx, p.vy, p.vz) = v at *
  have lag : ∀ a b c d e f : ℝ, (b * f - c * e) ^ 2 + (c * d - a * f) ^ 2 + (a * e - b * d) ^ 2 =
      (a * a + b * b + c * c) * (d * d + e * e + f * f) - (a * d + b * e + c * f) ^ 2 := by intros; ring
  have k1 := lag r.1 r.2.1 r.2.2 v.1 v.2.1 v.2.2
  have k2 := lag p.x p.y p.z p.vx p.vy p.vz
  rw [h1, h2, h3] at k1
  linear_combination k1 - k2

/-! ## Euler angles from a matrix -/

/-- ranges of the returned angles -/
theorem C61_toEuler_ranges (o : Orientation) :
    let e := o.toEulerAngles
    (-π ≤ e.1 ∧ e.1 ≤ π) ∧ (0 ≤ e.2.1 ∧ e.2.1 ≤ π) ∧ (-π ≤ e.2.2 ∧ e.2.2 ≤ π) := by
  have hb0 := atan2_nonneg o.m8 (sqrt_nonneg (o.m2 ^ 2 + o.m5 ^ 2))
  have hb1 := (atan2_mem (√(o.m2 ^ 2 + o.m5 ^ 2)) o.m8).2
  have hpi := pi_pos
  unfold Orientation.toEulerAngles
  by_cases hd : o.m2 = 0 ∧ o.m5 = 0 ∧ o.m6 = 0 ∧ o.m7 = 0
  · simp only [hd, and_self, if_true]
    have hg := atan2_mem o.m1 o.m0
    refine ⟨⟨by linarith, by linarith⟩, ⟨?_, ?_⟩, ?_⟩
    · simpa [hd.1, hd.2.1] using hb0
    · simpa [hd.1, hd.2.1] using hb1
    · split_ifs
      · exact ⟨by linarith [hg.1], by linarith [hg.2]⟩
      · exact ⟨by linarith [hg.2], by linarith [hg.1]⟩
  · simp only [hd, if_false]
    have ha := atan2_mem o.m6 (-o.m7)
    have hg := atan2_mem o.m2 o.m5
    exact ⟨⟨ha.1.le, ha.2⟩, ⟨hb0, hb1⟩, ⟨hg.1.le, hg.2⟩⟩

/-- in every case, degenerate or not, the matrix rebuilt from the returned angles is the original one -/
theorem C61_toEuler_reconstruct {o : Orientation} (h : o.IsRotation) :
    Orientation.ofEuler o.toEulerAngles.1 o.toEulerAngles.2.1 o.toEulerAngles.2.2 = o := by
  obtain ⟨⟨r1, r2, r3, r4, r5, r6⟩, ⟨c1, c2, c3, c4, c5, c6⟩, d1, d2, d3, d4⟩ := h.eqs
  have hs2 : √(o.m2 ^ 2 + o.m5 ^ 2) ^ 2 = o.m2 ^ 2 + o.m5 ^ 2 := sq_sqrt_add _ _
  have hone : √(o.m8 ^ 2 + √(o.m2 ^ 2 + o.m5 ^ 2) ^ 2) = 1 := by
    rw [hs2, show o.m8 ^ 2 + (o.m2 ^ 2 + o.m5 ^ 2) = 1 by linarith, sqrt_one]
  have hcb : cos (atan2 (√(o.m2 ^ 2 + o.m5 ^ 2)) o.m8) = o.m8 := by
    rw [cos_atan2 _ _ (by rw [hone]; norm_num), hone, div_one]
  have hsb : sin (atan2 (√(o.m2 ^ 2 + o.m5 ^ 2)) o.m8) = √(o.m2 ^ 2 + o.m5 ^ 2) := by
    rw [sin_atan2 _ _ (by rw [hone]; norm_num), hone, div_one]
  unfold Orientation.toEulerAngles
  by_cases hd : o.m2 = 0 ∧ o.m5 = 0 ∧ o.m6 = 0 ∧ o.m7 = 0
  · rw [if_pos hd]
    obtain ⟨e2, e5, e6, e7⟩ := hd
    have h8 : o.m8 = 1 ∨ o.m8 = -1 := by
      rw [e2, e5] at c3
      have : (o.m8 - 1) * (o.m8 + 1) = 0 := by linarith
      rcases mul_eq_zero.mp this with h | h
      · left; linarith
      · right; linarith
    have hs0 : √(o.m2 ^ 2 + o.m5 ^ 2) = 0 := by rw [e2, e5]; simp
    have h01 : √(o.m0 ^ 2 + o.m1 ^ 2) = 1 := by
      rw [show o.m0 ^ 2 + o.m1 ^ 2 = 1 by rw [e2] at r1; linarith, sqrt_one]
    have hcg : cos (atan2 o.m1 o.m0) = o.m0 := by rw [cos_atan2 _ _ (by rw [h01]; norm_num), h01, div_one]
    have hsg : sin (atan2 o.m1 o.m0) = o.m1 := by rw [sin_atan2 _ _ (by rw [h01]; norm_num), h01, div_one]
    have hsign : (if o.m8 > 0 then (1:ℝ) else -1) = o.m8 := by
      rcases h8 with h8 | h8 <;> rw [h8] <;> norm_num
    have hg : cos (atan2 o.m1 o.m0 * o.m8) = o.m0 ∧ sin (atan2 o.m1 o.m0 * o.m8) = o.m8 * o.m1 := by
      rcases h8 with h8 | h8 <;> rw [h8] <;> simp [hcg, hsg]
    have h88 : o.m8 * o.m8 = 1 := by rcases h8 with h8 | h8 <;> rw [h8] <;> norm_num
    rw [e5, e7] at d1; rw [e5, e6] at d2; rw [e2, e7] at d3; rw [e2, e6] at d4
    simp only [hs0] at hcb hsb
    simp only [Orientation.ofEuler, hs0, hcb, hsb, hsign, hg.1, hg.2, sin_zero, cos_zero]
    ext <;> simp only []
    · ring
    · linear_combination o.m1 * h88
    · linarith
    · linear_combination -d3
    · linear_combination -d4
    · linarith
    · linarith
    · linarith
  · rw [if_neg hd]
    set s := √(o.m2 ^ 2 + o.m5 ^ 2) with hsdef
    have hs67 : √((-o.m7) ^ 2 + o.m6 ^ 2) = s := by
      rw [hsdef]; congr 1; linarith [neg_sq o.m7]
    have hs52 : √(o.m5 ^ 2 + o.m2 ^ 2) = s := by rw [hsdef, add_comm]
    have hs0 : s ≠ 0 := by
      intro h0
      apply hd
      obtain ⟨a, b⟩ := sum_sq_eq_zero (hs52.trans h0)
      obtain ⟨c, d⟩ := sum_sq_eq_zero (hs67.trans h0)
      exact ⟨b, a, d, by linarith⟩
    have hca : cos (atan2 o.m6 (-o.m7)) = -o.m7 / s := by rw [cos_atan2 _ _ (by rw [hs67]; exact hs0), hs67]
    have hsa : sin (atan2 o.m6 (-o.m7)) = o.m6 / s := by rw [sin_atan2 _ _ (by rw [hs67]; exact hs0), hs67]
    have hcg : cos (atan2 o.m2 o.m5) = o.m5 / s := by rw [cos_atan2 _ _ (by rw [hs52]; exact hs0), hs52]
    have hsg : sin (atan2 o.m2 o.m5) = o.m2 / s := by rw [sin_atan2 _ _ (by rw [hs52]; exact hs0), hs52]
    have hs8 : s ^ 2 = 1 - o.m8 ^ 2 := by rw [hs2]; linarith
    simp only [Orientation.ofEuler, hca, hsa, hcg, hsg, hcb, hsb]
    ext <;> simp only [] <;> field_simp
    · rw [hs8]; linear_combination -(o.m8 : ℝ) * d4 - d1
    · rw [hs8]; linear_combination (o.m8 : ℝ) * d3 - d2
    · rw [hs8]; linear_combination (o.m8 : ℝ) * d2 - d3
    · rw [hs8]; linear_combination -(o.m8 : ℝ) * d1 - d4

/-- face-on means that the rotated z axis is parallel or antiparallel to the original one: the z coordinate of every
point is kept or changes sign -/
theorem C61_isFaceOn {o : Orientation} (h : o.IsRotation) :
    o.isFaceOn ↔ (∀ v, (o.toRot v).2.2 = v.2.2) ∨ (∀ v, (o.toRot v).2.2 = -v.2.2) := by
  obtain ⟨⟨-, -, r3, -⟩, -⟩ := h.eqs
  unfold Orientation.isFaceOn Orientation.toRot
  constructor
  · rintro (h8 | h8) <;> rw [h8] at r3
    · left
      have h6 : o.m6 = 0 := by nlinarith [sq_nonneg o.m6, sq_nonneg o.m7]
      have h7 : o.m7 = 0 := by nlinarith [sq_nonneg o.m6, sq_nonneg o.m7]
      intro v; simp [h6, h7, h8]
    · right
      have h6 : o.m6 = 0 := by nlinarith [sq_nonneg o.m6, sq_nonneg o.m7]
      have h7 : o.m7 = 0 := by nlinarith [sq_nonneg o.m6, sq_nonneg o.m7]
      intro v; simp [h6, h7, h8]
  · rintro (hv | hv)
    · left; simpa using hv (0, 0, 1)
    · right; simpa using hv (0, 0, 1)

/-! ## tensors, gradients and Hessians -/

/-- the second moments of a finite weighted sample of velocities -/
def moments (l : List (ℝ × ℝ × ℝ × ℝ)) : Vel2Car :=
  { vx2 := (l.map fun e => e.1 * (e.2.1 * e.2.1)).sum
    vy2 := (l.map fun e => e.1 * (e.2.2.1 * e.2.2.1)).sum
    vz2 := (l.map fun e => e.1 * (e.2.2.2 * e.2.2.2)).sum
    vxvy := (l.map fun e => e.1 * (e.2.1 * e.2.2.1)).sum
    vyvz := (l.map fun e => e.1 * (e.2.2.1 * e.2.2.2)).sum
    vxvz := (l.map fun e => e.1 * (e.2.1 * e.2.2.2)).sum }

/-- rotating the tensor of second moments gives the second moments of the rotated velocities, in both directions, for
every sample and every matrix -/
theorem C61_vel2 (o : Orientation) (l : List (ℝ × ℝ × ℝ × ℝ)) :
    o.toRotVel2 (moments l) = moments (l.map fun e => (e.1, o.toRot e.2)) ∧
    o.fromRotVel2 (moments l) = moments (l.map fun e => (e.1, o.fromRot e.2)) := by
  induction l with
  | nil => constructor <;> simp [moments, Orientation.toRotVel2, Orientation.fromRotVel2, Orientation.toRot, Orientation.fromRot]
  | cons e l ih =>
    obtain ⟨ih1, ih2⟩ := ih
    constructor
    · rw [Vel2Car.ext_iff] at ih1 ⊢
      simp only [moments, Orientation.toRotVel2, Orientation.toRot, List.map_cons, List.sum_cons] at ih1 ⊢
      obtain ⟨i1, i2, i3, i4, i5, i6⟩ := ih1
      refine ⟨?_, ?_, ?_, ?_, ?_, ?_⟩
      · rw [← i1]; ring
      · rw [← i2]; ring
      · rw [← i3]; ring
      · rw [← i4]; ring
      · rw [← i5]; ring
      · rw [← i6]; ring
    · rw [Vel2Car.ext_iff] at ih2 ⊢
      simp only [moments, Orientation.fromRotVel2, Orientation.fromRot, List.map_cons, List.sum_cons] at ih2 ⊢
      obtain ⟨i1, i2, i3, i4, i5, i6⟩ := ih2
      refine ⟨?_, ?_, ?_, ?_, ?_, ?_⟩
      · rw [← i1]; ring
      · rw [← i2]; ring
      · rw [← i3]; ring
      · rw [← i4]; ring
      · rw [← i5]; ring
      · rw [← i6]; ring

/-- a function given in the rotated frame, evaluated through `toRotated`: its gradient in the original frame is the
back-rotated gradient (this is how a tilted potential is evaluated) -/
theorem C61_grad_from {o : Orientation} (F : PosCar → ℝ) (p : PosCar) (g : GradCar)
    (hF : IsGradCar F (o.toRotPos p) g) : IsGradCar (fun q => F (o.toRotPos q)) p (o.fromRotGrad g) := by
  intro x y z x' y' z' t hx hy hz e
  subst e
  have := hF _ _ _ _ _ _ t (((hx.const_mul o.m0).add (hy.const_mul o.m1)).add (hz.const_mul o.m2))
    (((hx.const_mul o.m3).add (hy.const_mul o.m4)).add (hz.const_mul o.m5))
    (((hx.const_mul o.m6).add (hy.const_mul o.m7)).add (hz.const_mul o.m8)) rfl
  refine this.congr_deriv ?_
  simp only [Orientation.fromRotGrad, Orientation.fromRot]; ring

/-- the opposite direction -/
theorem C61_grad_to {o : Orientation} (F : PosCar → ℝ) (p : PosCar) (g : GradCar)
    (hF : IsGradCar F (o.fromRotPos p) g) : IsGradCar (fun q => F (o.fromRotPos q)) p (o.toRotGrad g) :=
  C61_grad_from (o := o.transpose) F p g hF

/-- second derivatives, from the rotated to the original frame -/
theorem C61_hess_from {o : Orientation} (G : PosCar → GradCar) (p : PosCar) (H : HessCar)
    (hG : IsHessCar G (o.toRotPos p) H) :
    IsHessCar (fun q => o.fromRotGrad (G (o.toRotPos q))) p (o.fromRotHess H) := by
  obtain ⟨h1, h2, h3⟩ := hG
  have k1 := C61_grad_from _ p _ h1
  have k2 := C61_grad_from _ p _ h2
  have k3 := C61_grad_from _ p _ h3
  refine ⟨?_, ?_, ?_⟩ <;>
  · intro x y z x' y' z' t hx hy hz e
    have a1 := k1 x y z x' y' z' t hx hy hz e
    have a2 := k2 x y z x' y' z' t hx hy hz e
    have a3 := k3 x y z x' y' z' t hx hy hz e
    first
    | refine (((a1.const_mul o.m0).add (a2.const_mul o.m3)).add (a3.const_mul o.m6)).congr_deriv ?_
      simp only [Orientation.fromRotGrad, Orientation.fromRot, Orientation.fromRotHess]; ring
    | refine (((a1.const_mul o.m1).add (a2.const_mul o.m4)).add (a3.const_mul o.m7)).congr_deriv ?_
      simp only [Orientation.fromRotGrad, Orientation.fromRot, Orientation.fromRotHess]; ring
    | refine (((a1.const_mul o.m2).add (a2.const_mul o.m5)).add (a3.const_mul o.m8)).congr_deriv ?_
      simp only [Orientation.fromRotGrad, Orientation.fromRot, Orientation.fromRotHess]; ring

/-- second derivatives, from the original to the rotated frame -/
theorem C61_hess_to {o : Orientation} (G : PosCar → GradCar) (p : PosCar) (H : HessCar)
    (hG : IsHessCar G (o.fromRotPos p) H) :
    IsHessCar (fun q => o.toRotGrad (G (o.fromRotPos q))) p (o.toRotHess H) :=
  C61_hess_from (o := o.transpose) G p H hG

/-- round trips for gradients, Hessians and second moments -/
theorem C61_roundtrip_tensors {o : Orientation} (h : o.IsRotation) (g : GradCar) (H : HessCar) (v : Vel2Car) :
    o.fromRotGrad (o.toRotGrad g) = g ∧ o.toRotGrad (o.fromRotGrad g) = g ∧
    o.fromRotHess (o.toRotHess H) = H ∧ o.toRotHess (o.fromRotHess H) = H ∧
    o.fromRotVel2 (o.toRotVel2 v) = v ∧ o.toRotVel2 (o.fromRotVel2 v) = v := by
  have hv := fun w => C61_roundtrip_vec h w
  -- every symmetric tensor is the tensor of second moments of some weighted sample
  have key : ∀ v : Vel2Car, o.fromRotVel2 (o.toRotVel2 v) = v ∧ o.toRotVel2 (o.fromRotVel2 v) = v := by
    intro v
    obtain ⟨l, rfl⟩ : ∃ l, moments l = v := by
      refine ⟨[(v.vx2 - v.vxvy - v.vxvz, 1, 0, 0), (v.vy2 - v.vxvy - v.vyvz, 0, 1, 0), (v.vz2 - v.vyvz - v.vxvz, 0, 0, 1),
        (v.vxvy, 1, 1, 0), (v.vyvz, 0, 1, 1), (v.vxvz, 1, 0, 1)], ?_⟩
      ext <;> simp [moments]
    rw [(C61_vel2 o l).1, (C61_vel2 o _).2, (C61_vel2 o l).2, (C61_vel2 o _).1]
    simp [List.map_map, Function.comp_def, hv]
  have kH := key ⟨H.dx2, H.dy2, H.dz2, H.dxdy, H.dydz, H.dxdz⟩
  rw [Vel2Car.ext_iff, Vel2Car.ext_iff] at kH
  refine ⟨?_, ?_, HessCar.ext_iff.mpr kH.1, HessCar.ext_iff.mpr kH.2, (key v).1, (key v).2⟩
  · have := (hv (g.dx, g.dy, g.dz)).1
    exact GradCar.ext (congrArg (·.1) this) (congrArg (·.2.1) this) (congrArg (·.2.2) this)
  · have := (hv (g.dx, g.dy, g.dz)).2
    exact GradCar.ext (congrArg (·.1) this) (congrArg (·.2.1) this) (congrArg (·.2.2) this)

/-- non-triviality: a quarter turn about z followed by a quarter tilt; its angles are recovered -/
example : (Orientation.ofEuler (π / 2) (π / 2) 0).toRot (1, 2, 3) = (2, 3, 1) ∧
    (Orientation.ofEuler (π / 2) (π / 2) 0).toEulerAngles = (π / 2, π / 2, 0) := by
  constructor
  · simp [Orientation.ofEuler, Orientation.toRot]
  · have h1 : ∀ φ : ℝ, -π < φ → φ ≤ π → atan2 (sin φ) (cos φ) = φ := fun φ a b => by
      simpa using atan2_polar (r := 1) one_pos a b
    have hpi := pi_pos
    have a1 := h1 (π / 2) (by linarith) (by linarith)
    have a2 := h1 0 (by linarith) (by linarith)
    simp only [sin_pi_div_two, cos_pi_div_two] at a1
    simp only [sin_zero, cos_zero] at a2
    simp [Orientation.toEulerAngles, Orientation.ofEuler, a1, a2]

end Verif.Coord
