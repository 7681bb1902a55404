import Verif.Ode.GL3

/-!
# `Ode2SolverGL4` (property C85)

`src/math_ode.cpp:696-916`: the collocation method with four nodes for `x'' = A(t) x + B(t) x'`.
-/

namespace Verif.Ode.GL

open Polynomial

/-- Constants of `Ode2SolverGL4::doStep` (math_ode.cpp:743-792) as functions of the nodes. -/
structure C4 where
  (su0 sv0 sw0 sz0 su1 sv1 sw1 sz1 su2 sv2 sw2 sz2 su3 sv3 sw3 sz3 : ℝ)
  (du0 dv0 dw0 dz0 du1 dv1 dw1 dz1 du2 dv2 dw2 dz2 du3 dv3 dw3 dz3 : ℝ)
  (mvu mwu mwv mzu mzv mzw mpu mpv mpw mpz mqv mqw mqz mrw mrz msz : ℝ)

/-- math_ode.cpp:743-792, line by line. -/
noncomputable def consts4 (h0 h1 h2 h3 : ℝ) : C4 :=
  let su0 := 0.5 * h0 * h0
  let su1 := 0.5 * h1 * h1
  let su2 := 0.5 * h2 * h2
  let su3 := 0.5 * h3 * h3
  { su0 := su0
    sv0 := su0 * h0 * (-2) / 3
    sw0 := su0 * h0 * (h1 * 2 / 3 - h0 / 6)
    sz0 := su0 * h0 * (h0 * (h1 + h2) / 6 - h0 * h0 / 15 - h1 * h2 * 2 / 3)
    su1 := su1
    sv1 := su1 * (h1 / 3 - h0)
    sw1 := su1 * h1 * (h0 * 2 / 3 - h1 / 6)
    sz1 := su1 * h1 * (h1 * (h0 + h2) / 6 - h1 * h1 / 15 - h0 * h2 * 2 / 3)
    su2 := su2
    sv2 := su2 * (h2 / 3 - h0)
    sw2 := su2 * (h2 / 3 * (h2 / 2 - h0 - h1) + h0 * h1)
    sz2 := su2 * h2 * (h2 * (h0 + h1) / 6 - h2 * h2 / 15 - h0 * h1 * 2 / 3)
    su3 := su3
    sv3 := su3 * (h3 / 3 - h0)
    sw3 := su3 * (h3 / 3 * (h3 / 2 - h0 - h1) + h0 * h1)
    sz3 := su3 * (h3 * (h3 * (h3 * 0.6 - h0 - h1 - h2) / 6 + (h0 * h1 + h1 * h2 + h0 * h2) / 3) - h0 * h1 * h2)
    du0 := h0
    dv0 := h0 * (-h0) / 2
    dw0 := h0 * h0 * (h1 / 2 - h0 / 6)
    dz0 := h0 * h0 * (h0 * (-h0 / 12 + h1 / 6 + h2 / 6) - h1 * h2 / 2)
    du1 := h1
    dv1 := h1 * (h1 / 2 - h0)
    dw1 := h1 * h1 * (h0 / 2 - h1 / 6)
    dz1 := h1 * h1 * (h1 * (-h1 / 12 + h0 / 6 + h2 / 6) - h0 * h2 / 2)
    du2 := h2
    dv2 := h2 * (h2 / 2 - h0)
    dw2 := h2 * (h2 * (h2 / 3 - h1 / 2 - h0 / 2) + h0 * h1)
    dz2 := h2 * h2 * (h2 * (-h2 / 12 + h0 / 6 + h1 / 6) - h0 * h1 / 2)
    du3 := h3
    dv3 := h3 * (h3 / 2 - h0)
    dw3 := h3 * (h3 * (h3 / 3 - h1 / 2 - h0 / 2) + h0 * h1)
    dz3 := h3 * (h3 * (h0 * h1 / 2 + h0 * h2 / 2 + h1 * h2 / 2 - h3 * (h0 / 3 + h1 / 3 + h2 / 3 - h3 / 4)) - h0 * h1 * h2)
    mvu := 1 / (h1 - h0)
    mwu := 1 / (h2 - h0) / (h2 - h1)
    mwv := 1 / (h2 - h1)
    mzu := 1 / (h3 - h0) / (h3 - h1) / (h3 - h2)
    mzv := 1 / (h3 - h1) / (h3 - h2)
    mzw := 1 / (h3 - h2)
    mpu := 1 / 2
    mpv := 1 / 2 * (1 - h0)
    mpw := 1 / 2 * (1 - h0) * (1 - h1)
    mpz := 1 / 2 * (1 - h0) * (1 - h1) * (1 - h2)
    mqv := 1 / 6
    mqw := 1 / 6 * (2 - h0 - h1)
    mqz := 1 / 6 * ((1 - h0) * (1 - h1) + (1 - h1) * (1 - h2) + (1 - h2) * (1 - h0))
    mrw := 1 / 12
    mrz := 1 / 12 * (3 - h0 - h1 - h2)
    msz := 1 / 20 }

/-- The polynomial coefficients `u[], v[], w[], z[]` of the second derivative. -/
@[ext] structure UVWZ (n : ℕ) where
  (u v w z : Fin n → ℝ)

/-- Prediction of the coefficients from the previous timestep (math_ode.cpp:831-835). -/
noncomputable def predict4 {n : ℕ} (h0 h1 h2 dt : ℝ) (b : Blk 6 n) : UVWZ n where
  u := fun d => 2 * b 2 d + 6 * h0 * (dt * b 3 d) + 12 * h0 * h0 * (dt * dt * b 4 d) + 20 * h0 * h0 * h0 * (dt * dt * dt * b 5 d)
  v := fun d => 6 * (dt * b 3 d) + 12 * (h0 + h1) * (dt * dt * b 4 d) + 20 * (h0 * h0 + h0 * h1 + h1 * h1) * (dt * dt * dt * b 5 d)
  w := fun d => 12 * (dt * dt * b 4 d) + 20 * (h0 + h1 + h2) * (dt * dt * dt * b 5 d)
  z := fun d => 20 * (dt * dt * dt * b 5 d)

/-- The right-hand side of the equation at one of the nodes for the current coefficients
(e.g. math_ode.cpp:843-856 for node 0). -/
noncomputable def nodeRhs4 {n : ℕ} (a b : Fin n → Fin n → ℝ) (h dt su sv sw sz du dv dw dz : ℝ) (x xd u v w z : Fin n → ℝ) :
    Fin n → ℝ :=
  rhs a b
    (fun d => (x d + xd d * dt * h) + dt * dt * (su * u d + sv * v d + sw * w d + sz * z d))
    (fun d => xd d + dt * (du * u d + dv * v d + dw * w d + dz * z d))

/-- One iteration: `u`, `v`, `w` and `z` are updated in turn (math_ode.cpp:841-892). -/
noncomputable def sweep4 {n : ℕ} (sys : Sys n) (h0 h1 h2 h3 t dt : ℝ) (x xd : Fin n → ℝ) (s : UVWZ n) : UVWZ n :=
  let c := consts4 h0 h1 h2 h3
  let u : Fin n → ℝ := nodeRhs4 (sys.A (t + dt * h0)) (sys.B (t + dt * h0)) h0 dt
    c.su0 c.sv0 c.sw0 c.sz0 c.du0 c.dv0 c.dw0 c.dz0 x xd s.u s.v s.w s.z
  let r1 := nodeRhs4 (sys.A (t + dt * h1)) (sys.B (t + dt * h1)) h1 dt
    c.su1 c.sv1 c.sw1 c.sz1 c.du1 c.dv1 c.dw1 c.dz1 x xd u s.v s.w s.z
  let v : Fin n → ℝ := fun d => (r1 d - u d) * c.mvu
  let r2 := nodeRhs4 (sys.A (t + dt * h2)) (sys.B (t + dt * h2)) h2 dt
    c.su2 c.sv2 c.sw2 c.sz2 c.du2 c.dv2 c.dw2 c.dz2 x xd u v s.w s.z
  let w : Fin n → ℝ := fun d => (r2 d - u d) * c.mwu - v d * c.mwv
  let r3 := nodeRhs4 (sys.A (t + dt * h3)) (sys.B (t + dt * h3)) h3 dt
    c.su3 c.sv3 c.sw3 c.sz3 c.du3 c.dv3 c.dw3 c.dz3 x xd u v w s.z
  { u := u, v := v, w := w, z := fun d => (r3 d - u d) * c.mzu - v d * c.mzv - w d * c.mzw }

/-- The final loop over `d` (math_ode.cpp:899-911). -/
noncomputable def finish4 {n : ℕ} (h0 h1 h2 h3 dt : ℝ) (b : Blk 6 n) (s : UVWZ n) : Blk 6 n :=
  let c := consts4 h0 h1 h2 h3
  let idt := 1 / dt
  let P := fun d => c.mpz * s.z d + c.mpw * s.w d + c.mpv * s.v d + c.mpu * s.u d
  let Q := fun d => c.mqz * s.z d + c.mqw * s.w d + c.mqv * s.v d
  let R := fun d => c.mrz * s.z d + c.mrw * s.w d
  let S := fun d => c.msz * s.z d
  ![fun d => b 0 d + ((P d - 2 * Q d + 3 * R d - 4 * S d) * (dt * dt) + b 1 d * dt),
    fun d => b 1 d + (2 * P d - 3 * Q d + 4 * R d - 5 * S d) * dt,
    P, fun d => Q d * idt, fun d => R d * (idt * idt), fun d => S d * (idt * idt * idt)]

/-- Processing of a single vector with general nodes (math_ode.cpp:820-912);
the number of iterations is 8 for the first step and 4 for subsequent ones. -/
noncomputable def stepBlk4g {n : ℕ} (sys : Sys n) (h0 h1 h2 h3 : ℝ) (new : Bool) (t dt : ℝ) (b : Blk 6 n) : Blk 6 n :=
  finish4 h0 h1 h2 h3 dt b
    ((sweep4 sys h0 h1 h2 h3 t dt (b 0) (b 1))^[if new then 8 else 4] (predict4 h0 h1 h2 dt b))

/-- The nodes `h0, h1, h2, h3` (math_ode.cpp:743). -/
noncomputable def k0 : ℝ := 0.069431844202973713
noncomputable def k1 : ℝ := 0.33000947820757187
noncomputable def k2 : ℝ := 1 - k1
noncomputable def k3 : ℝ := 1 - k0

/-- `Ode2SolverGL4::doStep` for `m` vectors. -/
noncomputable def doStep4 {n : ℕ} (sys : Sys n) (m : ℕ) (s : Solver) (dt : ℝ) : Solver :=
  doStep 6 n m (stepBlk4g sys k0 k1 k2 k3) s dt

/-- `Ode2SolverGL4::getSol` (math_ode.cpp:717-734), with the factor 5 in the velocity at the place
where it stands in the code. -/
noncomputable def getSol4 (n m : ℕ) (s : Solver) (t : ℝ) (i : ℕ) : Option ℝ :=
  getSol 6 n m (fun b d T => b 0 d + T * (b 1 d + T * (b 2 d + T * (b 3 d + T * (b 4 d + T * b 5 d)))))
    (fun b d T => b 1 d + T * (2 * b 2 d + T * (3 * b 3 d + T * 4 * (b 4 d + T * 5 * b 5 d)))) s t i

/-- `Ode2SolverGL4::init`. -/
noncomputable def init4 (n m : ℕ) (s : Solver) (stateNew : ℕ → ℝ) (timeNew : Option ℝ) : Solver :=
  init 6 n m s stateNew timeNew

/-! ### Specification -/

/-- "The position reported for the vector `vec` is the polynomial curve `P`, and at the current time
`t0` the velocity is its derivative."  (At other times the velocity reported by `Ode2SolverGL4` is
*not* the derivative of the position, see `C85_refuted_velocity4`.) -/
def TrajPos {n : ℕ} (sol : ℝ → ℕ → Option ℝ) (t0 : ℝ) (vec : ℕ) (P : Fin n → ℝ[X]) : Prop :=
  ∀ d : Fin n, (∀ t, sol t (vec * (2 * n) + d) = some ((P d).eval t)) ∧
    sol t0 (vec * (2 * n) + n + d) = some ((derivative (P d)).eval t0)

/-! ### Proofs -/

/-- The polynomial stored in the array, about the time `t0`. -/
noncomputable def poly4 {n : ℕ} (b : Blk 6 n) (t0 : ℝ) (d : Fin n) : ℝ[X] :=
  C (b 0 d) + (X - C t0) * (C (b 1 d) + (X - C t0) * (C (b 2 d) + (X - C t0) * (C (b 3 d) + (X - C t0) *
    (C (b 4 d) + (X - C t0) * C (b 5 d)))))

theorem poly4_degree {n : ℕ} (b : Blk 6 n) (t0 : ℝ) (d : Fin n) : (poly4 b t0 d).natDegree ≤ 5 := by
  unfold poly4; compute_degree

theorem poly4_eval {n : ℕ} (b : Blk 6 n) (t0 : ℝ) (d : Fin n) (t : ℝ) :
    (poly4 b t0 d).eval t =
      b 0 d + (t - t0) * (b 1 d + (t - t0) * (b 2 d + (t - t0) * (b 3 d + (t - t0) * (b 4 d + (t - t0) * b 5 d)))) := by
  simp [poly4]

theorem poly4_deriv {n : ℕ} (b : Blk 6 n) (t0 : ℝ) (d : Fin n) (t : ℝ) :
    (derivative (poly4 b t0 d)).eval t =
      b 1 d + (t - t0) * (2 * b 2 d + (t - t0) * (3 * b 3 d + (t - t0) * (4 * b 4 d + (t - t0) * 5 * b 5 d))) := by
  simp [poly4, derivative_mul]; ring

theorem poly4_deriv2 {n : ℕ} (b : Blk 6 n) (t0 : ℝ) (d : Fin n) (t : ℝ) :
    (derivative (derivative (poly4 b t0 d))).eval t =
      2 * b 2 d + (t - t0) * (6 * b 3 d + (t - t0) * (12 * b 4 d + (t - t0) * (20 * b 5 d))) := by
  simp [poly4, derivative_mul]; ring

theorem getSol4_vel {n m : ℕ} (s : Solver) (vec : ℕ) (hv : vec < m) (t : ℝ) (d : Fin n) :
    let b := block 6 n s.mem vec
    getSol4 n m s t (vec * (2 * n) + n + d) = some (b 1 d + (t - s.time) * (2 * b 2 d + (t - s.time) * (3 * b 3 d +
      (t - s.time) * 4 * (b 4 d + (t - s.time) * 5 * b 5 d)))) :=
  getSol_vel 6 n m _ _ s t vec d hv (by norm_num) (by intro b; simp)

theorem traj4 {n m : ℕ} (s : Solver) (vec : ℕ) (hv : vec < m) :
    TrajPos (getSol4 n m s) s.time vec (poly4 (block 6 n s.mem vec) s.time) := by
  intro d
  refine ⟨fun t => ?_, ?_⟩
  · rw [poly4_eval]
    exact getSol_pos 6 n m _ _ s t vec d hv (by norm_num) (by intro b; simp)
  · rw [poly4_deriv, getSol4_vel s vec hv]; simp

theorem TrajPos.unique {n : ℕ} {sol : ℝ → ℕ → Option ℝ} {vec : ℕ} {t0 t1 : ℝ} {P Q : Fin n → ℝ[X]}
    (hP : TrajPos sol t0 vec P) (hQ : TrajPos sol t1 vec Q) : P = Q := by
  funext d
  refine Polynomial.funext fun t => ?_
  have h1 := (hP d).1 t
  rw [(hQ d).1] at h1
  exact (Option.some.inj h1).symm

/-- The second derivative in Newton's form, and its two integrals. -/
def acc4 {n : ℕ} (h0 h1 h2 : ℝ) (s : UVWZ n) (h : ℝ) (d : Fin n) : ℝ :=
  s.u d + (h - h0) * (s.v d + (h - h1) * (s.w d + (h - h2) * s.z d))

noncomputable def vel4 {n : ℕ} (h0 h1 h2 dt : ℝ) (xd : Fin n → ℝ) (s : UVWZ n) (h : ℝ) (d : Fin n) : ℝ :=
  xd d + dt * (h * s.u d + (h ^ 2 / 2 - h0 * h) * s.v d + (h ^ 3 / 3 - (h0 + h1) * h ^ 2 / 2 + h0 * h1 * h) * s.w d +
    (h ^ 4 / 4 - (h0 + h1 + h2) * h ^ 3 / 3 + (h0 * h1 + h0 * h2 + h1 * h2) * h ^ 2 / 2 - h0 * h1 * h2 * h) * s.z d)

noncomputable def pos4 {n : ℕ} (h0 h1 h2 dt : ℝ) (x xd : Fin n → ℝ) (s : UVWZ n) (h : ℝ) (d : Fin n) : ℝ :=
  x d + xd d * dt * h + dt * dt * (h ^ 2 / 2 * s.u d + (h ^ 3 / 6 - h0 * h ^ 2 / 2) * s.v d +
    (h ^ 4 / 12 - (h0 + h1) * h ^ 3 / 6 + h0 * h1 * h ^ 2 / 2) * s.w d +
    (h ^ 5 / 20 - (h0 + h1 + h2) * h ^ 4 / 12 + (h0 * h1 + h0 * h2 + h1 * h2) * h ^ 3 / 6 - h0 * h1 * h2 * h ^ 2 / 2) * s.z d)

section finish
variable {n : ℕ} (h0 h1 h2 h3 dt t : ℝ) (b : Blk 6 n) (s : UVWZ n) (d : Fin n)

theorem finish4_pos (hdt : dt ≠ 0) (h : ℝ) :
    (poly4 (finish4 h0 h1 h2 h3 dt b s) (t + dt) d).eval (t + dt * h) = pos4 h0 h1 h2 dt (b 0) (b 1) s h d := by
  rw [poly4_eval, show t + dt * h - (t + dt) = dt * (h - 1) by ring]
  simp only [finish4, consts4, pos4, Matrix.cons_val]
  field_simp
  ring

theorem finish4_vel (hdt : dt ≠ 0) (h : ℝ) :
    (derivative (poly4 (finish4 h0 h1 h2 h3 dt b s) (t + dt) d)).eval (t + dt * h) = vel4 h0 h1 h2 dt (b 1) s h d := by
  rw [poly4_deriv, show t + dt * h - (t + dt) = dt * (h - 1) by ring]
  simp only [finish4, consts4, vel4, Matrix.cons_val]
  field_simp
  ring

theorem finish4_acc (hdt : dt ≠ 0) (h : ℝ) :
    (derivative (derivative (poly4 (finish4 h0 h1 h2 h3 dt b s) (t + dt) d))).eval (t + dt * h) = acc4 h0 h1 h2 s h d := by
  rw [poly4_deriv2, show t + dt * h - (t + dt) = dt * (h - 1) by ring]
  simp only [finish4, consts4, acc4, Matrix.cons_val]
  field_simp
  ring

theorem predict4_pos (h : ℝ) :
    (poly4 b t d).eval (t + dt * h) = pos4 h0 h1 h2 dt (b 0) (b 1) (predict4 h0 h1 h2 dt b) h d := by
  rw [poly4_eval, show t + dt * h - t = dt * h by ring]
  simp only [predict4, pos4]
  ring

theorem predict4_vel (h : ℝ) :
    (derivative (poly4 b t d)).eval (t + dt * h) = vel4 h0 h1 h2 dt (b 1) (predict4 h0 h1 h2 dt b) h d := by
  rw [poly4_deriv, show t + dt * h - t = dt * h by ring]
  simp only [predict4, vel4]
  ring

theorem predict4_acc (h : ℝ) :
    (derivative (derivative (poly4 b t d))).eval (t + dt * h) = acc4 h0 h1 h2 (predict4 h0 h1 h2 dt b) h d := by
  rw [poly4_deriv2, show t + dt * h - t = dt * h by ring]
  simp only [predict4, acc4]
  ring

end finish

/-- The right-hand side of the equation for given coefficients at a point `h` of the step. -/
noncomputable def F4 {n : ℕ} (sys : Sys n) (h0 h1 h2 t dt : ℝ) (x xd : Fin n → ℝ) (h : ℝ) (s : UVWZ n) : Fin n → ℝ :=
  rhs (sys.A (t + dt * h)) (sys.B (t + dt * h)) (pos4 h0 h1 h2 dt x xd s h) (vel4 h0 h1 h2 dt xd s h)

section sweep
variable {n : ℕ} (sys : Sys n) (h0 h1 h2 h3 t dt : ℝ) (x xd : Fin n → ℝ)

theorem sweep4_u (s : UVWZ n) :
    (sweep4 sys h0 h1 h2 h3 t dt x xd s).u = F4 sys h0 h1 h2 t dt x xd h0 s := by
  simp only [sweep4, nodeRhs4, F4, consts4]
  congr 1 <;> funext d <;> simp only [pos4, vel4] <;> ring

theorem sweep4_v (s : UVWZ n) (h01 : h1 ≠ h0) (d : Fin n) :
    let s' := sweep4 sys h0 h1 h2 h3 t dt x xd s
    s'.u d + (h1 - h0) * s'.v d = F4 sys h0 h1 h2 t dt x xd h1 ⟨s'.u, s.v, s.w, s.z⟩ d := by
  intro s'
  let c := consts4 h0 h1 h2 h3
  have hv : s'.v d = (nodeRhs4 (sys.A (t + dt * h1)) (sys.B (t + dt * h1)) h1 dt
    c.su1 c.sv1 c.sw1 c.sz1 c.du1 c.dv1 c.dw1 c.dz1 x xd s'.u s.v s.w s.z d - s'.u d) * (1 / (h1 - h0)) := rfl
  have e : nodeRhs4 (sys.A (t + dt * h1)) (sys.B (t + dt * h1)) h1 dt
    c.su1 c.sv1 c.sw1 c.sz1 c.du1 c.dv1 c.dw1 c.dz1 x xd s'.u s.v s.w s.z = F4 sys h0 h1 h2 t dt x xd h1 ⟨s'.u, s.v, s.w, s.z⟩ := by
    simp only [nodeRhs4, F4, consts4, c]
    congr 1 <;> funext d <;> simp only [pos4, vel4] <;> ring
  rw [e] at hv
  have : h1 - h0 ≠ 0 := sub_ne_zero.2 h01
  rw [hv]; field_simp; ring

theorem sweep4_w (s : UVWZ n) (h02 : h2 ≠ h0) (h12 : h2 ≠ h1) (d : Fin n) :
    let s' := sweep4 sys h0 h1 h2 h3 t dt x xd s
    s'.u d + (h2 - h0) * (s'.v d + (h2 - h1) * s'.w d) = F4 sys h0 h1 h2 t dt x xd h2 ⟨s'.u, s'.v, s.w, s.z⟩ d := by
  intro s'
  let c := consts4 h0 h1 h2 h3
  have hw : s'.w d = (nodeRhs4 (sys.A (t + dt * h2)) (sys.B (t + dt * h2)) h2 dt
    c.su2 c.sv2 c.sw2 c.sz2 c.du2 c.dv2 c.dw2 c.dz2 x xd s'.u s'.v s.w s.z d - s'.u d) * (1 / (h2 - h0) / (h2 - h1)) -
      s'.v d * (1 / (h2 - h1)) := rfl
  have e : nodeRhs4 (sys.A (t + dt * h2)) (sys.B (t + dt * h2)) h2 dt
    c.su2 c.sv2 c.sw2 c.sz2 c.du2 c.dv2 c.dw2 c.dz2 x xd s'.u s'.v s.w s.z = F4 sys h0 h1 h2 t dt x xd h2 ⟨s'.u, s'.v, s.w, s.z⟩ := by
    simp only [nodeRhs4, F4, consts4, c]
    congr 1 <;> funext d <;> simp only [pos4, vel4] <;> ring
  rw [e] at hw
  have a1 : h2 - h0 ≠ 0 := sub_ne_zero.2 h02
  have a2 : h2 - h1 ≠ 0 := sub_ne_zero.2 h12
  rw [hw]; field_simp; ring

theorem sweep4_z (s : UVWZ n) (h03 : h3 ≠ h0) (h13 : h3 ≠ h1) (h23 : h3 ≠ h2) (d : Fin n) :
    let s' := sweep4 sys h0 h1 h2 h3 t dt x xd s
    s'.u d + (h3 - h0) * (s'.v d + (h3 - h1) * (s'.w d + (h3 - h2) * s'.z d)) =
      F4 sys h0 h1 h2 t dt x xd h3 ⟨s'.u, s'.v, s'.w, s.z⟩ d := by
  intro s'
  let c := consts4 h0 h1 h2 h3
  have hw : s'.z d = (nodeRhs4 (sys.A (t + dt * h3)) (sys.B (t + dt * h3)) h3 dt
    c.su3 c.sv3 c.sw3 c.sz3 c.du3 c.dv3 c.dw3 c.dz3 x xd s'.u s'.v s'.w s.z d - s'.u d) * (1 / (h3 - h0) / (h3 - h1) / (h3 - h2)) -
      s'.v d * (1 / (h3 - h1) / (h3 - h2)) - s'.w d * (1 / (h3 - h2)) := rfl
  have e : nodeRhs4 (sys.A (t + dt * h3)) (sys.B (t + dt * h3)) h3 dt
    c.su3 c.sv3 c.sw3 c.sz3 c.du3 c.dv3 c.dw3 c.dz3 x xd s'.u s'.v s'.w s.z = F4 sys h0 h1 h2 t dt x xd h3 ⟨s'.u, s'.v, s'.w, s.z⟩ := by
    simp only [nodeRhs4, F4, consts4, c]
    congr 1 <;> funext d <;> simp only [pos4, vel4] <;> ring
  rw [e] at hw
  have a1 : h3 - h0 ≠ 0 := sub_ne_zero.2 h03
  have a2 : h3 - h1 ≠ 0 := sub_ne_zero.2 h13
  have a3 : h3 - h2 ≠ 0 := sub_ne_zero.2 h23
  rw [hw]; field_simp; ring

/-- Coefficients are reproduced by an iteration if the equation holds at the nodes. -/
theorem sweep4_fixed (s : UVWZ n) (h01 : h1 ≠ h0) (h02 : h2 ≠ h0) (h12 : h2 ≠ h1) (h03 : h3 ≠ h0) (h13 : h3 ≠ h1) (h23 : h3 ≠ h2)
    (e0 : ∀ d, acc4 h0 h1 h2 s h0 d = F4 sys h0 h1 h2 t dt x xd h0 s d)
    (e1 : ∀ d, acc4 h0 h1 h2 s h1 d = F4 sys h0 h1 h2 t dt x xd h1 s d)
    (e2 : ∀ d, acc4 h0 h1 h2 s h2 d = F4 sys h0 h1 h2 t dt x xd h2 s d)
    (e3 : ∀ d, acc4 h0 h1 h2 s h3 d = F4 sys h0 h1 h2 t dt x xd h3 s d) :
    sweep4 sys h0 h1 h2 h3 t dt x xd s = s := by
  have hu : (sweep4 sys h0 h1 h2 h3 t dt x xd s).u = s.u := by
    rw [sweep4_u]; funext d; rw [← e0]; simp [acc4]
  have hv : (sweep4 sys h0 h1 h2 h3 t dt x xd s).v = s.v := by
    funext d
    have h := sweep4_v sys h0 h1 h2 h3 t dt x xd s h01 d
    simp only [hu] at h
    rw [← e1 d] at h
    simp only [acc4, sub_self, zero_mul, add_zero] at h
    exact mul_left_cancel₀ (sub_ne_zero.2 h01) (add_left_cancel h)
  have hw : (sweep4 sys h0 h1 h2 h3 t dt x xd s).w = s.w := by
    funext d
    have h := sweep4_w sys h0 h1 h2 h3 t dt x xd s h02 h12 d
    simp only [hu, hv] at h
    rw [← e2 d] at h
    simp only [acc4, sub_self, zero_mul, add_zero] at h
    exact mul_left_cancel₀ (sub_ne_zero.2 h12) (add_left_cancel (mul_left_cancel₀ (sub_ne_zero.2 h02) (add_left_cancel h)))
  have hz : (sweep4 sys h0 h1 h2 h3 t dt x xd s).z = s.z := by
    funext d
    have h := sweep4_z sys h0 h1 h2 h3 t dt x xd s h03 h13 h23 d
    simp only [hu, hv, hw] at h
    rw [← e3 d] at h
    simp only [acc4] at h
    exact mul_left_cancel₀ (sub_ne_zero.2 h23) (add_left_cancel (mul_left_cancel₀ (sub_ne_zero.2 h13)
      (add_left_cancel (mul_left_cancel₀ (sub_ne_zero.2 h03) (add_left_cancel h)))))
  exact UVWZ.ext hu hv hw hz

end sweep

theorem defect_eq4 {n : ℕ} (sys : Sys n) (h0 h1 h2 t dt h : ℝ) (P : Fin n → ℝ[X]) (x xd : Fin n → ℝ) (s : UVWZ n)
    (hp : ∀ d, (P d).eval (t + dt * h) = pos4 h0 h1 h2 dt x xd s h d)
    (hq : ∀ d, (derivative (P d)).eval (t + dt * h) = vel4 h0 h1 h2 dt xd s h d)
    (ha : ∀ d, (derivative (derivative (P d))).eval (t + dt * h) = acc4 h0 h1 h2 s h d) (d : Fin n) :
    defect sys P (t + dt * h) d = acc4 h0 h1 h2 s h d - F4 sys h0 h1 h2 t dt x xd h s d := by
  simp only [defect, hp, hq, ha, F4, rhs]

/-! ### Convergence of the iterations -/

/-- A bound on the difference of two sets of coefficients. -/
def Near4 {n : ℕ} (s s' : UVWZ n) (δ : ℝ) : Prop :=
  ‖s.u - s'.u‖ ≤ δ ∧ ‖s.v - s'.v‖ ≤ δ ∧ ‖s.w - s'.w‖ ≤ δ ∧ ‖s.z - s'.z‖ ≤ δ

theorem comb4 {n : ℕ} (a b c e A : ℝ) (u v w z : Fin n → ℝ) (δ : ℝ) (hδ : 0 ≤ δ) (hu : ‖u‖ ≤ δ) (hv : ‖v‖ ≤ δ) (hw : ‖w‖ ≤ δ)
    (hz : ‖z‖ ≤ δ) (hA : |a| + |b| + |c| + |e| ≤ A) : ‖a • u + b • v + c • w + e • z‖ ≤ A * δ := by
  calc ‖a • u + b • v + c • w + e • z‖ ≤ ‖a • u + b • v + c • w‖ + ‖e • z‖ := norm_add_le _ _
    _ ≤ (|a| + |b| + |c|) * δ + |e| * ‖z‖ := by
        refine add_le_add (comb3 a b c _ u v w δ hδ hu hv hw le_rfl) (le_of_eq ?_)
        rw [norm_smul, Real.norm_eq_abs]
    _ ≤ (|a| + |b| + |c|) * δ + |e| * δ := by gcongr
    _ = (|a| + |b| + |c| + |e|) * δ := by ring
    _ ≤ A * δ := by gcongr

theorem F4_lip {n : ℕ} (sys : Sys n) (h0 h1 h2 t dt : ℝ) (x xd : Fin n → ℝ) (h α β : ℝ) (hα : 0 ≤ α) (hβ : 0 ≤ β)
    (hA : ∀ d j, |sys.A (t + dt * h) d j| ≤ α) (hB : ∀ d j, |sys.B (t + dt * h) d j| ≤ β)
    (hs : |h ^ 2 / 2| + |h ^ 3 / 6 - h0 * h ^ 2 / 2| + |h ^ 4 / 12 - (h0 + h1) * h ^ 3 / 6 + h0 * h1 * h ^ 2 / 2| +
      |h ^ 5 / 20 - (h0 + h1 + h2) * h ^ 4 / 12 + (h0 * h1 + h0 * h2 + h1 * h2) * h ^ 3 / 6 - h0 * h1 * h2 * h ^ 2 / 2| ≤ 1)
    (hd : |h| + |h ^ 2 / 2 - h0 * h| + |h ^ 3 / 3 - (h0 + h1) * h ^ 2 / 2 + h0 * h1 * h| +
      |h ^ 4 / 4 - (h0 + h1 + h2) * h ^ 3 / 3 + (h0 * h1 + h0 * h2 + h1 * h2) * h ^ 2 / 2 - h0 * h1 * h2 * h| ≤ 2)
    (s s' : UVWZ n) (δ : ℝ) (hδ : 0 ≤ δ) (hn : Near4 s s' δ) :
    ‖F4 sys h0 h1 h2 t dt x xd h s - F4 sys h0 h1 h2 t dt x xd h s'‖ ≤ n * (α * dt ^ 2 + 2 * β * |dt|) * δ := by
  unfold F4
  rw [rhs_sub]
  refine (rhs_norm _ _ α β hA hB hα hβ _ _).trans ?_
  have e1 : pos4 h0 h1 h2 dt x xd s h - pos4 h0 h1 h2 dt x xd s' h = (dt ^ 2) • ((h ^ 2 / 2) • (s.u - s'.u) +
      (h ^ 3 / 6 - h0 * h ^ 2 / 2) • (s.v - s'.v) +
      (h ^ 4 / 12 - (h0 + h1) * h ^ 3 / 6 + h0 * h1 * h ^ 2 / 2) • (s.w - s'.w) +
      (h ^ 5 / 20 - (h0 + h1 + h2) * h ^ 4 / 12 + (h0 * h1 + h0 * h2 + h1 * h2) * h ^ 3 / 6 - h0 * h1 * h2 * h ^ 2 / 2) •
        (s.z - s'.z)) := by
    funext d
    simp only [pos4, Pi.sub_apply, Pi.add_apply, Pi.smul_apply, smul_eq_mul]; ring
  have e2 : vel4 h0 h1 h2 dt xd s h - vel4 h0 h1 h2 dt xd s' h = dt • (h • (s.u - s'.u) +
      (h ^ 2 / 2 - h0 * h) • (s.v - s'.v) + (h ^ 3 / 3 - (h0 + h1) * h ^ 2 / 2 + h0 * h1 * h) • (s.w - s'.w) +
      (h ^ 4 / 4 - (h0 + h1 + h2) * h ^ 3 / 3 + (h0 * h1 + h0 * h2 + h1 * h2) * h ^ 2 / 2 - h0 * h1 * h2 * h) • (s.z - s'.z)) := by
    funext d
    simp only [vel4, Pi.sub_apply, Pi.add_apply, Pi.smul_apply, smul_eq_mul]; ring
  have b1 := comb4 _ _ _ _ 1 (s.u - s'.u) (s.v - s'.v) (s.w - s'.w) (s.z - s'.z) δ hδ hn.1 hn.2.1 hn.2.2.1 hn.2.2.2 hs
  have b2 := comb4 _ _ _ _ 2 (s.u - s'.u) (s.v - s'.v) (s.w - s'.w) (s.z - s'.z) δ hδ hn.1 hn.2.1 hn.2.2.1 hn.2.2.2 hd
  have c1 : ‖pos4 h0 h1 h2 dt x xd s h - pos4 h0 h1 h2 dt x xd s' h‖ ≤ dt ^ 2 * δ := by
    rw [e1, norm_smul, Real.norm_eq_abs, abs_of_nonneg (sq_nonneg dt)]
    rw [one_mul] at b1
    exact mul_le_mul_of_nonneg_left b1 (sq_nonneg _)
  have c2 : ‖vel4 h0 h1 h2 dt xd s h - vel4 h0 h1 h2 dt xd s' h‖ ≤ |dt| * (2 * δ) := by
    rw [e2, norm_smul, Real.norm_eq_abs]
    exact mul_le_mul_of_nonneg_left b2 (abs_nonneg _)
  calc (n : ℝ) * (α * ‖pos4 h0 h1 h2 dt x xd s h - pos4 h0 h1 h2 dt x xd s' h‖ +
        β * ‖vel4 h0 h1 h2 dt xd s h - vel4 h0 h1 h2 dt xd s' h‖)
      ≤ n * (α * (dt ^ 2 * δ) + β * (|dt| * (2 * δ))) := by gcongr
    _ = n * (α * dt ^ 2 + 2 * β * |dt|) * δ := by ring

/-- A Lipschitz constant `κ` of the right-hand side at each node. -/
structure Lip4 {n : ℕ} (F : ℝ → UVWZ n → Fin n → ℝ) (κ : ℝ) : Prop where
  nonneg : 0 ≤ κ
  l : ∀ h ∈ ({k0, k1, k2, k3} : Set ℝ), ∀ s s' δ, 0 ≤ δ → Near4 s s' δ → ‖F h s - F h s'‖ ≤ κ * δ

theorem lip4 {n : ℕ} (sys : Sys n) (t dt : ℝ) (x xd : Fin n → ℝ) (α β : ℝ) (hα : 0 ≤ α) (hβ : 0 ≤ β)
    (hA : ∀ h, 0 ≤ h → h ≤ 1 → ∀ d j, |sys.A (t + dt * h) d j| ≤ α)
    (hB : ∀ h, 0 ≤ h → h ≤ 1 → ∀ d j, |sys.B (t + dt * h) d j| ≤ β) :
    Lip4 (F4 sys k0 k1 k2 t dt x xd) (n * (α * dt ^ 2 + 2 * β * |dt|)) := by
  refine ⟨by positivity, fun h hh s s' δ hδ hn => ?_⟩
  simp only [Set.mem_insert_iff, Set.mem_singleton_iff] at hh
  rcases hh with rfl | rfl | rfl | rfl <;>
    refine F4_lip sys k0 k1 k2 t dt x xd _ α β hα hβ (hA _ ?_ ?_) (hB _ ?_ ?_) ?_ ?_ s s' δ hδ hn <;>
    norm_num [k0, k1, k2, k3, abs_le, abs_of_nonneg, abs_of_nonpos, abs_of_pos, abs_of_neg]

section contraction
variable {n : ℕ} (sys : Sys n) (t dt : ℝ) (x xd : Fin n → ℝ) (κ : ℝ)

theorem kne10 : k1 ≠ k0 := by norm_num [k0, k1]
theorem kne20 : k2 ≠ k0 := by norm_num [k0, k2, k1]
theorem kne21 : k2 ≠ k1 := by norm_num [k2, k1, k0]
theorem kne30 : k3 ≠ k0 := by norm_num [k0, k3]
theorem kne31 : k3 ≠ k1 := by norm_num [k0, k3, k1]
theorem kne32 : k3 ≠ k2 := by norm_num [k3, k2, k1, k0]

theorem dd4_v (a : ℝ) (u v r : Fin n → ℝ) (h : ∀ d, u d + (k1 - k0) * v d = r d) (hr : ‖r - u‖ ≤ a) : ‖v‖ ≤ 3.84 * a := by
  have e : v = (1 / (k1 - k0)) • (r - u) := by
    funext d
    have : k1 - k0 ≠ 0 := sub_ne_zero.2 kne10
    simp only [Pi.smul_apply, Pi.sub_apply, smul_eq_mul]
    field_simp
    linear_combination h d
  rw [e, norm_smul, Real.norm_eq_abs]
  have ha : 0 ≤ a := (norm_nonneg _).trans hr
  have : |1 / (k1 - k0)| ≤ 3.84 := by norm_num [k0, k1, abs_le]
  gcongr

theorem dd4_w (a b : ℝ) (u v w r : Fin n → ℝ) (h : ∀ d, u d + (k2 - k0) * (v d + (k2 - k1) * w d) = r d)
    (hr : ‖r - u‖ ≤ a) (hv : ‖v‖ ≤ b) : ‖w‖ ≤ 4.9 * a + 2.95 * b := by
  have e : w = (1 / ((k2 - k0) * (k2 - k1))) • (r - u) + (-(1 / (k2 - k1))) • v := by
    funext d
    have n1 : k2 - k0 ≠ 0 := sub_ne_zero.2 kne20
    have n2 : k2 - k1 ≠ 0 := sub_ne_zero.2 kne21
    simp only [Pi.smul_apply, Pi.sub_apply, Pi.add_apply, smul_eq_mul]
    field_simp
    linear_combination h d
  rw [e]
  refine (norm_add_le _ _).trans ?_
  rw [norm_smul, norm_smul, Real.norm_eq_abs, Real.norm_eq_abs]
  have ha : 0 ≤ a := (norm_nonneg _).trans hr
  have hb : 0 ≤ b := (norm_nonneg _).trans hv
  have c1 : |1 / ((k2 - k0) * (k2 - k1))| ≤ 4.9 := by norm_num [k0, k1, k2, abs_le]
  have c2 : |-(1 / (k2 - k1))| ≤ 2.95 := by norm_num [k0, k1, k2, abs_le]
  gcongr

theorem dd4_z (a b c : ℝ) (u v w z r : Fin n → ℝ)
    (h : ∀ d, u d + (k3 - k0) * (v d + (k3 - k1) * (w d + (k3 - k2) * z d)) = r d)
    (hr : ‖r - u‖ ≤ a) (hv : ‖v‖ ≤ b) (hw : ‖w‖ ≤ c) : ‖z‖ ≤ 7.43 * a + 6.4 * b + 3.84 * c := by
  have e : z = (1 / ((k3 - k0) * (k3 - k1) * (k3 - k2))) • (r - u) + (-(1 / ((k3 - k1) * (k3 - k2)))) • v +
      (-(1 / (k3 - k2))) • w := by
    funext d
    have n1 : k3 - k0 ≠ 0 := sub_ne_zero.2 kne30
    have n2 : k3 - k1 ≠ 0 := sub_ne_zero.2 kne31
    have n3 : k3 - k2 ≠ 0 := sub_ne_zero.2 kne32
    simp only [Pi.smul_apply, Pi.sub_apply, Pi.add_apply, smul_eq_mul]
    field_simp
    linear_combination h d
  rw [e]
  refine norm_add₃_le.trans ?_
  rw [norm_smul, norm_smul, norm_smul, Real.norm_eq_abs, Real.norm_eq_abs, Real.norm_eq_abs]
  have ha : 0 ≤ a := (norm_nonneg _).trans hr
  have hb : 0 ≤ b := (norm_nonneg _).trans hv
  have hc : 0 ≤ c := (norm_nonneg _).trans hw
  have c1 : |1 / ((k3 - k0) * (k3 - k1) * (k3 - k2))| ≤ 7.43 := by norm_num [k0, k1, k2, k3, abs_le]
  have c2 : |-(1 / ((k3 - k1) * (k3 - k2)))| ≤ 6.4 := by norm_num [k0, k1, k2, k3, abs_le]
  have c3 : |-(1 / (k3 - k2))| ≤ 3.84 := by norm_num [k0, k1, k2, k3, abs_le]
  gcongr

/-- One iteration reduces the difference between two sets of coefficients by a factor `200 κ`. -/
theorem sweep4_contract (hL : Lip4 (F4 sys k0 k1 k2 t dt x xd) κ) (hκ : κ ≤ 1 / 34) (s s' : UVWZ n) (δ : ℝ) (hδ : 0 ≤ δ)
    (hn : Near4 s s' δ) :
    Near4 (sweep4 sys k0 k1 k2 k3 t dt x xd s) (sweep4 sys k0 k1 k2 k3 t dt x xd s') (200 * κ * δ) := by
  set y := sweep4 sys k0 k1 k2 k3 t dt x xd s with hy
  set y' := sweep4 sys k0 k1 k2 k3 t dt x xd s' with hy'
  have hk := hL.nonneg
  have kd : 0 ≤ κ * δ := mul_nonneg hk hδ
  have kd6 : κ * δ ≤ 1 / 34 * δ := mul_le_mul_of_nonneg_right hκ hδ
  have bu : ‖y.u - y'.u‖ ≤ κ * δ := by
    rw [hy, hy', sweep4_u, sweep4_u]; exact hL.l _ (by simp) s s' δ hδ hn
  have bv : ‖y.v - y'.v‖ ≤ 3.84 * (κ * δ + κ * δ) := by
    refine dd4_v _ (y.u - y'.u) _ (F4 sys k0 k1 k2 t dt x xd k1 ⟨y.u, s.v, s.w, s.z⟩ -
      F4 sys k0 k1 k2 t dt x xd k1 ⟨y'.u, s'.v, s'.w, s'.z⟩) (fun d => ?_) ?_
    · have h1 := sweep4_v sys k0 k1 k2 k3 t dt x xd s kne10 d
      have h2 := sweep4_v sys k0 k1 k2 k3 t dt x xd s' kne10 d
      simp only [← hy, ← hy'] at h1 h2
      simp only [Pi.sub_apply, ← h1, ← h2]; ring
    · refine (norm_sub_le _ _).trans (add_le_add (hL.l _ (by simp) _ _ δ hδ ⟨?_, hn.2.1, hn.2.2.1, hn.2.2.2⟩) bu)
      show ‖y.u - y'.u‖ ≤ δ
      linarith
  have bw : ‖y.w - y'.w‖ ≤ 4.9 * (κ * δ + κ * δ) + 2.95 * (3.84 * (κ * δ + κ * δ)) := by
    refine dd4_w _ _ (y.u - y'.u) (y.v - y'.v) _
      (F4 sys k0 k1 k2 t dt x xd k2 ⟨y.u, y.v, s.w, s.z⟩ - F4 sys k0 k1 k2 t dt x xd k2 ⟨y'.u, y'.v, s'.w, s'.z⟩) (fun d => ?_) ?_ bv
    · have h1 := sweep4_w sys k0 k1 k2 k3 t dt x xd s kne20 kne21 d
      have h2 := sweep4_w sys k0 k1 k2 k3 t dt x xd s' kne20 kne21 d
      simp only [← hy, ← hy'] at h1 h2
      simp only [Pi.sub_apply, ← h1, ← h2]; ring
    · refine (norm_sub_le _ _).trans (add_le_add (hL.l _ (by simp) _ _ δ hδ ⟨?_, ?_, hn.2.2.1, hn.2.2.2⟩) bu)
      · show ‖y.u - y'.u‖ ≤ δ
        linarith
      · show ‖y.v - y'.v‖ ≤ δ
        linarith
  have bz : ‖y.z - y'.z‖ ≤ 7.43 * (κ * δ + κ * δ) + 6.4 * (3.84 * (κ * δ + κ * δ)) +
      3.84 * (4.9 * (κ * δ + κ * δ) + 2.95 * (3.84 * (κ * δ + κ * δ))) := by
    refine dd4_z _ _ _ (y.u - y'.u) (y.v - y'.v) (y.w - y'.w) _
      (F4 sys k0 k1 k2 t dt x xd k3 ⟨y.u, y.v, y.w, s.z⟩ - F4 sys k0 k1 k2 t dt x xd k3 ⟨y'.u, y'.v, y'.w, s'.z⟩) (fun d => ?_) ?_ bv bw
    · have h1 := sweep4_z sys k0 k1 k2 k3 t dt x xd s kne30 kne31 kne32 d
      have h2 := sweep4_z sys k0 k1 k2 k3 t dt x xd s' kne30 kne31 kne32 d
      simp only [← hy, ← hy'] at h1 h2
      simp only [Pi.sub_apply, ← h1, ← h2]; ring
    · refine (norm_sub_le _ _).trans (add_le_add (hL.l _ (by simp) _ _ δ hδ ⟨?_, ?_, ?_, hn.2.2.2⟩) bu)
      · show ‖y.u - y'.u‖ ≤ δ
        linarith
      · show ‖y.v - y'.v‖ ≤ δ
        linarith
      · show ‖y.w - y'.w‖ ≤ δ
        linarith
  exact ⟨by linarith, by linarith, by linarith, by linarith⟩

/-- The change of the coefficients in one iteration is bounded by the residual of the equation. -/
theorem sweep4_change (hL : Lip4 (F4 sys k0 k1 k2 t dt x xd) κ) (hκ : κ ≤ 1 / 34) (s : UVWZ n) (ε : ℝ)
    (e0 : ∀ h ∈ ({k0, k1, k2, k3} : Set ℝ), ‖acc4 k0 k1 k2 s h - F4 sys k0 k1 k2 t dt x xd h s‖ ≤ ε) :
    Near4 (sweep4 sys k0 k1 k2 k3 t dt x xd s) s (210 * ε) := by
  set y := sweep4 sys k0 k1 k2 k3 t dt x xd s with hy
  have hk := hL.nonneg
  have hε : 0 ≤ ε := (norm_nonneg _).trans (e0 k0 (by simp))
  have kε : κ * ε ≤ 1 / 34 * ε := mul_le_mul_of_nonneg_right hκ hε
  have kε0 : 0 ≤ κ * ε := mul_nonneg hk hε
  have zb : ∀ (q : Fin n → ℝ) (c : ℝ), 0 ≤ c → ‖q - q‖ ≤ c := fun q c hc => by simpa using hc
  have bu : ‖y.u - s.u‖ ≤ ε := by
    have e : acc4 k0 k1 k2 s k0 = s.u := by funext d; simp [acc4]
    have e0 := e0 k0 (by simp)
    rw [e] at e0
    rw [hy, sweep4_u, norm_sub_rev]
    exact e0
  have bv : ‖y.v - s.v‖ ≤ 3.84 * ((κ * ε + ε) + ε) := by
    refine dd4_v _ (y.u - s.u) _ ((F4 sys k0 k1 k2 t dt x xd k1 ⟨y.u, s.v, s.w, s.z⟩ - F4 sys k0 k1 k2 t dt x xd k1 s) -
      (acc4 k0 k1 k2 s k1 - F4 sys k0 k1 k2 t dt x xd k1 s)) (fun d => ?_) ?_
    · have h1 := sweep4_v sys k0 k1 k2 k3 t dt x xd s kne10 d
      simp only [← hy] at h1
      simp only [Pi.sub_apply, ← h1, acc4]; ring
    · exact (norm_sub_le _ _).trans (add_le_add ((norm_sub_le _ _).trans (add_le_add (hL.l _ (by simp) _ _ ε hε
        ⟨bu, zb _ _ hε, zb _ _ hε, zb _ _ hε⟩) (e0 k1 (by simp)))) bu)
  have bv8 : ‖y.v - s.v‖ ≤ 8 * ε := by linarith
  have bw : ‖y.w - s.w‖ ≤ 4.9 * ((κ * (8 * ε) + ε) + ε) + 2.95 * (8 * ε) := by
    refine dd4_w _ _ (y.u - s.u) (y.v - s.v) _ ((F4 sys k0 k1 k2 t dt x xd k2 ⟨y.u, y.v, s.w, s.z⟩ - F4 sys k0 k1 k2 t dt x xd k2 s) -
      (acc4 k0 k1 k2 s k2 - F4 sys k0 k1 k2 t dt x xd k2 s)) (fun d => ?_) ?_ bv8
    · have h1 := sweep4_w sys k0 k1 k2 k3 t dt x xd s kne20 kne21 d
      simp only [← hy] at h1
      simp only [Pi.sub_apply, ← h1, acc4]; ring
    · exact (norm_sub_le _ _).trans (add_le_add ((norm_sub_le _ _).trans
        (add_le_add (hL.l _ (by simp) _ _ (8 * ε) (by linarith) ⟨bu.trans (by linarith), bv8, zb _ _ (by linarith), zb _ _ (by linarith)⟩)
          (e0 k2 (by simp)))) bu)
  have bw35 : ‖y.w - s.w‖ ≤ 35 * ε := by linarith
  have bz : ‖y.z - s.z‖ ≤ 7.43 * ((κ * (35 * ε) + ε) + ε) + 6.4 * (8 * ε) + 3.84 * (35 * ε) := by
    refine dd4_z _ _ _ (y.u - s.u) (y.v - s.v) (y.w - s.w) _
      ((F4 sys k0 k1 k2 t dt x xd k3 ⟨y.u, y.v, y.w, s.z⟩ - F4 sys k0 k1 k2 t dt x xd k3 s) -
      (acc4 k0 k1 k2 s k3 - F4 sys k0 k1 k2 t dt x xd k3 s)) (fun d => ?_) ?_ bv8 bw35
    · have h1 := sweep4_z sys k0 k1 k2 k3 t dt x xd s kne30 kne31 kne32 d
      simp only [← hy] at h1
      simp only [Pi.sub_apply, ← h1, acc4]; ring
    · exact (norm_sub_le _ _).trans (add_le_add ((norm_sub_le _ _).trans
        (add_le_add (hL.l _ (by simp) _ _ (35 * ε) (by linarith) ⟨bu.trans (by linarith), bv8.trans (by linarith), bw35, zb _ _ (by linarith)⟩)
          (e0 k3 (by simp)))) bu)
  exact ⟨by linarith, by linarith, by linarith, by linarith⟩

/-- The residual of the equation after an iteration is bounded by the change of the coefficients. -/
theorem sweep4_residual (hL : Lip4 (F4 sys k0 k1 k2 t dt x xd) κ) (s : UVWZ n) (δ : ℝ)
    (hn : Near4 (sweep4 sys k0 k1 k2 k3 t dt x xd s) s δ) :
    let y := sweep4 sys k0 k1 k2 k3 t dt x xd s
    ∀ h ∈ ({k0, k1, k2, k3} : Set ℝ), ‖acc4 k0 k1 k2 y h - F4 sys k0 k1 k2 t dt x xd h y‖ ≤ κ * δ := by
  intro y h hh
  have hδ : 0 ≤ δ := (norm_nonneg _).trans hn.1
  have n1 : ‖s.u - y.u‖ ≤ δ := by rw [norm_sub_rev]; exact hn.1
  have n2 : ‖s.v - y.v‖ ≤ δ := by rw [norm_sub_rev]; exact hn.2.1
  have n3 : ‖s.w - y.w‖ ≤ δ := by rw [norm_sub_rev]; exact hn.2.2.1
  have n4 : ‖s.z - y.z‖ ≤ δ := by rw [norm_sub_rev]; exact hn.2.2.2
  have z0 : ∀ y : Fin n → ℝ, ‖y - y‖ ≤ δ := fun y => by simpa using hδ
  have hl := hL.l h hh
  simp only [Set.mem_insert_iff, Set.mem_singleton_iff] at hh
  rcases hh with rfl | rfl | rfl | rfl
  · have e : acc4 k0 k1 k2 y k0 = F4 sys k0 k1 k2 t dt x xd k0 s := by
      rw [← sweep4_u sys k0 k1 k2 k3]; funext d; simp [acc4, y]
    rw [e]; exact hl _ _ δ hδ ⟨n1, n2, n3, n4⟩
  · have e : acc4 k0 k1 k2 y k1 = F4 sys k0 k1 k2 t dt x xd k1 ⟨y.u, s.v, s.w, s.z⟩ := by
      funext d
      have := sweep4_v sys k0 k1 k2 k3 t dt x xd s kne10 d
      simp only at this
      rw [← this]
      simp [acc4, y]
    rw [e]; exact hl _ _ δ hδ ⟨z0 _, n2, n3, n4⟩
  · have e : acc4 k0 k1 k2 y k2 = F4 sys k0 k1 k2 t dt x xd k2 ⟨y.u, y.v, s.w, s.z⟩ := by
      funext d
      have := sweep4_w sys k0 k1 k2 k3 t dt x xd s kne20 kne21 d
      simp only at this
      rw [← this]
      simp [acc4, y]
    rw [e]; exact hl _ _ δ hδ ⟨z0 _, z0 _, n3, n4⟩
  · have e : acc4 k0 k1 k2 y k3 = F4 sys k0 k1 k2 t dt x xd k3 ⟨y.u, y.v, y.w, s.z⟩ := by
      funext d
      have := sweep4_z sys k0 k1 k2 k3 t dt x xd s kne30 kne31 kne32 d
      simp only at this
      rw [← this]
      simp [acc4, y]
    rw [e]; exact hl _ _ δ hδ ⟨z0 _, z0 _, z0 _, n4⟩

theorem iter4_change (hL : Lip4 (F4 sys k0 k1 k2 t dt x xd) κ) (hκ : κ ≤ 1 / 34) (s : UVWZ n) (δ : ℝ) (hδ : 0 ≤ δ)
    (hn : Near4 (sweep4 sys k0 k1 k2 k3 t dt x xd s) s δ) (k : ℕ) :
    Near4 ((sweep4 sys k0 k1 k2 k3 t dt x xd)^[k + 1] s) ((sweep4 sys k0 k1 k2 k3 t dt x xd)^[k] s) ((200 * κ) ^ k * δ) := by
  have hk := hL.nonneg
  induction k with
  | zero => simpa using hn
  | succ k ih =>
    rw [Function.iterate_succ_apply' _ (k + 1), Function.iterate_succ_apply' _ k]
    have := sweep4_contract sys t dt x xd κ hL hκ _ _ _ (by positivity) ih
    rw [Function.iterate_succ_apply'] at this
    rw [pow_succ']
    convert this using 1
    ring

end contraction

/-! ### Property C85 for `Ode2SolverGL4` -/

theorem block_doStep4 {n m : ℕ} (sys : Sys n) (s : Solver) (dt : ℝ) (vec : ℕ) (hv : vec < m) :
    block 6 n (doStep4 sys m s dt).mem vec = stepBlk4g sys k0 k1 k2 k3 s.newstep s.time dt (block 6 n s.mem vec) := by
  unfold doStep4 doStep; rw [block_stepAll, if_pos hv]

/-- C85 (GL4): initialisation; compare with `C85_init3`. -/
theorem C85_init4 (n m : ℕ) (s : Solver) (y : ℕ → ℝ) (t0 : ℝ) (hn : 0 < n) :
    let s' := init4 n m s y (some t0)
    s'.time = t0 ∧ (init4 n m s y none).time = s.time ∧
    (∀ i, i < 2 * n * m → getSol4 n m s' t0 i = some (y i)) ∧
    (∀ t vec (d : Fin n), vec < m → getSol4 n m s' t (vec * (2 * n) + d) =
      some (y (vec * (2 * n) + d) + (t - t0) * y (vec * (2 * n) + n + d))) ∧
    (∀ (s : Solver) t i, getSol4 n m s t i = none ↔ 2 * n * m ≤ i) := by
  have hb : ∀ vec (d : Fin n), vec < m →
      (∀ t, getSol4 n m (init4 n m s y (some t0)) t (vec * (2 * n) + d) =
        some (y (vec * (2 * n) + d) + (t - t0) * y (vec * (2 * n) + n + d))) ∧
      getSol4 n m (init4 n m s y (some t0)) t0 (vec * (2 * n) + n + d) = some (y (vec * (2 * n) + n + d)) := by
    intro vec d hv
    have hd := d.2
    have ht := traj4 (n := n) (init4 n m s y (some t0)) vec hv d
    have hbl := block_init 6 n m s y (some t0) (by norm_num) vec hv
    have e := fun c => congrFun (congrFun hbl c) d
    have e0 := e 0
    have e1 := e 1
    have e2 := e 2
    have e3 := e 3
    have e4 := e 4
    have e5 := e 5
    simp only [show ((0 : Fin 6) : ℕ) = 0 from rfl, show ((1 : Fin 6) : ℕ) = 1 from rfl, show ((2 : Fin 6) : ℕ) = 2 from rfl,
      show ((3 : Fin 6) : ℕ) = 3 from rfl, show ((4 : Fin 6) : ℕ) = 4 from rfl, show ((5 : Fin 6) : ℕ) = 5 from rfl]
      at e0 e1 e2 e3 e4 e5
    rw [if_pos (by omega)] at e0 e1
    rw [if_neg (by omega)] at e2 e3 e4 e5
    have htime : (init4 n m s y (some t0)).time = t0 := rfl
    rw [htime, poly4_deriv] at ht
    unfold init4 at ht ⊢
    rw [e1, e2, e3, e4, e5] at ht
    refine ⟨fun t => ?_, ?_⟩
    · rw [ht.1 t, poly4_eval, e0, e1, e2, e3, e4, e5]
      simp [Nat.add_assoc]
    · rw [ht.2]; simp [Nat.add_assoc]
  refine ⟨rfl, rfl, fun i hi => ?_, fun t vec d hv => (hb vec d hv).1 t, fun s t i => getSol_range _ _ _ _ _ _ _ _ hn⟩
  obtain ⟨vec, hv, d, rfl | rfl⟩ := idx_cases hn hi
  · rw [(hb vec d hv).1 t0]; simp
  · rw [(hb vec d hv).2]

/-- C85 (GL4): dense output of the position.  Before and after a step, for every vector, `getSol`
reports a polynomial of degree at most 5 in time for each component of the position, whose derivative
at the current time is the reported velocity.  After the step the polynomial starts from the
position and velocity before the step, and the current time is advanced by `dt`.
(For the velocity at other times, see `C85_refuted_velocity4`.) -/
theorem C85_dense4_partial {n m : ℕ} (sys : Sys n) (s : Solver) (dt : ℝ) (hdt : dt ≠ 0) (vec : ℕ) (hv : vec < m) :
    (doStep4 sys m s dt).time = s.time + dt ∧
    ∃ P P' : Fin n → ℝ[X], TrajPos (getSol4 n m s) s.time vec P ∧
      TrajPos (getSol4 n m (doStep4 sys m s dt)) (s.time + dt) vec P' ∧
      ∀ d, (P d).natDegree ≤ 5 ∧ (P' d).natDegree ≤ 5 ∧ (P' d).eval s.time = (P d).eval s.time ∧
        (derivative (P' d)).eval s.time = (derivative (P d)).eval s.time := by
  refine ⟨rfl, _, _, traj4 s vec hv, traj4 (doStep4 sys m s dt) vec hv, fun d => ⟨poly4_degree _ _ _, poly4_degree _ _ _, ?_, ?_⟩⟩
  · rw [block_doStep4 sys s dt vec hv, show (doStep4 sys m s dt).time = s.time + dt from rfl]
    have h := finish4_pos k0 k1 k2 k3 dt s.time (block 6 n s.mem vec)
      ((sweep4 sys k0 k1 k2 k3 s.time dt (block 6 n s.mem vec 0) (block 6 n s.mem vec 1))^[if s.newstep then 8 else 4]
        (predict4 k0 k1 k2 dt (block 6 n s.mem vec))) d hdt 0
    rw [mul_zero, add_zero] at h
    refine h.trans ?_
    rw [poly4_eval]; simp [pos4]
  · rw [block_doStep4 sys s dt vec hv, show (doStep4 sys m s dt).time = s.time + dt from rfl]
    have h := finish4_vel k0 k1 k2 k3 dt s.time (block 6 n s.mem vec)
      ((sweep4 sys k0 k1 k2 k3 s.time dt (block 6 n s.mem vec 0) (block 6 n s.mem vec 1))^[if s.newstep then 8 else 4]
        (predict4 k0 k1 k2 dt (block 6 n s.mem vec))) d hdt 0
    rw [mul_zero, add_zero] at h
    refine h.trans ?_
    rw [poly4_deriv]; simp [vel4]

/-- C85 (GL4): the differential equation at the nodes; compare with `C85_residual3`.
The residual after the step is at most `210 κ (200 κ)^(N-1)` times the residual of the extrapolated
previous solution, with `N = 8` for the first step and 4 for subsequent ones. -/
theorem C85_residual4 {n m : ℕ} (sys : Sys n) (s : Solver) (dt : ℝ) (hdt : dt ≠ 0) (vec : ℕ) (hv : vec < m)
    (P P' : Fin n → ℝ[X]) (hP : TrajPos (getSol4 n m s) s.time vec P)
    (hP' : TrajPos (getSol4 n m (doStep4 sys m s dt)) (s.time + dt) vec P')
    (α β ε : ℝ) (hα : 0 ≤ α) (hβ : 0 ≤ β) (hε : 0 ≤ ε)
    (hA : ∀ h, 0 ≤ h → h ≤ 1 → ∀ d j, |sys.A (s.time + dt * h) d j| ≤ α)
    (hB : ∀ h, 0 ≤ h → h ≤ 1 → ∀ d j, |sys.B (s.time + dt * h) d j| ≤ β)
    (κ : ℝ) (hκdef : κ = n * (α * dt ^ 2 + 2 * β * |dt|)) (hκ : κ ≤ 1 / 34)
    (hres : ∀ h ∈ ({k0, k1, k2, k3} : Set ℝ), ∀ d, |defect sys P (s.time + dt * h) d| ≤ ε) :
    ∀ h ∈ ({k0, k1, k2, k3} : Set ℝ), ∀ d,
      |defect sys P' (s.time + dt * h) d| ≤ 210 * κ * (200 * κ) ^ ((if s.newstep then 8 else 4) - 1) * ε := by
  subst hκdef
  obtain rfl := hP.unique (traj4 s vec hv)
  obtain rfl := hP'.unique (traj4 (doStep4 sys m s dt) vec hv)
  rw [block_doStep4 sys s dt vec hv, show (doStep4 sys m s dt).time = s.time + dt from rfl]
  set b := block 6 n s.mem vec
  set κ : ℝ := n * (α * dt ^ 2 + 2 * β * |dt|)
  have hL := lip4 sys s.time dt (b 0) (b 1) α β hα hβ hA hB
  have hk := hL.nonneg
  have h1 : ∀ h ∈ ({k0, k1, k2, k3} : Set ℝ),
      ‖acc4 k0 k1 k2 (predict4 k0 k1 k2 dt b) h - F4 sys k0 k1 k2 s.time dt (b 0) (b 1) h (predict4 k0 k1 k2 dt b)‖ ≤ ε := by
    intro h hh
    rw [pi_norm_le_iff_of_nonneg hε]
    intro d
    rw [Real.norm_eq_abs, Pi.sub_apply, ← defect_eq4 sys k0 k1 k2 s.time dt h (poly4 b s.time) (b 0) (b 1) _
      (fun d => predict4_pos _ _ _ _ _ _ _ _) (fun d => predict4_vel _ _ _ _ _ _ _ _) (fun d => predict4_acc _ _ _ _ _ _ _ _)]
    exact hres h hh d
  have hc := sweep4_change sys s.time dt (b 0) (b 1) κ hL hκ (predict4 k0 k1 k2 dt b) ε h1
  obtain ⟨k, hk1⟩ : ∃ k, (if s.newstep then 8 else 4) = k + 1 := ⟨(if s.newstep then 8 else 4) - 1, by split <;> rfl⟩
  rw [stepBlk4g, hk1, Nat.add_sub_cancel]
  have hi := iter4_change sys s.time dt (b 0) (b 1) κ hL hκ _ _ (by positivity) hc k
  rw [Function.iterate_succ_apply'] at hi
  have hr := sweep4_residual sys s.time dt (b 0) (b 1) κ hL _ _ hi
  rw [← Function.iterate_succ_apply' (f := sweep4 sys k0 k1 k2 k3 s.time dt (b 0) (b 1))] at hr
  intro h hh d
  rw [defect_eq4 sys k0 k1 k2 s.time dt h _ (b 0) (b 1) _ (fun d => finish4_pos _ _ _ _ _ _ _ _ _ hdt _)
    (fun d => finish4_vel _ _ _ _ _ _ _ _ _ hdt _) (fun d => finish4_acc _ _ _ _ _ _ _ _ _ hdt _)]
  have := (norm_le_pi_norm _ d).trans (hr h hh)
  rw [Real.norm_eq_abs, Pi.sub_apply] at this
  refine this.trans (le_of_eq ?_)
  ring

/-- C85 (GL4): exactness.  If the polynomial curve reported before the step satisfies the
differential equation at the four nodes of the new step, it is continued by the step unchanged. -/
theorem C85_exact4 {n m : ℕ} (sys : Sys n) (s : Solver) (dt : ℝ) (hdt : dt ≠ 0) (vec : ℕ) (hv : vec < m)
    (P : Fin n → ℝ[X]) (hP : TrajPos (getSol4 n m s) s.time vec P)
    (hres : ∀ h ∈ ({k0, k1, k2, k3} : Set ℝ), ∀ d, defect sys P (s.time + dt * h) d = 0) :
    TrajPos (getSol4 n m (doStep4 sys m s dt)) (s.time + dt) vec P := by
  obtain rfl := hP.unique (traj4 s vec hv)
  have ht := traj4 (n := n) (m := m) (doStep4 sys m s dt) vec hv
  rw [block_doStep4 sys s dt vec hv, show (doStep4 sys m s dt).time = s.time + dt from rfl] at ht
  set b := block 6 n s.mem vec
  have h1 : ∀ h ∈ ({k0, k1, k2, k3} : Set ℝ), ∀ d,
      acc4 k0 k1 k2 (predict4 k0 k1 k2 dt b) h d = F4 sys k0 k1 k2 s.time dt (b 0) (b 1) h (predict4 k0 k1 k2 dt b) d := by
    intro h hh d
    have := hres h hh d
    rw [defect_eq4 sys k0 k1 k2 s.time dt h (poly4 b s.time) (b 0) (b 1) _
      (fun d => predict4_pos _ _ _ _ _ _ _ _) (fun d => predict4_vel _ _ _ _ _ _ _ _) (fun d => predict4_acc _ _ _ _ _ _ _ _)] at this
    exact sub_eq_zero.1 this
  have hf := sweep4_fixed sys k0 k1 k2 k3 s.time dt (b 0) (b 1) (predict4 k0 k1 k2 dt b) kne10 kne20 kne21 kne30 kne31 kne32
    (h1 _ (by simp)) (h1 _ (by simp)) (h1 _ (by simp)) (h1 _ (by simp))
  have e : stepBlk4g sys k0 k1 k2 k3 s.newstep s.time dt b = finish4 k0 k1 k2 k3 dt b (predict4 k0 k1 k2 dt b) := by
    unfold stepBlk4g
    rw [Function.iterate_fixed hf]
  rw [e] at ht
  have : poly4 (finish4 k0 k1 k2 k3 dt b (predict4 k0 k1 k2 dt b)) (s.time + dt) = poly4 b s.time := by
    funext d
    refine Polynomial.funext fun t => ?_
    have et : t = s.time + dt * ((t - s.time) / dt) := by field_simp; ring
    rw [et, finish4_pos _ _ _ _ _ _ _ _ _ hdt, predict4_pos]
  rwa [this] at ht

/-- One step for a single vector is linear in its data. -/
theorem stepBlk4_linear {n : ℕ} (sys : Sys n) (h0 h1 h2 h3 : ℝ) (new : Bool) (t dt a : ℝ) (b b' : Blk 6 n) :
    stepBlk4g sys h0 h1 h2 h3 new t dt (a • b + b') =
      a • stepBlk4g sys h0 h1 h2 h3 new t dt b + stepBlk4g sys h0 h1 h2 h3 new t dt b' := by
  have hF : ∀ (c : C4) (A B : Fin n → Fin n → ℝ) (h su sv sw sz du dv dw dz : ℝ) (x x' xd xd' u u' v v' w w' z z' : Fin n → ℝ),
      nodeRhs4 A B h dt su sv sw sz du dv dw dz (a • x + x') (a • xd + xd') (a • u + u') (a • v + v') (a • w + w') (a • z + z') =
        a • nodeRhs4 A B h dt su sv sw sz du dv dw dz x xd u v w z +
          nodeRhs4 A B h dt su sv sw sz du dv dw dz x' xd' u' v' w' z' := by
    intros
    unfold nodeRhs4
    rw [← rhs_smul, ← rhs_add]
    congr 1 <;> funext d <;> simp only [Pi.add_apply, Pi.smul_apply, smul_eq_mul] <;> ring
  have hsw : ∀ (x x' xd xd' : Fin n → ℝ) (s s' : UVWZ n),
      sweep4 sys h0 h1 h2 h3 t dt (a • x + x') (a • xd + xd') ⟨a • s.u + s'.u, a • s.v + s'.v, a • s.w + s'.w, a • s.z + s'.z⟩ =
        ⟨a • (sweep4 sys h0 h1 h2 h3 t dt x xd s).u + (sweep4 sys h0 h1 h2 h3 t dt x' xd' s').u,
         a • (sweep4 sys h0 h1 h2 h3 t dt x xd s).v + (sweep4 sys h0 h1 h2 h3 t dt x' xd' s').v,
         a • (sweep4 sys h0 h1 h2 h3 t dt x xd s).w + (sweep4 sys h0 h1 h2 h3 t dt x' xd' s').w,
         a • (sweep4 sys h0 h1 h2 h3 t dt x xd s).z + (sweep4 sys h0 h1 h2 h3 t dt x' xd' s').z⟩ := by
    intro x x' xd xd' s s'
    set c := consts4 h0 h1 h2 h3 with hc
    set Sx := sweep4 sys h0 h1 h2 h3 t dt (a • x + x') (a • xd + xd')
      ⟨a • s.u + s'.u, a • s.v + s'.v, a • s.w + s'.w, a • s.z + s'.z⟩ with hSx
    set S1 := sweep4 sys h0 h1 h2 h3 t dt x xd s with hS1
    set S2 := sweep4 sys h0 h1 h2 h3 t dt x' xd' s' with hS2
    have eu : ∀ (x xd : Fin n → ℝ) (s : UVWZ n), (sweep4 sys h0 h1 h2 h3 t dt x xd s).u =
        nodeRhs4 (sys.A (t + dt * h0)) (sys.B (t + dt * h0)) h0 dt
          c.su0 c.sv0 c.sw0 c.sz0 c.du0 c.dv0 c.dw0 c.dz0 x xd s.u s.v s.w s.z := fun _ _ _ => rfl
    have ev : ∀ (x xd : Fin n → ℝ) (s : UVWZ n) (d : Fin n), (sweep4 sys h0 h1 h2 h3 t dt x xd s).v d =
        (nodeRhs4 (sys.A (t + dt * h1)) (sys.B (t + dt * h1)) h1 dt
          c.su1 c.sv1 c.sw1 c.sz1 c.du1 c.dv1 c.dw1 c.dz1 x xd (sweep4 sys h0 h1 h2 h3 t dt x xd s).u s.v s.w s.z d -
          (sweep4 sys h0 h1 h2 h3 t dt x xd s).u d) * c.mvu := fun _ _ _ _ => rfl
    have ew : ∀ (x xd : Fin n → ℝ) (s : UVWZ n) (d : Fin n), (sweep4 sys h0 h1 h2 h3 t dt x xd s).w d =
        (nodeRhs4 (sys.A (t + dt * h2)) (sys.B (t + dt * h2)) h2 dt
          c.su2 c.sv2 c.sw2 c.sz2 c.du2 c.dv2 c.dw2 c.dz2 x xd (sweep4 sys h0 h1 h2 h3 t dt x xd s).u
            (sweep4 sys h0 h1 h2 h3 t dt x xd s).v s.w s.z d -
          (sweep4 sys h0 h1 h2 h3 t dt x xd s).u d) * c.mwu - (sweep4 sys h0 h1 h2 h3 t dt x xd s).v d * c.mwv := fun _ _ _ _ => rfl
    have ez : ∀ (x xd : Fin n → ℝ) (s : UVWZ n) (d : Fin n), (sweep4 sys h0 h1 h2 h3 t dt x xd s).z d =
        (nodeRhs4 (sys.A (t + dt * h3)) (sys.B (t + dt * h3)) h3 dt
          c.su3 c.sv3 c.sw3 c.sz3 c.du3 c.dv3 c.dw3 c.dz3 x xd (sweep4 sys h0 h1 h2 h3 t dt x xd s).u
            (sweep4 sys h0 h1 h2 h3 t dt x xd s).v (sweep4 sys h0 h1 h2 h3 t dt x xd s).w s.z d -
          (sweep4 sys h0 h1 h2 h3 t dt x xd s).u d) * c.mzu - (sweep4 sys h0 h1 h2 h3 t dt x xd s).v d * c.mzv -
          (sweep4 sys h0 h1 h2 h3 t dt x xd s).w d * c.mzw := fun _ _ _ _ => rfl
    have hu : Sx.u = a • S1.u + S2.u := by
      rw [hSx, hS1, hS2, eu, eu, eu]; exact hF c _ _ _ _ _ _ _ _ _ _ _ _ _ _ _ _ _ _ _ _ _ _ _
    have hv : Sx.v = a • S1.v + S2.v := by
      funext d
      rw [Pi.add_apply, Pi.smul_apply, smul_eq_mul, hSx, hS1, hS2, ev, ev, ev, ← hSx, ← hS1, ← hS2, hu, hF c]
      simp only [Pi.add_apply, Pi.smul_apply, smul_eq_mul]
      ring
    have hw : Sx.w = a • S1.w + S2.w := by
      funext d
      rw [Pi.add_apply, Pi.smul_apply, smul_eq_mul, hSx, hS1, hS2, ew, ew, ew, ← hSx, ← hS1, ← hS2, hu, hv, hF c]
      simp only [Pi.add_apply, Pi.smul_apply, smul_eq_mul]
      ring
    have hz : Sx.z = a • S1.z + S2.z := by
      funext d
      rw [Pi.add_apply, Pi.smul_apply, smul_eq_mul, hSx, hS1, hS2, ez, ez, ez, ← hSx, ← hS1, ← hS2, hu, hv, hw, hF c]
      simp only [Pi.add_apply, Pi.smul_apply, smul_eq_mul]
      ring
    exact UVWZ.ext hu hv hw hz
  have hit : ∀ (k : ℕ) (x x' xd xd' : Fin n → ℝ) (s s' : UVWZ n),
      (sweep4 sys h0 h1 h2 h3 t dt (a • x + x') (a • xd + xd'))^[k] ⟨a • s.u + s'.u, a • s.v + s'.v, a • s.w + s'.w, a • s.z + s'.z⟩ =
        ⟨a • ((sweep4 sys h0 h1 h2 h3 t dt x xd)^[k] s).u + ((sweep4 sys h0 h1 h2 h3 t dt x' xd')^[k] s').u,
         a • ((sweep4 sys h0 h1 h2 h3 t dt x xd)^[k] s).v + ((sweep4 sys h0 h1 h2 h3 t dt x' xd')^[k] s').v,
         a • ((sweep4 sys h0 h1 h2 h3 t dt x xd)^[k] s).w + ((sweep4 sys h0 h1 h2 h3 t dt x' xd')^[k] s').w,
         a • ((sweep4 sys h0 h1 h2 h3 t dt x xd)^[k] s).z + ((sweep4 sys h0 h1 h2 h3 t dt x' xd')^[k] s').z⟩ := by
    intro k x x' xd xd' s s'
    induction k generalizing s s' with
    | zero => rfl
    | succ k ih =>
      rw [Function.iterate_succ_apply, Function.iterate_succ_apply, Function.iterate_succ_apply, hsw, ih]
  have hpr : predict4 h0 h1 h2 dt (a • b + b') =
      ⟨a • (predict4 h0 h1 h2 dt b).u + (predict4 h0 h1 h2 dt b').u, a • (predict4 h0 h1 h2 dt b).v + (predict4 h0 h1 h2 dt b').v,
       a • (predict4 h0 h1 h2 dt b).w + (predict4 h0 h1 h2 dt b').w, a • (predict4 h0 h1 h2 dt b).z + (predict4 h0 h1 h2 dt b').z⟩ := by
    simp only [predict4, UVWZ.mk.injEq]
    refine ⟨?_, ?_, ?_, ?_⟩ <;> funext d <;> simp only [Pi.add_apply, Pi.smul_apply, smul_eq_mul] <;> ring
  unfold stepBlk4g
  rw [hpr, show (a • b + b') 0 = a • b 0 + b' 0 from rfl, show (a • b + b') 1 = a • b 1 + b' 1 from rfl, hit]
  funext c d
  fin_cases c <;> simp [finish4, consts4] <;> ring

theorem run4 {n : ℕ} (sys : Sys n) (dts : List ℝ) (t0 : ℝ) (m : ℕ) (s : Solver) (q : ℕ → ℝ) (vec : ℕ) (hv : vec < m) :
    let S := dts.foldl (doStep4 sys m) (init4 n m s q (some t0))
    block 6 n S.mem vec = runBlk (stepBlk4g sys k0 k1 k2 k3) dts true t0
          (fun c d => if c.1 * n + d.1 < 2 * n then q (vec * (2 * n) + (c.1 * n + d.1)) else 0) ∧ S.time = t0 + dts.sum := by
  intro S
  have hS : S = dts.foldl (doStep 6 n m (stepBlk4g sys k0 k1 k2 k3)) (init 6 n m s q (some t0)) := rfl
  rw [hS, block_run _ _ _ _ _ _ _ hv, time_run, block_init _ _ _ _ _ _ (by norm_num) _ hv]
  exact ⟨rfl, rfl⟩

/-- C85 (GL4): superposition; compare with `C85_linear3`. -/
theorem C85_linear4 {n m : ℕ} (sys : Sys n) (s : Solver) (a t0 : ℝ) (y y' : ℕ → ℝ) (dts : List ℝ) (hn : 0 < n)
    (t : ℝ) (i : ℕ) (hi : i < 2 * n * m) :
    ∃ z z', getSol4 n m (dts.foldl (doStep4 sys m) (init4 n m s y (some t0))) t i = some z ∧
      getSol4 n m (dts.foldl (doStep4 sys m) (init4 n m s y' (some t0))) t i = some z' ∧
      getSol4 n m (dts.foldl (doStep4 sys m) (init4 n m s (fun k => a * y k + y' k) (some t0))) t i = some (a * z + z') := by
  have hlin : ∀ vec, runBlk (stepBlk4g sys k0 k1 k2 k3) dts true t0
        (fun c d => if c.1 * n + d.1 < 2 * n then a * y (vec * (2 * n) + (c.1 * n + d.1)) + y' (vec * (2 * n) + (c.1 * n + d.1)) else 0) =
      a • runBlk (stepBlk4g sys k0 k1 k2 k3) dts true t0
        (fun c d => if c.1 * n + d.1 < 2 * n then y (vec * (2 * n) + (c.1 * n + d.1)) else 0) +
      runBlk (stepBlk4g sys k0 k1 k2 k3) dts true t0
        (fun c d => if c.1 * n + d.1 < 2 * n then y' (vec * (2 * n) + (c.1 * n + d.1)) else 0) := by
    intro vec
    rw [← runBlk_linear _ (fun new t dt a b b' => stepBlk4_linear sys k0 k1 k2 k3 new t dt a b b')]
    congr 1
    funext c d
    simp only [Pi.add_apply, Pi.smul_apply, smul_eq_mul]
    split <;> simp
  obtain ⟨vec, hv, d, rfl | rfl⟩ := idx_cases hn hi
  · have h1 := fun q => (traj4 (n := n) (m := m) (dts.foldl (doStep4 sys m) (init4 n m s q (some t0))) vec hv d).1 t
    refine ⟨_, _, h1 y, h1 y', ?_⟩
    rw [h1, poly4_eval, poly4_eval, poly4_eval, (run4 sys dts t0 m s _ vec hv).1, (run4 sys dts t0 m s y vec hv).1,
      (run4 sys dts t0 m s y' vec hv).1, (run4 sys dts t0 m s _ vec hv).2, (run4 sys dts t0 m s y vec hv).2,
      (run4 sys dts t0 m s y' vec hv).2, hlin]
    simp only [Pi.add_apply, Pi.smul_apply, smul_eq_mul]
    congr 1; ring
  · have h1 := fun q => getSol4_vel (n := n) (m := m) (dts.foldl (doStep4 sys m) (init4 n m s q (some t0))) vec hv t d
    refine ⟨_, _, h1 y, h1 y', ?_⟩
    rw [h1, (run4 sys dts t0 m s _ vec hv).1, (run4 sys dts t0 m s y vec hv).1,
      (run4 sys dts t0 m s y' vec hv).1, (run4 sys dts t0 m s _ vec hv).2, (run4 sys dts t0 m s y vec hv).2,
      (run4 sys dts t0 m s y' vec hv).2, hlin]
    simp only [Pi.add_apply, Pi.smul_apply, smul_eq_mul]
    congr 1; ring

/-- C85 (GL4): independence of vectors; compare with `C85_indep3`. -/
theorem C85_indep4 {n m : ℕ} (sys : Sys n) (s s1 : Solver) (t0 : ℝ) (y : ℕ → ℝ) (dts : List ℝ) (vec : ℕ) (hv : vec < m)
    (t : ℝ) (i : ℕ) (hi : i < 2 * n) :
    getSol4 n m (dts.foldl (doStep4 sys m) (init4 n m s y (some t0))) t (vec * (2 * n) + i) =
      getSol4 n 1 (dts.foldl (doStep4 sys 1) (init4 n 1 s1 (fun k => y (vec * (2 * n) + k)) (some t0))) t i := by
  have hn : 0 < n := by omega
  have r1 := run4 sys dts t0 m s y vec hv
  have r2 := run4 sys dts t0 1 s1 (fun k => y (vec * (2 * n) + k)) 0 (by norm_num)
  simp only [Nat.zero_mul, Nat.zero_add] at r1 r2
  obtain ⟨v0, hv0, d, hd⟩ := idx_cases (m := 1) hn (show i < 2 * n * 1 by omega)
  obtain rfl : v0 = 0 := by omega
  simp only [Nat.zero_mul, Nat.zero_add] at hd
  rcases hd with rfl | rfl
  · have h1 := (traj4 (n := n) (m := m) (dts.foldl (doStep4 sys m) (init4 n m s y (some t0))) vec hv d).1 t
    have h2 := (traj4 (n := n) (m := 1) (dts.foldl (doStep4 sys 1) (init4 n 1 s1 (fun k => y (vec * (2 * n) + k)) (some t0)))
      0 (by norm_num) d).1 t
    simp only [Nat.zero_mul, Nat.zero_add] at h2
    rw [h1, h2, r1.1, r1.2, r2.1, r2.2]
  · have h1 := getSol4_vel (n := n) (m := m) (dts.foldl (doStep4 sys m) (init4 n m s y (some t0))) vec hv t d
    have h2 := getSol4_vel (n := n) (m := 1) (dts.foldl (doStep4 sys 1) (init4 n 1 s1 (fun k => y (vec * (2 * n) + k)) (some t0)))
      0 (by norm_num) t d
    simp only [Nat.zero_mul, Nat.zero_add] at h2
    rw [← Nat.add_assoc, h1, h2, r1.1, r1.2, r2.1, r2.2]

/-- The nodes are those of the Gauss-Legendre quadrature, i.e. the roots of
`70 h⁴ - 140 h³ + 90 h² - 20 h + 1`, up to an error of order 1e-15. -/
theorem C85_nodes4 : ∀ h ∈ ({k0, k1, k2, k3} : Set ℝ), |70 * h ^ 4 - 140 * h ^ 3 + 90 * h ^ 2 - 20 * h + 1| < 1e-14 := by
  intro h hh
  simp only [Set.mem_insert_iff, Set.mem_singleton_iff] at hh
  rcases hh with rfl | rfl | rfl | rfl <;> norm_num [k0, k1, k2, k3, abs_lt]

/-- The velocity reported by `Ode2SolverGL4` differs from the derivative of the reported position by
`15 s (t - time)⁴`, where `120 s` is the fifth derivative of the position. -/
theorem velocity4_error {n m : ℕ} (s : Solver) (vec : ℕ) (hv : vec < m) (P : Fin n → ℝ[X])
    (hP : TrajPos (getSol4 n m s) s.time vec P) (t : ℝ) (d : Fin n) :
    getSol4 n m s t (vec * (2 * n) + n + d) =
      some ((derivative (P d)).eval t + 15 * block 6 n s.mem vec 5 d * (t - s.time) ^ 4) := by
  obtain rfl := hP.unique (traj4 s vec hv)
  rw [getSol4_vel s vec hv, poly4_deriv]
  congr 1; ring

/-- The smooth system `x'' = (t-h0)(t-h1)(t-h2) x` in one dimension. -/
noncomputable def badSys : Sys 1 := ⟨fun t _ _ => (t - k0) * (t - k1) * (t - k2), fun _ _ _ => 0⟩

/-- C85 (GL4), refuted part: it is *not* true that the velocity reported inside the last
step is the derivative of the reported position, nor that it agrees at the beginning of the step with the
velocity reported before the step.  For the system `badSys` started from `x = 1, x' = 0` at `t = 0` and
advanced by one step `dt = 1`, the value of `getSol(0, 1)` is not 0, although the reported position
is stationary at `t = 0`. -/
theorem C85_refuted_velocity4 :
    let s0 := init4 1 1 ⟨fun _ => 0, 0, true⟩ (fun k => if k = 0 then 1 else 0) (some 0)
    let s1 := doStep4 badSys 1 s0 1
    getSol4 1 1 s0 0 1 = some 0 ∧ getSol4 1 1 s1 0 1 ≠ some 0 ∧
      ∃ P : Fin 1 → ℝ[X], TrajPos (getSol4 1 1 s1) 1 0 P ∧ (derivative (P 0)).eval 0 = 0 := by
  intro s0 s1
  have hb0 : block 6 1 s0.mem 0 = fun c _ => if c.1 = 0 then 1 else 0 := by
    rw [show s0 = init 6 1 1 ⟨fun _ => 0, 0, true⟩ (fun k => if k = 0 then (1 : ℝ) else 0) (some 0) from rfl,
      block_init _ _ _ _ _ _ (by norm_num) _ (by norm_num)]
    funext c d
    have : d = 0 := Subsingleton.elim _ _
    subst this
    fin_cases c <;> simp
  have hb1 : block 6 1 s1.mem 0 = stepBlk4g badSys k0 k1 k2 k3 true 0 1 (block 6 1 s0.mem 0) :=
    block_doStep4 badSys s0 1 0 (by norm_num)
  -- all iterates have u = v = w = 0 and z positive
  have hsz : 0 < (consts4 k0 k1 k2 k3).sz3 := by norm_num [consts4, k0, k1, k2, k3]
  have hmz : 0 < (consts4 k0 k1 k2 k3).mzu := by norm_num [consts4, k0, k1, k2, k3]
  have hA3 : 0 < (k3 - k0) * (k3 - k1) * (k3 - k2) := by norm_num [k0, k1, k2, k3]
  have hsweep : ∀ s : UVWZ 1, s.u = 0 → s.v = 0 → s.w = 0 → 0 ≤ s.z 0 →
      let s' := sweep4 badSys k0 k1 k2 k3 0 1 (block 6 1 s0.mem 0 0) (block 6 1 s0.mem 0 1) s
      s'.u = 0 ∧ s'.v = 0 ∧ s'.w = 0 ∧ 0 < s'.z 0 := by
    intro s hu hv hw hz
    have au : (sweep4 badSys k0 k1 k2 k3 0 1 (block 6 1 s0.mem 0 0) (block 6 1 s0.mem 0 1) s).u = 0 := by
      funext d
      simp [sweep4, nodeRhs4, rhs, badSys]
    have av : (sweep4 badSys k0 k1 k2 k3 0 1 (block 6 1 s0.mem 0 0) (block 6 1 s0.mem 0 1) s).v = 0 := by
      funext d
      simp [sweep4, nodeRhs4, rhs, badSys]
    have aw : (sweep4 badSys k0 k1 k2 k3 0 1 (block 6 1 s0.mem 0 0) (block 6 1 s0.mem 0 1) s).w = 0 := by
      funext d
      simp [sweep4, nodeRhs4, rhs, badSys]
    refine ⟨au, av, aw, ?_⟩
    simp only [sweep4, nodeRhs4, rhs, badSys, hb0, Finset.univ_unique, Finset.sum_singleton]
    simp
    have : 0 < (k3 - k0) * (k3 - k1) * (k3 - k2) * (1 + (consts4 k0 k1 k2 k3).sz3 * s.z 0) := by positivity
    positivity
  have hit : ∀ k, (fun s' : UVWZ 1 => s'.u = 0 ∧ s'.v = 0 ∧ s'.w = 0 ∧ 0 < s'.z 0)
      ((sweep4 badSys k0 k1 k2 k3 0 1 (block 6 1 s0.mem 0 0) (block 6 1 s0.mem 0 1))^[k + 1]
        (predict4 k0 k1 k2 1 (block 6 1 s0.mem 0))) := by
    intro k
    induction k with
    | zero =>
      refine hsweep _ ?_ ?_ ?_ ?_ <;> rw [hb0]
      · funext d; simp [predict4]
      · funext d; simp [predict4]
      · funext d; simp [predict4]
      · simp [predict4]
    | succ k ih =>
      rw [Function.iterate_succ_apply' _ (k + 1)]
      exact hsweep _ ih.1 ih.2.1 ih.2.2.1 ih.2.2.2.le
  have h8 := hit 7
  simp only at h8
  have hpos : 0 < block 6 1 s1.mem 0 5 0 := by
    rw [hb1]
    have : stepBlk4g badSys k0 k1 k2 k3 true 0 1 (block 6 1 s0.mem 0) 5 0 =
        (consts4 k0 k1 k2 k3).msz * ((sweep4 badSys k0 k1 k2 k3 0 1 (block 6 1 s0.mem 0 0) (block 6 1 s0.mem 0 1))^[7 + 1]
        (predict4 k0 k1 k2 1 (block 6 1 s0.mem 0))).z 0 := by
      simp [stepBlk4g, finish4]
    rw [this]
    have hm : 0 < (consts4 k0 k1 k2 k3).msz := by norm_num [consts4]
    exact mul_pos hm h8.2.2.2
  have hv0 : getSol4 1 1 s0 0 1 = some 0 := by
    have := getSol4_vel (n := 1) (m := 1) s0 0 (by norm_num) 0 0
    rw [hb0] at this
    simpa using this
  obtain ⟨-, P, P', hP, hP', hd⟩ := C85_dense4_partial badSys s0 1 one_ne_zero 0 (show 0 < 1 by norm_num)
  have hs0t : s0.time = 0 := rfl
  have hd0 := hd 0
  have hPv := (hP 0).2
  rw [hs0t] at hd0 hPv hP'
  have hPv' : some ((derivative (P 0)).eval 0) = some (0 : ℝ) := by
    rw [← hPv, ← hv0]; rfl
  have hP0 : (derivative (P' 0)).eval 0 = 0 := by rw [hd0.2.2.2]; exact Option.some.inj hPv'
  have hP1 := hP'
  rw [zero_add] at hP1
  refine ⟨hv0, ?_, P', hP1, hP0⟩
  have he := velocity4_error s1 0 (show 0 < 1 by norm_num) P' hP' 0 0
  rw [hP0, show s1.time = 0 + 1 from rfl] at he
  intro hc
  have h2 : getSol4 1 1 s1 0 1 = some (0 + 15 * block 6 1 s1.mem 0 5 0 * (0 - (0 + 1)) ^ 4) := he
  rw [hc] at h2
  have := Option.some.inj h2
  nlinarith

/-! Concrete instances. -/

/-- `x'' = 20 x / t²` (with the solution `x = t⁵`). -/
noncomputable def exSys4 : Sys 1 := ⟨fun t _ _ => 20 / t ^ 2, fun _ _ _ => 0⟩

/-- The solution `t⁵`, continued exactly by a step from 1 to 4. -/
example : TrajPos (getSol4 1 1 (doStep4 exSys4 1
    ⟨fun k => if k = 0 then 1 else if k = 1 then 5 else if k = 2 then 10 else if k = 3 then 10 else if k = 4 then 5 else 1, 1, false⟩ 3))
    4 0 (fun _ : Fin 1 => (X ^ 5 : ℝ[X])) := by
  set s : Solver := ⟨fun k => if k = 0 then 1 else if k = 1 then 5 else if k = 2 then 10 else if k = 3 then 10 else if k = 4 then 5 else 1,
    1, false⟩ with hs
  have hP : TrajPos (getSol4 1 1 s) s.time 0 (fun _ : Fin 1 => (X ^ 5 : ℝ[X])) := by
    have h := traj4 (n := 1) (m := 1) s 0 (by norm_num)
    convert h using 1
    funext d
    refine Polynomial.funext fun t => ?_
    rw [poly4_eval]
    have : d = 0 := Subsingleton.elim _ _
    subst this
    simp [block, hs]; ring
  have := C85_exact4 (n := 1) (m := 1) exSys4 s 3 (by norm_num) 0 (by norm_num) _ hP fun h hh d => ?_
  · convert this using 1; rw [hs]; norm_num
  have hpos : 0 < h := by
    simp only [Set.mem_insert_iff, Set.mem_singleton_iff] at hh
    rcases hh with rfl | rfl | rfl | rfl <;> norm_num [k0, k1, k2, k3]
  have h1 : (1 + 3 * h) ≠ 0 := by positivity
  simp only [defect, hs, exSys4, Finset.univ_unique, Finset.sum_singleton, derivative_X_pow, eval_pow, eval_X]
  simp [derivative_mul]
  field_simp
  ring

end Verif.Ode.GL
