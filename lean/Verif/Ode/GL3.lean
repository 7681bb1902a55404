import Verif.Ode.GLMem
import Mathlib.Algebra.Polynomial.Roots
import Mathlib.Tactic.ComputeDegree
import Mathlib.Tactic.NormNum
import Mathlib.Tactic.Module
import Mathlib.Tactic.LinearCombination

/-!
# `Ode2SolverGL3` (property C85)

`src/math_ode.cpp:498-694`: the collocation method with three nodes for `x'' = A(t) x + B(t) x'`.
-/

namespace Verif.Ode.GL

open Polynomial

/-- Constants of `Ode2SolverGL3::doStep` (math_ode.cpp:547-575) as functions of the nodes. -/
structure C3 where
  (su0 sv0 sw0 su1 sv1 sw1 su2 sv2 sw2 : ℝ)
  (du0 dv0 dw0 du1 dv1 dw1 du2 dv2 dw2 : ℝ)
  (mvu mwu mwv mpu mpv mpw mqv mqw mrw : ℝ)

/-- math_ode.cpp:547-575, line by line. -/
noncomputable def consts3 (h0 h1 h2 : ℝ) : C3 :=
  let su0 := 0.5 * h0 * h0
  let sv0 := su0 * h0 * (-2) / 3
  let sw0 := sv0 * (0.25 * h0 - h1)
  let su1 := 0.5 * h1 * h1
  let sv1 := su1 * (h1 / 3 - h0)
  let sw1 := su1 * h1 / 6 * (4 * h0 - h1)
  let su2 := 0.5 * h2 * h2
  let sv2 := su2 * (h2 / 3 - h0)
  let sw2 := su2 * (h2 / 3 * (0.5 * h2 - h0 - h1) + h0 * h1)
  { su0 := su0, sv0 := sv0, sw0 := sw0, su1 := su1, sv1 := sv1, sw1 := sw1, su2 := su2, sv2 := sv2, sw2 := sw2
    du0 := h0
    dv0 := h0 * (-h0) / 2
    dw0 := h0 * h0 * (h1 / 2 - h0 / 6)
    du1 := h1
    dv1 := h1 * (h1 / 2 - h0)
    dw1 := h1 * h1 * (h0 / 2 - h1 / 6)
    du2 := h2
    dv2 := h2 * (h2 / 2 - h0)
    dw2 := h2 * (h2 * (h2 / 3 - h1 / 2 - h0 / 2) + h0 * h1)
    mvu := 1 / (h1 - h0)
    mwu := 1 / (h2 - h0) / (h2 - h1)
    mwv := 1 / (h2 - h1)
    mpu := 1 / 2
    mpv := 1 / 2 * (1 - h0)
    mpw := 1 / 2 * (1 - h0) * (1 - h1)
    mqv := 1 / 6
    mqw := 1 / 6 * (2 - h0 - h1)
    mrw := 1 / 12 }

/-- The polynomial coefficients `u[], v[], w[]` of the second derivative. -/
@[ext] structure UVW (n : ℕ) where
  (u v w : Fin n → ℝ)

/-- Prediction of the coefficients from the previous timestep (math_ode.cpp:625-628). -/
noncomputable def predict3 {n : ℕ} (h0 h1 dt : ℝ) (b : Blk 5 n) : UVW n where
  u := fun d => 2 * b 2 d + 6 * h0 * (dt * b 3 d) + 12 * h0 * h0 * (dt * dt * b 4 d)
  v := fun d => 6 * (dt * b 3 d) + 12 * (h0 + h1) * (dt * dt * b 4 d)
  w := fun d => 12 * (dt * dt * b 4 d)

/-- The right-hand side of the equation at one of the nodes for the current coefficients:
the loop filling `xh, dh` and the accumulation of `rhs` (e.g. math_ode.cpp:636-649 for node 0);
`s*`, `d*` are the constants for this node, `h` the node itself. -/
noncomputable def nodeRhs3 {n : ℕ} (a b : Fin n → Fin n → ℝ) (h dt su sv sw du dv dw : ℝ) (x xd u v w : Fin n → ℝ) :
    Fin n → ℝ :=
  rhs a b
    (fun d => (x d + xd d * dt * h) + dt * dt * (su * u d + sv * v d + sw * w d))
    (fun d => xd d + dt * (du * u d + dv * v d + dw * w d))

/-- One iteration: `u`, `v` and `w` are updated in turn (math_ode.cpp:634-673). -/
noncomputable def sweep3 {n : ℕ} (sys : Sys n) (h0 h1 h2 t dt : ℝ) (x xd : Fin n → ℝ) (s : UVW n) : UVW n :=
  let c := consts3 h0 h1 h2
  let u : Fin n → ℝ := nodeRhs3 (sys.A (t + dt * h0)) (sys.B (t + dt * h0)) h0 dt
    c.su0 c.sv0 c.sw0 c.du0 c.dv0 c.dw0 x xd s.u s.v s.w
  let r1 := nodeRhs3 (sys.A (t + dt * h1)) (sys.B (t + dt * h1)) h1 dt
    c.su1 c.sv1 c.sw1 c.du1 c.dv1 c.dw1 x xd u s.v s.w
  let v : Fin n → ℝ := fun d => (r1 d - u d) * c.mvu
  let r2 := nodeRhs3 (sys.A (t + dt * h2)) (sys.B (t + dt * h2)) h2 dt
    c.su2 c.sv2 c.sw2 c.du2 c.dv2 c.dw2 x xd u v s.w
  { u := u, v := v, w := fun d => (r2 d - u d) * c.mwu - v d * c.mwv }

/-- The final loop over `d` (math_ode.cpp:680-690). -/
noncomputable def finish3 {n : ℕ} (h0 h1 h2 dt : ℝ) (b : Blk 5 n) (s : UVW n) : Blk 5 n :=
  let c := consts3 h0 h1 h2
  let idt := 1 / dt
  let P := fun d => c.mpw * s.w d + c.mpv * s.v d + c.mpu * s.u d
  let Q := fun d => c.mqw * s.w d + c.mqv * s.v d
  let R := fun d => c.mrw * s.w d
  ![fun d => b 0 d + ((P d - 2 * Q d + 3 * R d) * (dt * dt) + b 1 d * dt),
    fun d => b 1 d + (2 * P d - 3 * Q d + 4 * R d) * dt,
    P, fun d => Q d * idt, fun d => R d * (idt * idt)]

/-- Processing of a single vector with general nodes (math_ode.cpp:615-691);
the number of iterations is 6 for the first step and 3 for subsequent ones. -/
noncomputable def stepBlk3g {n : ℕ} (sys : Sys n) (h0 h1 h2 : ℝ) (new : Bool) (t dt : ℝ) (b : Blk 5 n) : Blk 5 n :=
  finish3 h0 h1 h2 dt b
    ((sweep3 sys h0 h1 h2 t dt (b 0) (b 1))^[if new then 6 else 3] (predict3 h0 h1 dt b))

/-- The nodes `h0, h1, h2` (math_ode.cpp:547). -/
noncomputable def g0 : ℝ := 0.1127016653792583
noncomputable def g1 : ℝ := 0.5
noncomputable def g2 : ℝ := 1 - g0

/-- `Ode2SolverGL3::doStep` for `m` vectors. -/
noncomputable def doStep3 {n : ℕ} (sys : Sys n) (m : ℕ) (s : Solver) (dt : ℝ) : Solver :=
  doStep 5 n m (stepBlk3g sys g0 g1 g2) s dt

/-- `Ode2SolverGL3::getSol` (math_ode.cpp:521-538). -/
noncomputable def getSol3 (n m : ℕ) (s : Solver) (t : ℝ) (i : ℕ) : Option ℝ :=
  getSol 5 n m (fun b d T => b 0 d + T * (b 1 d + T * (b 2 d + T * (b 3 d + T * b 4 d))))
    (fun b d T => b 1 d + T * (2 * b 2 d + T * (3 * b 3 d + T * 4 * b 4 d))) s t i

/-- `Ode2SolverGL3::init`. -/
noncomputable def init3 (n m : ℕ) (s : Solver) (stateNew : ℕ → ℝ) (timeNew : Option ℝ) : Solver :=
  init 5 n m s stateNew timeNew

/-! ### Specification -/

/-- "The solution reported for the vector `vec` is the polynomial curve `P`": the `d`-th component of
the position is `P d` and the `d`-th component of the velocity is the derivative of `P d`. -/
def Traj {n : ℕ} (sol : ℝ → ℕ → Option ℝ) (vec : ℕ) (P : Fin n → ℝ[X]) : Prop :=
  ∀ (t : ℝ) (d : Fin n), sol t (vec * (2 * n) + d) = some ((P d).eval t) ∧
    sol t (vec * (2 * n) + n + d) = some ((derivative (P d)).eval t)

/-- The residual of the differential equation `x'' = A(t) x + B(t) x'` for the curve `P` at the time `t`. -/
noncomputable def defect {n : ℕ} (sys : Sys n) (P : Fin n → ℝ[X]) (t : ℝ) (d : Fin n) : ℝ :=
  (derivative (derivative (P d))).eval t -
    ∑ j, (sys.A t d j * (P j).eval t + sys.B t d j * (derivative (P j)).eval t)

/-! ### Proofs -/

/-- The polynomial stored in the array, about the time `t0`. -/
noncomputable def poly3 {n : ℕ} (b : Blk 5 n) (t0 : ℝ) (d : Fin n) : ℝ[X] :=
  C (b 0 d) + (X - C t0) * (C (b 1 d) + (X - C t0) * (C (b 2 d) + (X - C t0) * (C (b 3 d) + (X - C t0) * C (b 4 d))))

theorem poly3_degree {n : ℕ} (b : Blk 5 n) (t0 : ℝ) (d : Fin n) : (poly3 b t0 d).natDegree ≤ 4 := by
  unfold poly3; compute_degree

theorem poly3_eval {n : ℕ} (b : Blk 5 n) (t0 : ℝ) (d : Fin n) (t : ℝ) :
    (poly3 b t0 d).eval t = b 0 d + (t - t0) * (b 1 d + (t - t0) * (b 2 d + (t - t0) * (b 3 d + (t - t0) * b 4 d))) := by
  simp [poly3]

theorem poly3_deriv {n : ℕ} (b : Blk 5 n) (t0 : ℝ) (d : Fin n) (t : ℝ) :
    (derivative (poly3 b t0 d)).eval t =
      b 1 d + (t - t0) * (2 * b 2 d + (t - t0) * (3 * b 3 d + (t - t0) * 4 * b 4 d)) := by
  simp [poly3, derivative_mul]; ring

theorem poly3_deriv2 {n : ℕ} (b : Blk 5 n) (t0 : ℝ) (d : Fin n) (t : ℝ) :
    (derivative (derivative (poly3 b t0 d))).eval t =
      2 * b 2 d + (t - t0) * (6 * b 3 d + (t - t0) * (12 * b 4 d)) := by
  simp [poly3, derivative_mul]; ring

theorem traj3 {n m : ℕ} (s : Solver) (vec : ℕ) (hv : vec < m) :
    Traj (getSol3 n m s) vec (poly3 (block 5 n s.mem vec) s.time) := by
  intro t d
  rw [poly3_eval, poly3_deriv]
  exact ⟨getSol_pos 5 n m _ _ s t vec d hv (by norm_num) (by intro b; simp),
    getSol_vel 5 n m _ _ s t vec d hv (by norm_num) (by intro b; simp)⟩

theorem Traj.unique {n : ℕ} {sol : ℝ → ℕ → Option ℝ} {vec : ℕ} {P Q : Fin n → ℝ[X]}
    (hP : Traj sol vec P) (hQ : Traj sol vec Q) : P = Q := by
  funext d
  refine Polynomial.funext fun t => ?_
  have h1 := (hP t d).1
  rw [(hQ t d).1] at h1
  exact (Option.some.inj h1).symm

/-- The second derivative in Newton's form, and its two integrals. -/
def acc3 {n : ℕ} (h0 h1 : ℝ) (s : UVW n) (h : ℝ) (d : Fin n) : ℝ := s.u d + (h - h0) * (s.v d + (h - h1) * s.w d)

noncomputable def vel3 {n : ℕ} (h0 h1 dt : ℝ) (xd : Fin n → ℝ) (s : UVW n) (h : ℝ) (d : Fin n) : ℝ :=
  xd d + dt * (h * s.u d + (h ^ 2 / 2 - h0 * h) * s.v d + (h ^ 3 / 3 - (h0 + h1) * h ^ 2 / 2 + h0 * h1 * h) * s.w d)

noncomputable def pos3 {n : ℕ} (h0 h1 dt : ℝ) (x xd : Fin n → ℝ) (s : UVW n) (h : ℝ) (d : Fin n) : ℝ :=
  x d + xd d * dt * h + dt * dt * (h ^ 2 / 2 * s.u d + (h ^ 3 / 6 - h0 * h ^ 2 / 2) * s.v d +
    (h ^ 4 / 12 - (h0 + h1) * h ^ 3 / 6 + h0 * h1 * h ^ 2 / 2) * s.w d)

section finish
variable {n : ℕ} (h0 h1 h2 dt t : ℝ) (b : Blk 5 n) (s : UVW n) (d : Fin n)

theorem finish3_pos (hdt : dt ≠ 0) (h : ℝ) :
    (poly3 (finish3 h0 h1 h2 dt b s) (t + dt) d).eval (t + dt * h) = pos3 h0 h1 dt (b 0) (b 1) s h d := by
  rw [poly3_eval, show t + dt * h - (t + dt) = dt * (h - 1) by ring]
  simp only [finish3, consts3, pos3, Matrix.cons_val]
  field_simp
  ring

theorem finish3_vel (hdt : dt ≠ 0) (h : ℝ) :
    (derivative (poly3 (finish3 h0 h1 h2 dt b s) (t + dt) d)).eval (t + dt * h) = vel3 h0 h1 dt (b 1) s h d := by
  rw [poly3_deriv, show t + dt * h - (t + dt) = dt * (h - 1) by ring]
  simp only [finish3, consts3, vel3, Matrix.cons_val]
  field_simp
  ring

theorem finish3_acc (hdt : dt ≠ 0) (h : ℝ) :
    (derivative (derivative (poly3 (finish3 h0 h1 h2 dt b s) (t + dt) d))).eval (t + dt * h) = acc3 h0 h1 s h d := by
  rw [poly3_deriv2, show t + dt * h - (t + dt) = dt * (h - 1) by ring]
  simp only [finish3, consts3, acc3, Matrix.cons_val]
  field_simp
  ring

theorem predict3_pos (h : ℝ) :
    (poly3 b t d).eval (t + dt * h) = pos3 h0 h1 dt (b 0) (b 1) (predict3 h0 h1 dt b) h d := by
  rw [poly3_eval, show t + dt * h - t = dt * h by ring]
  simp only [predict3, pos3]
  ring

theorem predict3_vel (h : ℝ) :
    (derivative (poly3 b t d)).eval (t + dt * h) = vel3 h0 h1 dt (b 1) (predict3 h0 h1 dt b) h d := by
  rw [poly3_deriv, show t + dt * h - t = dt * h by ring]
  simp only [predict3, vel3]
  ring

theorem predict3_acc (h : ℝ) :
    (derivative (derivative (poly3 b t d))).eval (t + dt * h) = acc3 h0 h1 (predict3 h0 h1 dt b) h d := by
  rw [poly3_deriv2, show t + dt * h - t = dt * h by ring]
  simp only [predict3, acc3]
  ring

end finish

/-- The right-hand side of the equation for given coefficients at a point `h` of the step. -/
noncomputable def F3 {n : ℕ} (sys : Sys n) (h0 h1 t dt : ℝ) (x xd : Fin n → ℝ) (h : ℝ) (s : UVW n) : Fin n → ℝ :=
  rhs (sys.A (t + dt * h)) (sys.B (t + dt * h)) (pos3 h0 h1 dt x xd s h) (vel3 h0 h1 dt xd s h)

section sweep
variable {n : ℕ} (sys : Sys n) (h0 h1 h2 t dt : ℝ) (x xd : Fin n → ℝ)

theorem sweep3_u (s : UVW n) :
    (sweep3 sys h0 h1 h2 t dt x xd s).u = F3 sys h0 h1 t dt x xd h0 s := by
  simp only [sweep3, nodeRhs3, F3, consts3]
  congr 1 <;> funext d <;> simp only [pos3, vel3] <;> ring

theorem sweep3_v (s : UVW n) (h01 : h1 ≠ h0) (d : Fin n) :
    let s' := sweep3 sys h0 h1 h2 t dt x xd s
    s'.u d + (h1 - h0) * s'.v d = F3 sys h0 h1 t dt x xd h1 ⟨s'.u, s.v, s.w⟩ d := by
  intro s'
  have hv : s'.v d = (nodeRhs3 (sys.A (t + dt * h1)) (sys.B (t + dt * h1)) h1 dt
    (consts3 h0 h1 h2).su1 (consts3 h0 h1 h2).sv1 (consts3 h0 h1 h2).sw1 (consts3 h0 h1 h2).du1 (consts3 h0 h1 h2).dv1
    (consts3 h0 h1 h2).dw1 x xd s'.u s.v s.w d - s'.u d) * (1 / (h1 - h0)) := rfl
  have e : nodeRhs3 (sys.A (t + dt * h1)) (sys.B (t + dt * h1)) h1 dt
    (consts3 h0 h1 h2).su1 (consts3 h0 h1 h2).sv1 (consts3 h0 h1 h2).sw1 (consts3 h0 h1 h2).du1 (consts3 h0 h1 h2).dv1
    (consts3 h0 h1 h2).dw1 x xd s'.u s.v s.w = F3 sys h0 h1 t dt x xd h1 ⟨s'.u, s.v, s.w⟩ := by
    simp only [nodeRhs3, F3, consts3]
    congr 1 <;> funext d <;> simp only [pos3, vel3] <;> ring
  rw [e] at hv
  have : h1 - h0 ≠ 0 := sub_ne_zero.2 h01
  rw [hv]; field_simp; ring

theorem sweep3_w (s : UVW n) (h02 : h2 ≠ h0) (h12 : h2 ≠ h1) (d : Fin n) :
    let s' := sweep3 sys h0 h1 h2 t dt x xd s
    s'.u d + (h2 - h0) * (s'.v d + (h2 - h1) * s'.w d) = F3 sys h0 h1 t dt x xd h2 ⟨s'.u, s'.v, s.w⟩ d := by
  intro s'
  have hw : s'.w d = (nodeRhs3 (sys.A (t + dt * h2)) (sys.B (t + dt * h2)) h2 dt
    (consts3 h0 h1 h2).su2 (consts3 h0 h1 h2).sv2 (consts3 h0 h1 h2).sw2 (consts3 h0 h1 h2).du2 (consts3 h0 h1 h2).dv2
    (consts3 h0 h1 h2).dw2 x xd s'.u s'.v s.w d - s'.u d) * (1 / (h2 - h0) / (h2 - h1)) - s'.v d * (1 / (h2 - h1)) := rfl
  have e : nodeRhs3 (sys.A (t + dt * h2)) (sys.B (t + dt * h2)) h2 dt
    (consts3 h0 h1 h2).su2 (consts3 h0 h1 h2).sv2 (consts3 h0 h1 h2).sw2 (consts3 h0 h1 h2).du2 (consts3 h0 h1 h2).dv2
    (consts3 h0 h1 h2).dw2 x xd s'.u s'.v s.w = F3 sys h0 h1 t dt x xd h2 ⟨s'.u, s'.v, s.w⟩ := by
    simp only [nodeRhs3, F3, consts3]
    congr 1 <;> funext d <;> simp only [pos3, vel3] <;> ring
  rw [e] at hw
  have a1 : h2 - h0 ≠ 0 := sub_ne_zero.2 h02
  have a2 : h2 - h1 ≠ 0 := sub_ne_zero.2 h12
  rw [hw]; field_simp; ring

/-- Coefficients are reproduced by an iteration iff the equation holds at the nodes. -/
theorem sweep3_fixed (s : UVW n) (h01 : h1 ≠ h0) (h02 : h2 ≠ h0) (h12 : h2 ≠ h1)
    (e0 : ∀ d, acc3 h0 h1 s h0 d = F3 sys h0 h1 t dt x xd h0 s d)
    (e1 : ∀ d, acc3 h0 h1 s h1 d = F3 sys h0 h1 t dt x xd h1 s d)
    (e2 : ∀ d, acc3 h0 h1 s h2 d = F3 sys h0 h1 t dt x xd h2 s d) :
    sweep3 sys h0 h1 h2 t dt x xd s = s := by
  have hu : (sweep3 sys h0 h1 h2 t dt x xd s).u = s.u := by
    rw [sweep3_u]; funext d; rw [← e0]; simp [acc3]
  have hv : (sweep3 sys h0 h1 h2 t dt x xd s).v = s.v := by
    funext d
    have h := sweep3_v sys h0 h1 h2 t dt x xd s h01 d
    simp only [hu] at h
    rw [← e1 d] at h
    simp only [acc3, sub_self, zero_mul, add_zero] at h
    exact mul_left_cancel₀ (sub_ne_zero.2 h01) (add_left_cancel h)
  have hw : (sweep3 sys h0 h1 h2 t dt x xd s).w = s.w := by
    funext d
    have h := sweep3_w sys h0 h1 h2 t dt x xd s h02 h12 d
    simp only [hu, hv] at h
    rw [← e2 d] at h
    simp only [acc3] at h
    exact mul_left_cancel₀ (sub_ne_zero.2 h12) (add_left_cancel (mul_left_cancel₀ (sub_ne_zero.2 h02) (add_left_cancel h)))
  exact UVW.ext hu hv hw

end sweep

theorem defect_eq3 {n : ℕ} (sys : Sys n) (h0 h1 t dt h : ℝ) (P : Fin n → ℝ[X]) (x xd : Fin n → ℝ) (s : UVW n)
    (hp : ∀ d, (P d).eval (t + dt * h) = pos3 h0 h1 dt x xd s h d)
    (hq : ∀ d, (derivative (P d)).eval (t + dt * h) = vel3 h0 h1 dt xd s h d)
    (ha : ∀ d, (derivative (derivative (P d))).eval (t + dt * h) = acc3 h0 h1 s h d) (d : Fin n) :
    defect sys P (t + dt * h) d = acc3 h0 h1 s h d - F3 sys h0 h1 t dt x xd h s d := by
  simp only [defect, hp, hq, ha, F3, rhs]

/-! ### Convergence of the iterations -/

/-- A bound on the difference of two sets of coefficients. -/
def Near {n : ℕ} (s s' : UVW n) (δ : ℝ) : Prop := ‖s.u - s'.u‖ ≤ δ ∧ ‖s.v - s'.v‖ ≤ δ ∧ ‖s.w - s'.w‖ ≤ δ

theorem comb3 {n : ℕ} (a b c A : ℝ) (u v w : Fin n → ℝ) (δ : ℝ) (hδ : 0 ≤ δ) (hu : ‖u‖ ≤ δ) (hv : ‖v‖ ≤ δ) (hw : ‖w‖ ≤ δ)
    (hA : |a| + |b| + |c| ≤ A) : ‖a • u + b • v + c • w‖ ≤ A * δ := by
  calc ‖a • u + b • v + c • w‖ ≤ ‖a • u‖ + ‖b • v‖ + ‖c • w‖ := norm_add₃_le
    _ = |a| * ‖u‖ + |b| * ‖v‖ + |c| * ‖w‖ := by simp only [norm_smul, Real.norm_eq_abs]
    _ ≤ |a| * δ + |b| * δ + |c| * δ := by gcongr
    _ = (|a| + |b| + |c|) * δ := by ring
    _ ≤ A * δ := by gcongr

theorem F3_lip {n : ℕ} (sys : Sys n) (h0 h1 t dt : ℝ) (x xd : Fin n → ℝ) (h α β : ℝ) (hα : 0 ≤ α) (hβ : 0 ≤ β)
    (hA : ∀ d j, |sys.A (t + dt * h) d j| ≤ α) (hB : ∀ d j, |sys.B (t + dt * h) d j| ≤ β)
    (hs : |h ^ 2 / 2| + |h ^ 3 / 6 - h0 * h ^ 2 / 2| + |h ^ 4 / 12 - (h0 + h1) * h ^ 3 / 6 + h0 * h1 * h ^ 2 / 2| ≤ 1)
    (hd : |h| + |h ^ 2 / 2 - h0 * h| + |h ^ 3 / 3 - (h0 + h1) * h ^ 2 / 2 + h0 * h1 * h| ≤ 2)
    (s s' : UVW n) (δ : ℝ) (hδ : 0 ≤ δ) (hn : Near s s' δ) :
    ‖F3 sys h0 h1 t dt x xd h s - F3 sys h0 h1 t dt x xd h s'‖ ≤ n * (α * dt ^ 2 + 2 * β * |dt|) * δ := by
  unfold F3
  rw [rhs_sub]
  refine (rhs_norm _ _ α β hA hB hα hβ _ _).trans ?_
  have e1 : pos3 h0 h1 dt x xd s h - pos3 h0 h1 dt x xd s' h = (dt ^ 2) • ((h ^ 2 / 2) • (s.u - s'.u) +
      (h ^ 3 / 6 - h0 * h ^ 2 / 2) • (s.v - s'.v) +
      (h ^ 4 / 12 - (h0 + h1) * h ^ 3 / 6 + h0 * h1 * h ^ 2 / 2) • (s.w - s'.w)) := by
    funext d
    simp only [pos3, Pi.sub_apply, Pi.add_apply, Pi.smul_apply, smul_eq_mul]; ring
  have e2 : vel3 h0 h1 dt xd s h - vel3 h0 h1 dt xd s' h = dt • (h • (s.u - s'.u) +
      (h ^ 2 / 2 - h0 * h) • (s.v - s'.v) + (h ^ 3 / 3 - (h0 + h1) * h ^ 2 / 2 + h0 * h1 * h) • (s.w - s'.w)) := by
    funext d
    simp only [vel3, Pi.sub_apply, Pi.add_apply, Pi.smul_apply, smul_eq_mul]; ring
  have b1 := comb3 _ _ _ 1 (s.u - s'.u) (s.v - s'.v) (s.w - s'.w) δ hδ hn.1 hn.2.1 hn.2.2 hs
  have b2 := comb3 _ _ _ 2 (s.u - s'.u) (s.v - s'.v) (s.w - s'.w) δ hδ hn.1 hn.2.1 hn.2.2 hd
  have c1 : ‖pos3 h0 h1 dt x xd s h - pos3 h0 h1 dt x xd s' h‖ ≤ dt ^ 2 * δ := by
    rw [e1, norm_smul, Real.norm_eq_abs, abs_of_nonneg (sq_nonneg dt)]
    rw [one_mul] at b1
    exact mul_le_mul_of_nonneg_left b1 (sq_nonneg _)
  have c2 : ‖vel3 h0 h1 dt xd s h - vel3 h0 h1 dt xd s' h‖ ≤ |dt| * (2 * δ) := by
    rw [e2, norm_smul, Real.norm_eq_abs]
    exact mul_le_mul_of_nonneg_left b2 (abs_nonneg _)
  calc (n : ℝ) * (α * ‖pos3 h0 h1 dt x xd s h - pos3 h0 h1 dt x xd s' h‖ + β * ‖vel3 h0 h1 dt xd s h - vel3 h0 h1 dt xd s' h‖)
      ≤ n * (α * (dt ^ 2 * δ) + β * (|dt| * (2 * δ))) := by gcongr
    _ = n * (α * dt ^ 2 + 2 * β * |dt|) * δ := by ring

/-- What is needed about the nodes and the right-hand side: a Lipschitz constant `κ` at each node. -/
structure Lip3 {n : ℕ} (F : ℝ → UVW n → Fin n → ℝ) (κ : ℝ) : Prop where
  nonneg : 0 ≤ κ
  l0 : ∀ s s' δ, 0 ≤ δ → Near s s' δ → ‖F g0 s - F g0 s'‖ ≤ κ * δ
  l1 : ∀ s s' δ, 0 ≤ δ → Near s s' δ → ‖F g1 s - F g1 s'‖ ≤ κ * δ
  l2 : ∀ s s' δ, 0 ≤ δ → Near s s' δ → ‖F g2 s - F g2 s'‖ ≤ κ * δ

theorem lip3 {n : ℕ} (sys : Sys n) (t dt : ℝ) (x xd : Fin n → ℝ) (α β : ℝ) (hα : 0 ≤ α) (hβ : 0 ≤ β)
    (hA : ∀ h, 0 ≤ h → h ≤ 1 → ∀ d j, |sys.A (t + dt * h) d j| ≤ α)
    (hB : ∀ h, 0 ≤ h → h ≤ 1 → ∀ d j, |sys.B (t + dt * h) d j| ≤ β) :
    Lip3 (F3 sys g0 g1 t dt x xd) (n * (α * dt ^ 2 + 2 * β * |dt|)) := by
  refine ⟨by positivity, ?_, ?_, ?_⟩ <;> intro s s' δ hδ hn <;>
    refine F3_lip sys g0 g1 t dt x xd _ α β hα hβ (hA _ ?_ ?_) (hB _ ?_ ?_) ?_ ?_ s s' δ hδ hn <;>
    norm_num [g0, g1, g2, abs_le, abs_of_nonneg, abs_of_nonpos, abs_of_pos, abs_of_neg]

section contraction
variable {n : ℕ} (sys : Sys n) (t dt : ℝ) (x xd : Fin n → ℝ) (κ : ℝ)

theorem ne10 : g1 ≠ g0 := by norm_num [g0, g1]
theorem ne20 : g2 ≠ g0 := by norm_num [g0, g2]
theorem ne21 : g2 ≠ g1 := by norm_num [g2, g1, g0]

/-- From a bound on the node values to a bound on the divided differences. -/
theorem dd_v (a : ℝ) (u v r : Fin n → ℝ) (h : ∀ d, u d + (g1 - g0) * v d = r d) (hr : ‖r - u‖ ≤ a) : ‖v‖ ≤ 2.6 * a := by
  have e : v = (1 / (g1 - g0)) • (r - u) := by
    funext d
    have := h d
    have : g1 - g0 ≠ 0 := sub_ne_zero.2 ne10
    simp only [Pi.smul_apply, Pi.sub_apply, smul_eq_mul]
    field_simp
    linear_combination h d
  rw [e, norm_smul, Real.norm_eq_abs]
  have ha : 0 ≤ a := (norm_nonneg _).trans hr
  have : |1 / (g1 - g0)| ≤ 2.6 := by norm_num [g0, g1, abs_le]
  gcongr

theorem dd_w (a b : ℝ) (u v w r : Fin n → ℝ) (h : ∀ d, u d + (g2 - g0) * (v d + (g2 - g1) * w d) = r d)
    (hr : ‖r - u‖ ≤ a) (hv : ‖v‖ ≤ b) : ‖w‖ ≤ 3.34 * a + 2.6 * b := by
  have e : w = (1 / ((g2 - g0) * (g2 - g1))) • (r - u) + (-(1 / (g2 - g1))) • v := by
    funext d
    have n1 : g2 - g0 ≠ 0 := sub_ne_zero.2 ne20
    have n2 : g2 - g1 ≠ 0 := sub_ne_zero.2 ne21
    simp only [Pi.smul_apply, Pi.sub_apply, Pi.add_apply, smul_eq_mul]
    field_simp
    linear_combination h d
  rw [e]
  refine (norm_add_le _ _).trans ?_
  rw [norm_smul, norm_smul, Real.norm_eq_abs, Real.norm_eq_abs]
  have ha : 0 ≤ a := (norm_nonneg _).trans hr
  have hb : 0 ≤ b := (norm_nonneg _).trans hv
  have c1 : |1 / ((g2 - g0) * (g2 - g1))| ≤ 3.34 := by norm_num [g0, g1, g2, abs_le]
  have c2 : |-(1 / (g2 - g1))| ≤ 2.6 := by norm_num [g0, g1, g2, abs_le]
  gcongr

/-- One iteration reduces the difference between two sets of coefficients by a factor `21 κ`. -/
theorem sweep3_contract (hL : Lip3 (F3 sys g0 g1 t dt x xd) κ) (hκ : κ ≤ 1 / 6) (s s' : UVW n) (δ : ℝ) (hδ : 0 ≤ δ)
    (hn : Near s s' δ) :
    Near (sweep3 sys g0 g1 g2 t dt x xd s) (sweep3 sys g0 g1 g2 t dt x xd s') (21 * κ * δ) := by
  set z := sweep3 sys g0 g1 g2 t dt x xd s with hz
  set z' := sweep3 sys g0 g1 g2 t dt x xd s' with hz'
  have hk := hL.nonneg
  have kd : 0 ≤ κ * δ := mul_nonneg hk hδ
  have kd6 : κ * δ ≤ 1 / 6 * δ := mul_le_mul_of_nonneg_right hκ hδ
  have bu : ‖z.u - z'.u‖ ≤ κ * δ := by
    rw [hz, hz', sweep3_u, sweep3_u]; exact hL.l0 s s' δ hδ hn
  have bv : ‖z.v - z'.v‖ ≤ 2.6 * (κ * δ + κ * δ) := by
    refine dd_v _ (z.u - z'.u) _ (F3 sys g0 g1 t dt x xd g1 ⟨z.u, s.v, s.w⟩ - F3 sys g0 g1 t dt x xd g1 ⟨z'.u, s'.v, s'.w⟩)
      (fun d => ?_) ?_
    · have h1 := sweep3_v sys g0 g1 g2 t dt x xd s ne10 d
      have h2 := sweep3_v sys g0 g1 g2 t dt x xd s' ne10 d
      simp only [← hz, ← hz'] at h1 h2
      simp only [Pi.sub_apply, ← h1, ← h2]; ring
    · refine (norm_sub_le _ _).trans (add_le_add (hL.l1 _ _ δ hδ ⟨?_, hn.2.1, hn.2.2⟩) bu)
      show ‖z.u - z'.u‖ ≤ δ
      linarith
  have bw : ‖z.w - z'.w‖ ≤ 3.34 * (κ * δ + κ * δ) + 2.6 * (2.6 * (κ * δ + κ * δ)) := by
    refine dd_w _ _ (z.u - z'.u) (z.v - z'.v) _
      (F3 sys g0 g1 t dt x xd g2 ⟨z.u, z.v, s.w⟩ - F3 sys g0 g1 t dt x xd g2 ⟨z'.u, z'.v, s'.w⟩) (fun d => ?_) ?_ bv
    · have h1 := sweep3_w sys g0 g1 g2 t dt x xd s ne20 ne21 d
      have h2 := sweep3_w sys g0 g1 g2 t dt x xd s' ne20 ne21 d
      simp only [← hz, ← hz'] at h1 h2
      simp only [Pi.sub_apply, ← h1, ← h2]; ring
    · refine (norm_sub_le _ _).trans (add_le_add (hL.l2 _ _ δ hδ ⟨?_, ?_, hn.2.2⟩) bu)
      · show ‖z.u - z'.u‖ ≤ δ
        linarith
      · show ‖z.v - z'.v‖ ≤ δ
        linarith
  exact ⟨by linarith, by linarith, by linarith⟩

/-- The change of the coefficients in one iteration is bounded by the residual of the equation. -/
theorem sweep3_change (hL : Lip3 (F3 sys g0 g1 t dt x xd) κ) (hκ : κ ≤ 1 / 6) (s : UVW n) (ε : ℝ)
    (e0 : ‖acc3 g0 g1 s g0 - F3 sys g0 g1 t dt x xd g0 s‖ ≤ ε)
    (e1 : ‖acc3 g0 g1 s g1 - F3 sys g0 g1 t dt x xd g1 s‖ ≤ ε)
    (e2 : ‖acc3 g0 g1 s g2 - F3 sys g0 g1 t dt x xd g2 s‖ ≤ ε) :
    Near (sweep3 sys g0 g1 g2 t dt x xd s) s (26 * ε) := by
  set z := sweep3 sys g0 g1 g2 t dt x xd s with hz
  have hk := hL.nonneg
  have hε : 0 ≤ ε := (norm_nonneg _).trans e0
  have kε : κ * ε ≤ 1 / 6 * ε := mul_le_mul_of_nonneg_right hκ hε
  have kε0 : 0 ≤ κ * ε := mul_nonneg hk hε
  have bu : ‖z.u - s.u‖ ≤ ε := by
    have e : acc3 g0 g1 s g0 = s.u := by funext d; simp [acc3]
    rw [e] at e0
    rw [hz, sweep3_u, norm_sub_rev]
    exact e0
  have bv : ‖z.v - s.v‖ ≤ 2.6 * ((κ * ε + ε) + ε) := by
    refine dd_v _ (z.u - s.u) _ ((F3 sys g0 g1 t dt x xd g1 ⟨z.u, s.v, s.w⟩ - F3 sys g0 g1 t dt x xd g1 s) -
      (acc3 g0 g1 s g1 - F3 sys g0 g1 t dt x xd g1 s)) (fun d => ?_) ?_
    · have h1 := sweep3_v sys g0 g1 g2 t dt x xd s ne10 d
      simp only [← hz] at h1
      simp only [Pi.sub_apply, ← h1, acc3]; ring
    · refine (norm_sub_le _ _).trans (add_le_add ((norm_sub_le _ _).trans (add_le_add (hL.l1 _ _ ε hε ?_) e1)) bu)
      refine ⟨bu, ?_, ?_⟩ <;> simpa using hε
  have bv6 : ‖z.v - s.v‖ ≤ 6 * ε := by linarith
  have bw : ‖z.w - s.w‖ ≤ 3.34 * ((κ * (6 * ε) + ε) + ε) + 2.6 * (6 * ε) := by
    refine dd_w _ _ (z.u - s.u) (z.v - s.v) _ ((F3 sys g0 g1 t dt x xd g2 ⟨z.u, z.v, s.w⟩ - F3 sys g0 g1 t dt x xd g2 s) -
      (acc3 g0 g1 s g2 - F3 sys g0 g1 t dt x xd g2 s)) (fun d => ?_) ?_ bv6
    · have h1 := sweep3_w sys g0 g1 g2 t dt x xd s ne20 ne21 d
      simp only [← hz] at h1
      simp only [Pi.sub_apply, ← h1, acc3]; ring
    · refine (norm_sub_le _ _).trans (add_le_add ((norm_sub_le _ _).trans
        (add_le_add (hL.l2 _ _ (6 * ε) (by linarith) ?_) e2)) bu)
      refine ⟨bu.trans (by linarith), bv6, ?_⟩
      simpa using hε
  exact ⟨by linarith, by linarith, by linarith⟩

/-- The residual of the equation after an iteration is bounded by the change of the coefficients. -/
theorem sweep3_residual (hL : Lip3 (F3 sys g0 g1 t dt x xd) κ) (s : UVW n) (δ : ℝ)
    (hn : Near (sweep3 sys g0 g1 g2 t dt x xd s) s δ) :
    let z := sweep3 sys g0 g1 g2 t dt x xd s
    ‖acc3 g0 g1 z g0 - F3 sys g0 g1 t dt x xd g0 z‖ ≤ κ * δ ∧ ‖acc3 g0 g1 z g1 - F3 sys g0 g1 t dt x xd g1 z‖ ≤ κ * δ ∧
      ‖acc3 g0 g1 z g2 - F3 sys g0 g1 t dt x xd g2 z‖ ≤ κ * δ := by
  intro z
  have hδ : 0 ≤ δ := (norm_nonneg _).trans hn.1
  have n1 : ‖s.u - z.u‖ ≤ δ := by rw [norm_sub_rev]; exact hn.1
  have n2 : ‖s.v - z.v‖ ≤ δ := by rw [norm_sub_rev]; exact hn.2.1
  have n3 : ‖s.w - z.w‖ ≤ δ := by rw [norm_sub_rev]; exact hn.2.2
  have z0 : ∀ y : Fin n → ℝ, ‖y - y‖ ≤ δ := fun y => by simpa using hδ
  refine ⟨?_, ?_, ?_⟩
  · have e : acc3 g0 g1 z g0 = F3 sys g0 g1 t dt x xd g0 s := by
      rw [← sweep3_u sys g0 g1 g2]; funext d; simp [acc3, z]
    rw [e]; exact hL.l0 _ _ δ hδ ⟨n1, n2, n3⟩
  · have e : acc3 g0 g1 z g1 = F3 sys g0 g1 t dt x xd g1 ⟨z.u, s.v, s.w⟩ := by
      funext d
      have := sweep3_v sys g0 g1 g2 t dt x xd s ne10 d
      simp only at this
      rw [← this]
      simp [acc3, z]
    rw [e]; exact hL.l1 _ _ δ hδ ⟨z0 _, n2, n3⟩
  · have e : acc3 g0 g1 z g2 = F3 sys g0 g1 t dt x xd g2 ⟨z.u, z.v, s.w⟩ := by
      funext d
      have := sweep3_w sys g0 g1 g2 t dt x xd s ne20 ne21 d
      simp only at this
      rw [← this]
      simp [acc3, z]
    rw [e]; exact hL.l2 _ _ δ hδ ⟨z0 _, z0 _, n3⟩

theorem iter3_change (hL : Lip3 (F3 sys g0 g1 t dt x xd) κ) (hκ : κ ≤ 1 / 6) (s : UVW n) (δ : ℝ) (hδ : 0 ≤ δ)
    (hn : Near (sweep3 sys g0 g1 g2 t dt x xd s) s δ) (k : ℕ) :
    Near ((sweep3 sys g0 g1 g2 t dt x xd)^[k + 1] s) ((sweep3 sys g0 g1 g2 t dt x xd)^[k] s) ((21 * κ) ^ k * δ) := by
  have hk := hL.nonneg
  induction k with
  | zero => simpa using hn
  | succ k ih =>
    rw [Function.iterate_succ_apply' _ (k + 1), Function.iterate_succ_apply' _ k]
    have := sweep3_contract sys t dt x xd κ hL hκ _ _ _ (by positivity) ih
    rw [Function.iterate_succ_apply'] at this
    rw [pow_succ']
    convert this using 1
    ring

end contraction

/-! ### Property C85 for `Ode2SolverGL3` -/

/-- C85 (GL3): initialisation.  After `init(stateNew, t0)`, `getSol` for every element of every
vector is the element of `stateNew` at the time `t0` and the motion with a constant velocity at
other times; an element index out of range raises an exception. -/
theorem C85_init3 (n m : ℕ) (s : Solver) (y : ℕ → ℝ) (t0 : ℝ) (hn : 0 < n) :
    let s' := init3 n m s y (some t0)
    s'.time = t0 ∧ (init3 n m s y none).time = s.time ∧
    (∀ i, i < 2 * n * m → getSol3 n m s' t0 i = some (y i)) ∧
    (∀ t vec (d : Fin n), vec < m → getSol3 n m s' t (vec * (2 * n) + d) =
      some (y (vec * (2 * n) + d) + (t - t0) * y (vec * (2 * n) + n + d))) ∧
    (∀ (s : Solver) t i, getSol3 n m s t i = none ↔ 2 * n * m ≤ i) := by
  have hb : ∀ vec (d : Fin n), vec < m → ∀ t,
      getSol3 n m (init3 n m s y (some t0)) t (vec * (2 * n) + d) =
        some (y (vec * (2 * n) + d) + (t - t0) * y (vec * (2 * n) + n + d)) ∧
      getSol3 n m (init3 n m s y (some t0)) t (vec * (2 * n) + n + d) = some (y (vec * (2 * n) + n + d)) := by
    intro vec d hv t
    have hd := d.2
    have ht := traj3 (n := n) (init3 n m s y (some t0)) vec hv t d
    rw [ht.1, ht.2, poly3_eval, poly3_deriv]
    have hbl := block_init 5 n m s y (some t0) (by norm_num) vec hv
    have e := fun c => congrFun (congrFun hbl c) d
    have e0 := e 0
    have e1 := e 1
    have e2 := e 2
    have e3 := e 3
    have e4 := e 4
    simp only [show ((0 : Fin 5) : ℕ) = 0 from rfl, show ((1 : Fin 5) : ℕ) = 1 from rfl, show ((2 : Fin 5) : ℕ) = 2 from rfl,
      show ((3 : Fin 5) : ℕ) = 3 from rfl, show ((4 : Fin 5) : ℕ) = 4 from rfl] at e0 e1 e2 e3 e4
    rw [if_pos (by omega)] at e0 e1
    rw [if_neg (by omega)] at e2 e3 e4
    unfold init3
    rw [e0, e1, e2, e3, e4]
    simp [init, Nat.add_assoc]
  refine ⟨rfl, rfl, fun i hi => ?_, fun t vec d hv => (hb vec d hv t).1, fun s t i => getSol_range _ _ _ _ _ _ _ _ hn⟩
  obtain ⟨vec, hv, d, rfl | rfl⟩ := idx_cases hn hi
  · rw [(hb vec d hv t0).1]; simp
  · rw [(hb vec d hv t0).2]

/-- C85 (GL3): dense output.  Before and after a step, for every vector, `getSol` reports a
polynomial of degree at most 4 in time for each component of the position, and its derivative for the
same component of the velocity.  After the step the polynomial starts from the position and
velocity reported before the step, and the current time is advanced by `dt`. -/
theorem C85_dense3 {n m : ℕ} (sys : Sys n) (s : Solver) (dt : ℝ) (hdt : dt ≠ 0) (vec : ℕ) (hv : vec < m) :
    (doStep3 sys m s dt).time = s.time + dt ∧
    ∃ P P' : Fin n → ℝ[X], Traj (getSol3 n m s) vec P ∧ Traj (getSol3 n m (doStep3 sys m s dt)) vec P' ∧
      ∀ d, (P d).natDegree ≤ 4 ∧ (P' d).natDegree ≤ 4 ∧ (P' d).eval s.time = (P d).eval s.time ∧
        (derivative (P' d)).eval s.time = (derivative (P d)).eval s.time := by
  refine ⟨rfl, _, _, traj3 s vec hv, traj3 (doStep3 sys m s dt) vec hv, fun d => ⟨poly3_degree _ _ _, poly3_degree _ _ _, ?_, ?_⟩⟩
  · have hb : block 5 n (doStep3 sys m s dt).mem vec = stepBlk3g sys g0 g1 g2 s.newstep s.time dt (block 5 n s.mem vec) := by
      unfold doStep3 doStep; rw [block_stepAll, if_pos hv]
    rw [hb, show (doStep3 sys m s dt).time = s.time + dt from rfl]
    have h := finish3_pos g0 g1 g2 dt s.time (block 5 n s.mem vec)
      ((sweep3 sys g0 g1 g2 s.time dt (block 5 n s.mem vec 0) (block 5 n s.mem vec 1))^[if s.newstep then 6 else 3]
        (predict3 g0 g1 dt (block 5 n s.mem vec))) d hdt 0
    rw [mul_zero, add_zero] at h
    refine h.trans ?_
    rw [poly3_eval]; simp [pos3]
  · have hb : block 5 n (doStep3 sys m s dt).mem vec = stepBlk3g sys g0 g1 g2 s.newstep s.time dt (block 5 n s.mem vec) := by
      unfold doStep3 doStep; rw [block_stepAll, if_pos hv]
    rw [hb, show (doStep3 sys m s dt).time = s.time + dt from rfl]
    have h := finish3_vel g0 g1 g2 dt s.time (block 5 n s.mem vec)
      ((sweep3 sys g0 g1 g2 s.time dt (block 5 n s.mem vec 0) (block 5 n s.mem vec 1))^[if s.newstep then 6 else 3]
        (predict3 g0 g1 dt (block 5 n s.mem vec))) d hdt 0
    rw [mul_zero, add_zero] at h
    refine h.trans ?_
    rw [poly3_deriv]; simp [vel3]

/-- C85 (GL3): the differential equation at the nodes.  Let `P`, `P'` be the curves reported before
and after a step for the vector `vec`, `κ = n (α dt² + 2 β |dt|)` with `α`, `β` bounds on the elements
of the matrices `A(t)`, `B(t)` during the step, `κ ≤ 1/6`.  If the curve `P`, extrapolated to the
three nodes of the new step, satisfies the differential equation up to an error `ε`, then
the new curve `P'` satisfies it at the nodes up to `26 κ (21 κ)^(N-1) ε`, where `N` is 6 for the first
step after initialisation and 3 for subsequent ones. -/
theorem C85_residual3 {n m : ℕ} (sys : Sys n) (s : Solver) (dt : ℝ) (hdt : dt ≠ 0) (vec : ℕ) (hv : vec < m)
    (P P' : Fin n → ℝ[X]) (hP : Traj (getSol3 n m s) vec P) (hP' : Traj (getSol3 n m (doStep3 sys m s dt)) vec P')
    (α β ε : ℝ) (hα : 0 ≤ α) (hβ : 0 ≤ β) (hε : 0 ≤ ε)
    (hA : ∀ h, 0 ≤ h → h ≤ 1 → ∀ d j, |sys.A (s.time + dt * h) d j| ≤ α)
    (hB : ∀ h, 0 ≤ h → h ≤ 1 → ∀ d j, |sys.B (s.time + dt * h) d j| ≤ β)
    (κ : ℝ) (hκdef : κ = n * (α * dt ^ 2 + 2 * β * |dt|)) (hκ : κ ≤ 1 / 6)
    (hres : ∀ h ∈ ({g0, g1, g2} : Set ℝ), ∀ d, |defect sys P (s.time + dt * h) d| ≤ ε) :
    ∀ h ∈ ({g0, g1, g2} : Set ℝ), ∀ d,
      |defect sys P' (s.time + dt * h) d| ≤ 26 * κ * (21 * κ) ^ ((if s.newstep then 6 else 3) - 1) * ε := by
  subst hκdef
  obtain rfl := hP.unique (traj3 s vec hv)
  obtain rfl := hP'.unique (traj3 (doStep3 sys m s dt) vec hv)
  have hb : block 5 n (doStep3 sys m s dt).mem vec = stepBlk3g sys g0 g1 g2 s.newstep s.time dt (block 5 n s.mem vec) := by
    unfold doStep3 doStep; rw [block_stepAll, if_pos hv]
  rw [hb, show (doStep3 sys m s dt).time = s.time + dt from rfl]
  set b := block 5 n s.mem vec
  set κ : ℝ := n * (α * dt ^ 2 + 2 * β * |dt|)
  have hL := lip3 sys s.time dt (b 0) (b 1) α β hα hβ hA hB
  have hk := hL.nonneg
  have h1 : ∀ h ∈ ({g0, g1, g2} : Set ℝ),
      ‖acc3 g0 g1 (predict3 g0 g1 dt b) h - F3 sys g0 g1 s.time dt (b 0) (b 1) h (predict3 g0 g1 dt b)‖ ≤ ε := by
    intro h hh
    rw [pi_norm_le_iff_of_nonneg hε]
    intro d
    rw [Real.norm_eq_abs, Pi.sub_apply, ← defect_eq3 sys g0 g1 s.time dt h (poly3 b s.time) (b 0) (b 1) _
      (fun d => predict3_pos _ _ _ _ _ _ _) (fun d => predict3_vel _ _ _ _ _ _ _) (fun d => predict3_acc _ _ _ _ _ _ _)]
    exact hres h hh d
  have hc := sweep3_change sys s.time dt (b 0) (b 1) κ hL hκ (predict3 g0 g1 dt b) ε (h1 _ (by simp)) (h1 _ (by simp)) (h1 _ (by simp))
  obtain ⟨k, hk1⟩ : ∃ k, (if s.newstep then 6 else 3) = k + 1 := ⟨(if s.newstep then 6 else 3) - 1, by split <;> rfl⟩
  rw [stepBlk3g, hk1, Nat.add_sub_cancel]
  have hi := iter3_change sys s.time dt (b 0) (b 1) κ hL hκ _ _ (by positivity) hc k
  rw [Function.iterate_succ_apply'] at hi
  have hr := sweep3_residual sys s.time dt (b 0) (b 1) κ hL _ _ hi
  rw [← Function.iterate_succ_apply' (f := sweep3 sys g0 g1 g2 s.time dt (b 0) (b 1))] at hr
  intro h hh d
  rw [defect_eq3 sys g0 g1 s.time dt h _ (b 0) (b 1) _ (fun d => finish3_pos _ _ _ _ _ _ _ _ hdt _)
    (fun d => finish3_vel _ _ _ _ _ _ _ _ hdt _) (fun d => finish3_acc _ _ _ _ _ _ _ _ hdt _)]
  have hfin : ‖acc3 g0 g1 ((sweep3 sys g0 g1 g2 s.time dt (b 0) (b 1))^[k + 1] (predict3 g0 g1 dt b)) h -
      F3 sys g0 g1 s.time dt (b 0) (b 1) h ((sweep3 sys g0 g1 g2 s.time dt (b 0) (b 1))^[k + 1] (predict3 g0 g1 dt b))‖ ≤
      κ * ((21 * κ) ^ k * (26 * ε)) := by
    simp only [Set.mem_insert_iff, Set.mem_singleton_iff] at hh
    rcases hh with rfl | rfl | rfl
    · exact hr.1
    · exact hr.2.1
    · exact hr.2.2
  have := (norm_le_pi_norm _ d).trans hfin
  rw [Real.norm_eq_abs, Pi.sub_apply] at this
  refine this.trans (le_of_eq ?_)
  ring

/-- C85 (GL3): exactness.  If the polynomial curve reported before the step satisfies the
differential equation at the three nodes of the new step, it is continued by the step without any
change (for any nonzero `dt`, no matter how large). -/
theorem C85_exact3 {n m : ℕ} (sys : Sys n) (s : Solver) (dt : ℝ) (hdt : dt ≠ 0) (vec : ℕ) (hv : vec < m)
    (P : Fin n → ℝ[X]) (hP : Traj (getSol3 n m s) vec P)
    (hres : ∀ h ∈ ({g0, g1, g2} : Set ℝ), ∀ d, defect sys P (s.time + dt * h) d = 0) :
    Traj (getSol3 n m (doStep3 sys m s dt)) vec P := by
  obtain rfl := hP.unique (traj3 s vec hv)
  have ht := traj3 (n := n) (m := m) (doStep3 sys m s dt) vec hv
  have hb : block 5 n (doStep3 sys m s dt).mem vec = stepBlk3g sys g0 g1 g2 s.newstep s.time dt (block 5 n s.mem vec) := by
    unfold doStep3 doStep; rw [block_stepAll, if_pos hv]
  rw [hb, show (doStep3 sys m s dt).time = s.time + dt from rfl] at ht
  set b := block 5 n s.mem vec
  have h1 : ∀ h ∈ ({g0, g1, g2} : Set ℝ), ∀ d,
      acc3 g0 g1 (predict3 g0 g1 dt b) h d = F3 sys g0 g1 s.time dt (b 0) (b 1) h (predict3 g0 g1 dt b) d := by
    intro h hh d
    have := hres h hh d
    rw [defect_eq3 sys g0 g1 s.time dt h (poly3 b s.time) (b 0) (b 1) _
      (fun d => predict3_pos _ _ _ _ _ _ _) (fun d => predict3_vel _ _ _ _ _ _ _) (fun d => predict3_acc _ _ _ _ _ _ _)] at this
    exact sub_eq_zero.1 this
  have hf := sweep3_fixed sys g0 g1 g2 s.time dt (b 0) (b 1) (predict3 g0 g1 dt b) ne10 ne20 ne21
    (h1 _ (by simp)) (h1 _ (by simp)) (h1 _ (by simp))
  have e : stepBlk3g sys g0 g1 g2 s.newstep s.time dt b = finish3 g0 g1 g2 dt b (predict3 g0 g1 dt b) := by
    unfold stepBlk3g
    rw [Function.iterate_fixed hf]
  rw [e] at ht
  have : poly3 (finish3 g0 g1 g2 dt b (predict3 g0 g1 dt b)) (s.time + dt) = poly3 b s.time := by
    funext d
    refine Polynomial.funext fun t => ?_
    have et : t = s.time + dt * ((t - s.time) / dt) := by field_simp; ring
    rw [et, finish3_pos _ _ _ _ _ _ _ _ hdt, predict3_pos]
  rwa [this] at ht

/-- One step for a single vector is linear in its data. -/
theorem stepBlk3_linear {n : ℕ} (sys : Sys n) (h0 h1 h2 : ℝ) (new : Bool) (t dt a : ℝ) (b b' : Blk 5 n) :
    stepBlk3g sys h0 h1 h2 new t dt (a • b + b') =
      a • stepBlk3g sys h0 h1 h2 new t dt b + stepBlk3g sys h0 h1 h2 new t dt b' := by
  have hpos : ∀ (x x' xd xd' : Fin n → ℝ) (s s' : UVW n) (h : ℝ),
      pos3 h0 h1 dt (a • x + x') (a • xd + xd') ⟨a • s.u + s'.u, a • s.v + s'.v, a • s.w + s'.w⟩ h =
        a • pos3 h0 h1 dt x xd s h + pos3 h0 h1 dt x' xd' s' h := by
    intros; funext d; simp only [pos3, Pi.add_apply, Pi.smul_apply, smul_eq_mul]; ring
  have hvel : ∀ (xd xd' : Fin n → ℝ) (s s' : UVW n) (h : ℝ),
      vel3 h0 h1 dt (a • xd + xd') ⟨a • s.u + s'.u, a • s.v + s'.v, a • s.w + s'.w⟩ h =
        a • vel3 h0 h1 dt xd s h + vel3 h0 h1 dt xd' s' h := by
    intros; funext d; simp only [vel3, Pi.add_apply, Pi.smul_apply, smul_eq_mul]; ring
  have hF : ∀ (c : C3) (A B : Fin n → Fin n → ℝ) (h su sv sw du dv dw : ℝ) (x x' xd xd' u u' v v' w w' : Fin n → ℝ),
      nodeRhs3 A B h dt su sv sw du dv dw (a • x + x') (a • xd + xd') (a • u + u') (a • v + v') (a • w + w') =
        a • nodeRhs3 A B h dt su sv sw du dv dw x xd u v w + nodeRhs3 A B h dt su sv sw du dv dw x' xd' u' v' w' := by
    intros
    unfold nodeRhs3
    rw [← rhs_smul, ← rhs_add]
    congr 1 <;> funext d <;> simp only [Pi.add_apply, Pi.smul_apply, smul_eq_mul] <;> ring
  have hsw : ∀ (x x' xd xd' : Fin n → ℝ) (s s' : UVW n),
      sweep3 sys h0 h1 h2 t dt (a • x + x') (a • xd + xd') ⟨a • s.u + s'.u, a • s.v + s'.v, a • s.w + s'.w⟩ =
        ⟨a • (sweep3 sys h0 h1 h2 t dt x xd s).u + (sweep3 sys h0 h1 h2 t dt x' xd' s').u,
         a • (sweep3 sys h0 h1 h2 t dt x xd s).v + (sweep3 sys h0 h1 h2 t dt x' xd' s').v,
         a • (sweep3 sys h0 h1 h2 t dt x xd s).w + (sweep3 sys h0 h1 h2 t dt x' xd' s').w⟩ := by
    intro x x' xd xd' s s'
    have e1 : ∀ (q r y z : Fin n → ℝ) (k : ℝ), (fun d => ((a • q + r) d - (a • y + z) d) * k) =
        a • (fun d => (q d - y d) * k) + (fun d => (r d - z d) * k) := by
      intros; funext d; simp only [Pi.add_apply, Pi.smul_apply, smul_eq_mul]; ring
    simp only [sweep3]
    rw [hF (consts3 h0 h1 h2), hF (consts3 h0 h1 h2), e1, hF (consts3 h0 h1 h2)]
    congr 1
    funext d
    simp only [Pi.add_apply, Pi.smul_apply, smul_eq_mul]
    ring
  have hit : ∀ (k : ℕ) (x x' xd xd' : Fin n → ℝ) (s s' : UVW n),
      (sweep3 sys h0 h1 h2 t dt (a • x + x') (a • xd + xd'))^[k] ⟨a • s.u + s'.u, a • s.v + s'.v, a • s.w + s'.w⟩ =
        ⟨a • ((sweep3 sys h0 h1 h2 t dt x xd)^[k] s).u + ((sweep3 sys h0 h1 h2 t dt x' xd')^[k] s').u,
         a • ((sweep3 sys h0 h1 h2 t dt x xd)^[k] s).v + ((sweep3 sys h0 h1 h2 t dt x' xd')^[k] s').v,
         a • ((sweep3 sys h0 h1 h2 t dt x xd)^[k] s).w + ((sweep3 sys h0 h1 h2 t dt x' xd')^[k] s').w⟩ := by
    intro k x x' xd xd' s s'
    induction k generalizing s s' with
    | zero => rfl
    | succ k ih =>
      rw [Function.iterate_succ_apply, Function.iterate_succ_apply, Function.iterate_succ_apply, hsw, ih]
  have hpr : predict3 h0 h1 dt (a • b + b') =
      ⟨a • (predict3 h0 h1 dt b).u + (predict3 h0 h1 dt b').u, a • (predict3 h0 h1 dt b).v + (predict3 h0 h1 dt b').v,
       a • (predict3 h0 h1 dt b).w + (predict3 h0 h1 dt b').w⟩ := by
    simp only [predict3, UVW.mk.injEq]
    refine ⟨?_, ?_, ?_⟩ <;> funext d <;> simp only [Pi.add_apply, Pi.smul_apply, smul_eq_mul] <;> ring
  unfold stepBlk3g
  rw [hpr, show (a • b + b') 0 = a • b 0 + b' 0 from rfl, show (a • b + b') 1 = a • b 1 + b' 1 from rfl, hit]
  funext c d
  fin_cases c <;> simp [finish3, consts3] <;> ring

/-- C85 (GL3): superposition.  If the solver is initialised with the vectors `a y + y'`, then after
any sequence of steps `getSol` returns `a` times the value that would be obtained from `y` plus the
value that would be obtained from `y'`, at any time and for every element. -/
theorem C85_linear3 {n m : ℕ} (sys : Sys n) (s : Solver) (a t0 : ℝ) (y y' : ℕ → ℝ) (dts : List ℝ) (hn : 0 < n)
    (t : ℝ) (i : ℕ) (hi : i < 2 * n * m) :
    ∃ z z', getSol3 n m (dts.foldl (doStep3 sys m) (init3 n m s y (some t0))) t i = some z ∧
      getSol3 n m (dts.foldl (doStep3 sys m) (init3 n m s y' (some t0))) t i = some z' ∧
      getSol3 n m (dts.foldl (doStep3 sys m) (init3 n m s (fun k => a * y k + y' k) (some t0))) t i = some (a * z + z') := by
  have hrun : ∀ q : ℕ → ℝ, ∀ vec, vec < m →
      Traj (getSol3 n m (dts.foldl (doStep3 sys m) (init3 n m s q (some t0)))) vec
        (poly3 (runBlk (stepBlk3g sys g0 g1 g2) dts true t0
          (fun c d => if c.1 * n + d.1 < 2 * n then q (vec * (2 * n) + (c.1 * n + d.1)) else 0)) (t0 + dts.sum)) := by
    intro q vec hv
    have := traj3 (n := n) (m := m) (dts.foldl (doStep3 sys m) (init3 n m s q (some t0))) vec hv
    rw [show doStep3 sys m = doStep 5 n m (stepBlk3g sys g0 g1 g2) from rfl, block_run _ _ _ _ _ _ _ hv, time_run,
      init3, block_init _ _ _ _ _ _ (by norm_num) _ hv] at this
    exact this
  have hlin : ∀ vec, runBlk (stepBlk3g sys g0 g1 g2) dts true t0
        (fun c d => if c.1 * n + d.1 < 2 * n then a * y (vec * (2 * n) + (c.1 * n + d.1)) + y' (vec * (2 * n) + (c.1 * n + d.1)) else 0) =
      a • runBlk (stepBlk3g sys g0 g1 g2) dts true t0
        (fun c d => if c.1 * n + d.1 < 2 * n then y (vec * (2 * n) + (c.1 * n + d.1)) else 0) +
      runBlk (stepBlk3g sys g0 g1 g2) dts true t0
        (fun c d => if c.1 * n + d.1 < 2 * n then y' (vec * (2 * n) + (c.1 * n + d.1)) else 0) := by
    intro vec
    rw [← runBlk_linear _ (fun new t dt a b b' => stepBlk3_linear sys g0 g1 g2 new t dt a b b')]
    congr 1
    funext c d
    simp only [Pi.add_apply, Pi.smul_apply, smul_eq_mul]
    split <;> simp
  obtain ⟨vec, hv, d, rfl | rfl⟩ := idx_cases hn hi
  · refine ⟨_, _, (hrun y vec hv t d).1, (hrun y' vec hv t d).1, ?_⟩
    rw [(hrun _ vec hv t d).1, hlin, poly3_eval, poly3_eval, poly3_eval]
    simp only [Pi.add_apply, Pi.smul_apply, smul_eq_mul]
    congr 1; ring
  · refine ⟨_, _, (hrun y vec hv t d).2, (hrun y' vec hv t d).2, ?_⟩
    rw [(hrun _ vec hv t d).2, hlin, poly3_deriv, poly3_deriv, poly3_deriv]
    simp only [Pi.add_apply, Pi.smul_apply, smul_eq_mul]
    congr 1; ring

/-- C85 (GL3): independence of vectors.  The values reported for one of `m` vectors after any sequence
of steps are the same as if this vector alone were evolved by a solver with `numVectors = 1`. -/
theorem C85_indep3 {n m : ℕ} (sys : Sys n) (s s1 : Solver) (t0 : ℝ) (y : ℕ → ℝ) (dts : List ℝ) (vec : ℕ) (hv : vec < m)
    (t : ℝ) (i : ℕ) (hi : i < 2 * n) :
    getSol3 n m (dts.foldl (doStep3 sys m) (init3 n m s y (some t0))) t (vec * (2 * n) + i) =
      getSol3 n 1 (dts.foldl (doStep3 sys 1) (init3 n 1 s1 (fun k => y (vec * (2 * n) + k)) (some t0))) t i := by
  have hn : 0 < n := by omega
  have hrun : ∀ (m : ℕ) (s : Solver) (q : ℕ → ℝ) (vec : ℕ), vec < m →
      Traj (getSol3 n m (dts.foldl (doStep3 sys m) (init3 n m s q (some t0)))) vec
        (poly3 (runBlk (stepBlk3g sys g0 g1 g2) dts true t0
          (fun c d => if c.1 * n + d.1 < 2 * n then q (vec * (2 * n) + (c.1 * n + d.1)) else 0)) (t0 + dts.sum)) := by
    intro m s q vec hv
    have := traj3 (n := n) (m := m) (dts.foldl (doStep3 sys m) (init3 n m s q (some t0))) vec hv
    rw [show doStep3 sys m = doStep 5 n m (stepBlk3g sys g0 g1 g2) from rfl, block_run _ _ _ _ _ _ _ hv, time_run,
      init3, block_init _ _ _ _ _ _ (by norm_num) _ hv] at this
    exact this
  have h1 := hrun m s y vec hv
  have h2 := hrun 1 s1 (fun k => y (vec * (2 * n) + k)) 0 (by norm_num)
  obtain ⟨v0, hv0, d, hd⟩ := idx_cases (m := 1) hn (show i < 2 * n * 1 by omega)
  obtain rfl : v0 = 0 := by omega
  simp only [Nat.zero_mul, Nat.zero_add] at h2 hd
  rcases hd with rfl | rfl
  · have := (h2 t d).1
    rw [(h1 t d).1]
    simp only [Nat.zero_mul, Nat.zero_add] at this
    rw [this]
  · have := (h2 t d).2
    rw [← Nat.add_assoc, (h1 t d).2]
    simp only [Nat.zero_mul, Nat.zero_add] at this
    rw [this]

/-- The nodes are those of the Gauss-Legendre quadrature, i.e. the roots of
`20 h³ - 30 h² + 12 h - 1`, up to an error of order 1e-15 (`0.5` is an exact root). -/
theorem C85_nodes3 : |20 * g0 ^ 3 - 30 * g0 ^ 2 + 12 * g0 - 1| < 1e-14 ∧ 20 * g1 ^ 3 - 30 * g1 ^ 2 + 12 * g1 - 1 = 0 ∧
    |20 * g2 ^ 3 - 30 * g2 ^ 2 + 12 * g2 - 1| < 1e-14 := by
  norm_num [g0, g1, g2, abs_lt]

/-! Concrete instances. -/

/-- `x'' = 12 x / t²` (with the solution `x = t⁴`) in one dimension. -/
noncomputable def exSys : Sys 1 := ⟨fun t _ _ => 12 / t ^ 2, fun _ _ _ => 0⟩

/-- A solver holding the solution `t⁴` at `t = 1`: position, velocity and the three coefficients. -/
noncomputable def exSolver : Solver := ⟨fun k => if k = 0 then 1 else if k = 1 then 4 else if k = 2 then 6 else if k = 3 then 4 else 1, 1, false⟩

example : Traj (getSol3 1 1 (doStep3 exSys 1 exSolver 3)) 0 (fun _ : Fin 1 => (X ^ 4 : ℝ[X])) := by
  have hP : Traj (getSol3 1 1 exSolver) 0 (fun _ : Fin 1 => (X ^ 4 : ℝ[X])) := by
    have h := traj3 (n := 1) (m := 1) exSolver 0 (by norm_num)
    convert h using 1
    funext d
    refine Polynomial.funext fun t => ?_
    rw [poly3_eval]
    have : d = 0 := Subsingleton.elim _ _
    subst this
    simp [block, exSolver]; ring
  refine C85_exact3 exSys exSolver 3 (by norm_num) 0 (by norm_num) _ hP fun h hh d => ?_
  have hpos : 0 < h := by
    simp only [Set.mem_insert_iff, Set.mem_singleton_iff] at hh
    rcases hh with rfl | rfl | rfl <;> norm_num [g0, g1, g2]
  have : (1 + 3 * h) ≠ 0 := by positivity
  simp only [defect, exSys, exSolver, Finset.univ_unique, Finset.sum_singleton, derivative_X_pow, eval_pow, eval_X]
  simp [derivative_mul]
  field_simp
  ring

/-- The harmonic oscillator `x'' = -x`. -/
noncomputable def oscSys : Sys 1 := ⟨fun _ _ _ => -1, fun _ _ _ => 0⟩

/-- The harmonic oscillator started from `x = 1, x' = 0` with the step 0.1: the residual of the
equation at the nodes after the first step is at most `26·0.01·0.21⁵ < 1.1e-4`. -/
example (P' : Fin 1 → ℝ[X])
    (hP' : Traj (getSol3 1 1 (doStep3 oscSys 1
      (init3 1 1 ⟨fun _ => 0, 0, true⟩ (fun k => if k = 0 then 1 else 0) (some 0)) 0.1)) 0 P') :
    |defect oscSys P' (0 + 0.1 * g1) 0| ≤ 1.1e-4 := by
  set s0 := init3 1 1 ⟨fun _ => 0, 0, true⟩ (fun k => if k = 0 then (1 : ℝ) else 0) (some 0) with hs0
  have hP : Traj (getSol3 1 1 s0) 0 (fun _ : Fin 1 => (1 : ℝ[X])) := by
    have h := traj3 (n := 1) (m := 1) s0 0 (by norm_num)
    convert h using 1
    funext d
    refine Polynomial.funext fun t => ?_
    rw [poly3_eval]
    have : d = 0 := Subsingleton.elim _ _
    subst this
    rw [hs0, init3, block_init _ _ _ _ _ _ (by norm_num) _ (by norm_num)]
    simp
  have h := C85_residual3 (n := 1) (m := 1) oscSys s0 0.1 (by norm_num) 0 (by norm_num) _ P' hP hP'
    1 0 1 (by norm_num) (by norm_num) (by norm_num) (by intros; norm_num [oscSys]) (by intros; norm_num [oscSys]) 0.01 (by norm_num) (by norm_num)
    (fun h _ d => by simp [defect, oscSys]) g1 (by simp) 0
  refine h.trans ?_
  rw [show s0.newstep = true from rfl]
  norm_num

end Verif.Ode.GL
