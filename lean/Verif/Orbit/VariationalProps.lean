import Verif.Orbit.Variational
import Mathlib.Tactic

/-! # C121: deviation vectors -/

namespace Verif.Orbit.Variational
open Real Verif.Coord
noncomputable section

/-- product of a 3x3 matrix and a vector -/
def mulVec3 (a : (ℝ × ℝ × ℝ) × (ℝ × ℝ × ℝ) × (ℝ × ℝ × ℝ)) (x y z : ℝ) : ℝ × ℝ × ℝ :=
  (a.1.1 * x + a.1.2.1 * y + a.1.2.2 * z, a.2.1.1 * x + a.2.1.2.1 * y + a.2.1.2.2 * z, a.2.2.1 * x + a.2.2.2.1 * y + a.2.2.2.2 * z)

/-- components of a vector in the frame rotated by `f` about the z axis -/
def rot (f : ℝ) (v : ℝ × ℝ × ℝ) : ℝ × ℝ × ℝ := (v.1 * cos f + v.2.1 * sin f, v.2.1 * cos f - v.1 * sin f, v.2.2)

theorem ca_eq (Omega t : ℝ) : (if Omega ≠ 0 then cos (Omega * t) else 1) = cos (Omega * t) := by
  split_ifs with h
  · rfl
  · rw [not_not] at h; simp [h]

theorem sa_eq (Omega t : ℝ) : (if Omega ≠ 0 then sin (Omega * t) else 0) = sin (Omega * t) := by
  split_ifs with h
  · rfl
  · rw [not_not] at h; simp [h]

/-- **C121** the right-hand side of the equation, seen in the rotating frame, is minus the Hessian times the deviation seen in the rotating frame -/
theorem C121_rhs (Omega t : ℝ) (h : HessCar) (x y z : ℝ) :
    let r := rot (Omega * t) (x, y, z)
    rot (Omega * t) (mulVec3 (eval Omega t h) x y z) =
      (-(h.dx2 * r.1 + h.dxdy * r.2.1 + h.dxdz * r.2.2), -(h.dxdy * r.1 + h.dy2 * r.2.1 + h.dydz * r.2.2),
       -(h.dxdz * r.1 + h.dydz * r.2.1 + h.dz2 * r.2.2)) := by
  have e := sin_sq_add_cos_sq (Omega * t)
  simp only [rot, mulVec3, eval, ca_eq, sa_eq, Prod.mk.injEq]
  generalize sin (Omega * t) = s at *
  generalize cos (Omega * t) = c at *
  refine ⟨?_, ?_, ?_⟩
  · linear_combination (-(h.dx2 * (x * c + y * s)) - h.dxdy * (y * c - x * s) - h.dxdz * z) * e
  · linear_combination (-(h.dxdy * (x * c + y * s)) - h.dy2 * (y * c - x * s) - h.dydz * z) * e
  · ring

/-- **C121** The stored vectors satisfy the variational equations in the rotating frame, d(Dx)/dt = Dv - Omega×Dx,
d(Dv)/dt = -hess Dx - Omega×Dv, if the vectors in the solver satisfy the equation whose right-hand side is `eval`. -/
theorem C121_equation (Omega mul t : ℝ) (h : HessCar) (d : ℝ → V6)
    (hx : HasDerivAt (fun t => d t 0) (d t 3) t) (hy : HasDerivAt (fun t => d t 1) (d t 4) t) (hz : HasDerivAt (fun t => d t 2) (d t 5) t)
    (hu : HasDerivAt (fun t => d t 3) (mulVec3 (eval Omega t h) (d t 0) (d t 1) (d t 2)).1 t)
    (hv : HasDerivAt (fun t => d t 4) (mulVec3 (eval Omega t h) (d t 0) (d t 1) (d t 2)).2.1 t)
    (hw : HasDerivAt (fun t => d t 5) (mulVec3 (eval Omega t h) (d t 0) (d t 1) (d t 2)).2.2 t) :
    let o := fun t => output Omega t mul (d t)
    HasDerivAt (fun t => o t 0) (o t 3 + Omega * o t 1) t ∧ HasDerivAt (fun t => o t 1) (o t 4 - Omega * o t 0) t ∧
    HasDerivAt (fun t => o t 2) (o t 5) t ∧
    HasDerivAt (fun t => o t 3) (-(h.dx2 * o t 0 + h.dxdy * o t 1 + h.dxdz * o t 2) + Omega * o t 4) t ∧
    HasDerivAt (fun t => o t 4) (-(h.dxdy * o t 0 + h.dy2 * o t 1 + h.dydz * o t 2) - Omega * o t 3) t ∧
    HasDerivAt (fun t => o t 5) (-(h.dxdz * o t 0 + h.dydz * o t 1 + h.dz2 * o t 2)) t := by
  intro o
  have hO : HasDerivAt (fun t : ℝ => Omega * t) Omega t := by simpa using (hasDerivAt_id t).const_mul Omega
  have hc := hO.cos
  have hs := hO.sin
  have R := C121_rhs Omega t h (d t 0) (d t 1) (d t 2)
  simp only [rot, Prod.mk.injEq] at R
  obtain ⟨r1, r2, r3⟩ := R
  simp only [o, output, ca_eq, sa_eq, Matrix.cons_val]
  refine ⟨?_, ?_, hz.mul_const mul, ?_, ?_, ?_⟩
  · exact (((hx.mul hc).add (hy.mul hs)).mul_const mul).congr_deriv (by ring)
  · exact (((hy.mul hc).sub (hx.mul hs)).mul_const mul).congr_deriv (by ring)
  · exact (((hu.mul hc).add (hv.mul hs)).mul_const mul).congr_deriv (by linear_combination mul * r1)
  · exact (((hv.mul hc).sub (hu.mul hs)).mul_const mul).congr_deriv (by linear_combination mul * r2)
  · exact (hw.mul_const mul).congr_deriv (by linear_combination mul * r3)

/-- **C121** the first stored set of vectors is the identity matrix -/
theorem C121_initial (Omega t0 : ℝ) (v i : Fin 6) : output Omega t0 1 (initVectors Omega t0 v) i = if v = i then 1 else 0 := by
  have e := sin_sq_add_cos_sq (Omega * t0)
  simp only [output, ca_eq, sa_eq, initVectors]
  fin_cases v <;> fin_cases i <;> simp <;> first | linear_combination e | linear_combination -e | ring

theorem logMagnitude_smul (x : V6) (a : ℝ) (hx : x ≠ 0) : logMagnitude (exp a • x) = a + logMagnitude x := by
  have h : ∑ i, x i ^ 2 ≠ 0 := by
    intro h
    apply hx
    funext i
    have := (Finset.sum_eq_zero_iff_of_nonneg fun i _ => sq_nonneg (x i)).mp h i (Finset.mem_univ i)
    simpa using this
  simp only [logMagnitude, Pi.smul_apply, smul_eq_mul, mul_pow]
  rw [← Finset.mul_sum, log_mul (by positivity) h, log_pow, log_exp]
  push_cast
  ring

theorem maxLog_smul {k : ℕ} (dev : Fin (k + 1) → V6) (a : ℝ) (h : ∀ v, dev v ≠ 0) : maxLog (fun v => exp a • dev v) = a + maxLog dev := by
  have e : (fun v => logMagnitude (exp a • dev v)) = fun v => a + logMagnitude (dev v) := funext fun v => logMagnitude_smul _ a (h v)
  simp only [maxLog, e]
  apply le_antisymm
  · apply Finset.sup'_le
    intro v hv
    have := Finset.le_sup' (fun v => logMagnitude (dev v)) hv
    linarith
  · have : Finset.univ.sup' Finset.univ_nonempty (fun v => logMagnitude (dev v)) ≤
        Finset.univ.sup' Finset.univ_nonempty (fun v => a + logMagnitude (dev v)) - a := by
      apply Finset.sup'_le
      intro v hv
      have := Finset.le_sup' (fun v => a + logMagnitude (dev v)) hv
      linarith
    linarith

/-- `U` is the family of propagators of a linear equation -/
structure Propagator (U : ℝ → ℝ → V6 →ₗ[ℝ] V6) : Prop where
  refl : ∀ a x, U a a x = x
  trans : ∀ a b c x, U b c (U a b x) = U a c x

theorem Propagator.ne {U : ℝ → ℝ → V6 →ₗ[ℝ] V6} (hU : Propagator U) (a b : ℝ) {x : V6} (hx : x ≠ 0) : U a b x ≠ 0 := by
  intro h
  apply hx
  rw [← hU.refl a x, ← hU.trans a b a x, h, map_zero]

/-- the vectors of the state, with the scaling factor, are the initial vectors carried to its time -/
def Tracks {k : ℕ} (U : ℝ → ℝ → V6 →ₗ[ℝ] V6) (t0 : ℝ) (dev0 : Fin (k + 1) → V6) (s : State k) : Prop :=
  ∀ v, exp s.addLog • s.dev v = U t0 s.t (dev0 v)

theorem tracks_renormalize {k : ℕ} {U : ℝ → ℝ → V6 →ₗ[ℝ] V6} {t0 : ℝ} {dev0 : Fin (k + 1) → V6} {s : State k} (h : Tracks U t0 dev0 s) :
    Tracks U t0 dev0 (renormalize s) := by
  intro v
  have := h v
  simp only [renormalize, smul_smul, ← exp_add]
  rw [← this]
  congr 2
  ring

theorem tracks_step {k : ℕ} {U : ℝ → ℝ → V6 →ₗ[ℝ] V6} (hU : Propagator U) {t0 : ℝ} {dev0 : Fin (k + 1) → V6} {s : State k}
    (h : Tracks U t0 dev0 s) (tend : ℝ) : Tracks U t0 dev0 (processTimestep U t0 s tend).1 := by
  have h' : Tracks U t0 dev0 ⟨fun v => U s.t tend (s.dev v), s.addLog, tend⟩ := by
    intro v
    simp only
    rw [← map_smul, h v, hU.trans]
  simp only [processTimestep]
  split_ifs
  · exact h
  · exact tracks_renormalize h'
  · exact h'

theorem Tracks.ne {k : ℕ} {U : ℝ → ℝ → V6 →ₗ[ℝ] V6} (hU : Propagator U) {t0 : ℝ} {dev0 : Fin (k + 1) → V6} (h0 : ∀ v, dev0 v ≠ 0)
    {s : State k} (h : Tracks U t0 dev0 s) (v : Fin (k + 1)) : s.dev v ≠ 0 := by
  intro hv
  have := h v
  rw [hv, smul_zero] at this
  exact hU.ne t0 s.t (h0 v) this.symm

theorem Tracks.maxLog {k : ℕ} {U : ℝ → ℝ → V6 →ₗ[ℝ] V6} (hU : Propagator U) {t0 : ℝ} {dev0 : Fin (k + 1) → V6} (h0 : ∀ v, dev0 v ≠ 0)
    {s : State k} (h : Tracks U t0 dev0 s) : maxLog s.dev + s.addLog = maxLog fun v => U t0 s.t (dev0 v) := by
  have e : (fun v => exp s.addLog • s.dev v) = fun v => U t0 s.t (dev0 v) := funext h
  rw [← e, maxLog_smul _ _ (h.ne hU h0), add_comm]

theorem step_t {k : ℕ} (U : ℝ → ℝ → V6 →ₗ[ℝ] V6) (t0 : ℝ) (s : State k) (tend : ℝ) : (processTimestep U t0 s tend).1.t = tend := by
  simp only [processTimestep]
  split_ifs with h
  · exact h
  · rfl
  · rfl

theorem tracks_run {k : ℕ} {U : ℝ → ℝ → V6 →ₗ[ℝ] V6} (hU : Propagator U) {t0 : ℝ} {dev0 : Fin (k + 1) → V6} (ts : List ℝ) :
    ∀ {s : State k}, Tracks U t0 dev0 s → Tracks U t0 dev0 (run U t0 s ts).1 := by
  induction ts with
  | nil => intro s h; exact h
  | cons t ts ih => intro s h; exact ih (tracks_step hU h t)

theorem tracks_init {k : ℕ} {U : ℝ → ℝ → V6 →ₗ[ℝ] V6} (hU : Propagator U) (t0 : ℝ) (dev0 : Fin (k + 1) → V6) :
    Tracks U t0 dev0 ⟨dev0, 0, t0⟩ := by
  intro v
  simp [hU.refl]

/-- **C121** Renormalization is not seen by the user: whatever the timesteps, at any moment the vectors stored are the initial
vectors carried by the linear equation from `t0` to that moment (in the rotating frame). -/
theorem C121_stored {k : ℕ} (U : ℝ → ℝ → V6 →ₗ[ℝ] V6) (hU : Propagator U) (t0 Omega : ℝ) (dev0 : Fin (k + 1) → V6) (ts : List ℝ)
    (time : ℝ) (v : Fin (k + 1)) :
    outputAt U Omega (run U t0 ⟨dev0, 0, t0⟩ ts).1 time v = output Omega time 1 (U t0 time (dev0 v)) := by
  have h := tracks_run hU ts (tracks_init hU t0 dev0) v
  set s := (run U t0 ⟨dev0, 0, t0⟩ ts).1
  have e : U t0 time (dev0 v) = exp s.addLog • U s.t time (s.dev v) := by rw [← map_smul, h, hU.trans]
  rw [e, outputAt]
  funext i
  fin_cases i <;> simp only [output, ca_eq, sa_eq, smul_eq_mul, Pi.smul_apply] <;> simp <;> ring

open Classical in
/-- the vectors carried through the timesteps without any renormalization: time and vectors -/
def plain {k : ℕ} (U : ℝ → ℝ → V6 →ₗ[ℝ] V6) : ℝ × (Fin (k + 1) → V6) → List ℝ → ℝ × (Fin (k + 1) → V6)
  | p, [] => p
  | p, t :: ts => plain U (if p.1 = t then p else (t, fun v => U p.1 t (p.2 v))) ts

theorem plain_run {k : ℕ} (U : ℝ → ℝ → V6 →ₗ[ℝ] V6) (t0 : ℝ) (ts : List ℝ) : ∀ (s : State k) (p : ℝ × (Fin (k + 1) → V6)),
    s.t = p.1 → (∀ v, exp s.addLog • s.dev v = p.2 v) →
    (run U t0 s ts).1.t = (plain U p ts).1 ∧ ∀ v, exp (run U t0 s ts).1.addLog • (run U t0 s ts).1.dev v = (plain U p ts).2 v := by
  induction ts with
  | nil => intro s p h1 h2; exact ⟨h1, h2⟩
  | cons t ts ih =>
    intro s p h1 h2
    refine ih _ _ ?_ ?_
    · rw [step_t]
      split_ifs with h
      · exact h.symm
      · rfl
    · intro v
      simp only [processTimestep, h1]
      split_ifs with e e2
      · exact h2 v
      · simp only [renormalize, smul_smul, ← exp_add]
        rw [← h2 v, map_smul]
        congr 2
        ring
      · simp only
        rw [← h2 v, map_smul]

/-- **C121** The same for an inexact solver: for any family of linear maps, one for each timestep (see C85_linear3 for the solver used),
the vectors stored are those of the same solver without any renormalization. -/
theorem C121_stored_inexact {k : ℕ} (U : ℝ → ℝ → V6 →ₗ[ℝ] V6) (t0 Omega : ℝ) (dev0 : Fin (k + 1) → V6) (ts : List ℝ)
    (time : ℝ) (v : Fin (k + 1)) :
    outputAt U Omega (run U t0 ⟨dev0, 0, t0⟩ ts).1 time v =
      output Omega time 1 (U (plain U (t0, dev0) ts).1 time ((plain U (t0, dev0) ts).2 v)) := by
  obtain ⟨h1, h2⟩ := plain_run U t0 ts ⟨dev0, 0, t0⟩ (t0, dev0) rfl (by intro v; simp)
  rw [← h1, ← h2 v, map_smul, outputAt]
  funext i
  fin_cases i <;> simp only [output, ca_eq, sa_eq, smul_eq_mul, Pi.smul_apply] <;> simp <;> ring

/-- the entries of logDeviationVector that the user expects: one for each timestep of non-zero length -/
def expectedLog {k : ℕ} (U : ℝ → ℝ → V6 →ₗ[ℝ] V6) (t0 : ℝ) (dev0 : Fin (k + 1) → V6) : ℝ → List ℝ → List (ℝ × ℝ)
  | _, [] => []
  | tb, t :: ts =>
    open Classical in
    (if tb = t then [] else [(|t - t0|, maxLog fun v => U t0 t (dev0 v))]) ++ expectedLog U t0 dev0 t ts

theorem run_log {k : ℕ} {U : ℝ → ℝ → V6 →ₗ[ℝ] V6} (hU : Propagator U) {t0 : ℝ} {dev0 : Fin (k + 1) → V6} (h0 : ∀ v, dev0 v ≠ 0) (ts : List ℝ) :
    ∀ {s : State k}, Tracks U t0 dev0 s → (run U t0 s ts).2 = expectedLog U t0 dev0 s.t ts := by
  induction ts with
  | nil => intro s _; rfl
  | cons t ts ih =>
    intro s h
    have h' : Tracks U t0 dev0 ⟨fun v => U s.t t (s.dev v), s.addLog, t⟩ := by
      intro v
      simp only
      rw [← map_smul, h v, hU.trans]
    have hm := h'.maxLog hU h0
    simp only [run, expectedLog]
    rw [ih (tracks_step hU h t), step_t]
    congr 1
    simp only [processTimestep]
    by_cases e : s.t = t
    · simp [e]
    · simp only [e, if_false, Option.toList_some]
      rw [← hm]

/-- **C121** logDeviationVector holds, for every timestep of non-zero length, the logarithm of the largest norm among the true
(not renormalized) deviation vectors at its end. -/
theorem C121_log {k : ℕ} (U : ℝ → ℝ → V6 →ₗ[ℝ] V6) (hU : Propagator U) (t0 : ℝ) (dev0 : Fin (k + 1) → V6) (h0 : ∀ v, dev0 v ≠ 0)
    (ts : List ℝ) : (run U t0 ⟨dev0, 0, t0⟩ ts).2 = expectedLog U t0 dev0 t0 ts :=
  run_log hU h0 ts (tracks_init hU t0 dev0)

theorem exp_maxLog_eq {k : ℕ} (dev : Fin (k + 1) → V6) (v : Fin (k + 1)) (i : Fin 6) : |dev v i| ≤ exp (maxLog dev) := by
  by_cases h : dev v i = 0
  · rw [h, abs_zero]; positivity
  · have h2 : 0 < dev v i ^ 2 := by positivity
    have h3 : dev v i ^ 2 ≤ ∑ j, dev v j ^ 2 := Finset.single_le_sum (fun j _ => sq_nonneg (dev v j)) (Finset.mem_univ i)
    have h4 := log_le_log h2 h3
    have h5 : logMagnitude (dev v) ≤ maxLog dev := Finset.le_sup' (fun v => logMagnitude (dev v)) (Finset.mem_univ v)
    rw [← exp_log (abs_pos.mpr h)]
    apply exp_le_exp.mpr
    rw [← sq_abs, log_pow] at h4
    simp only [logMagnitude] at h5
    push_cast at h4
    linarith

/-- **C121** No overflow: between timesteps every component of every vector in the solver is at most e^10 in magnitude, if it
was so at the beginning. -/
theorem C121_bounded {k : ℕ} (U : ℝ → ℝ → V6 →ₗ[ℝ] V6) (hU : Propagator U) (t0 : ℝ) (dev0 : Fin (k + 1) → V6) (h0 : ∀ v, dev0 v ≠ 0)
    (hb : maxLog dev0 ≤ 10) (ts : List ℝ) (v : Fin (k + 1)) (i : Fin 6) : |(run U t0 ⟨dev0, 0, t0⟩ ts).1.dev v i| ≤ exp 10 := by
  have key : ∀ ts : List ℝ, ∀ s : State k, Tracks U t0 dev0 s → maxLog s.dev ≤ 10 → maxLog (run U t0 s ts).1.dev ≤ 10 := by
    intro ts
    induction ts with
    | nil => intro s _ h; exact h
    | cons t ts ih =>
      intro s hs h
      refine ih _ (tracks_step hU hs t) ?_
      have h' : Tracks U t0 dev0 ⟨fun v => U s.t t (s.dev v), s.addLog, t⟩ := by
        intro v
        simp only
        rw [← map_smul, hs v, hU.trans]
      simp only [processTimestep]
      split_ifs with h1 h2
      · exact h
      · simp only [renormalize]
        rw [maxLog_smul _ _ (h'.ne hU h0)]
        simp
      · exact not_lt.mp h2
  exact (exp_maxLog_eq _ v i).trans (exp_le_exp.mpr (key ts _ (tracks_init hU t0 dev0) hb))

/-- **C121** both initial sets of vectors are normalized, so the previous theorem applies -/
theorem C121_initial_norm (Omega t0 : ℝ) (v : Fin 6) : logMagnitude (initVectors Omega t0 v) = 0 ∧ logMagnitude devVecInit = 0 := by
  have e := sin_sq_add_cos_sq (Omega * t0)
  have h : ∀ x : V6, ∑ i, x i ^ 2 = 1 → logMagnitude x = 0 := by
    intro x hx
    rw [logMagnitude, hx, log_one, mul_zero]
  refine ⟨h _ ?_, h _ ?_⟩
  · rw [Fin.sum_univ_six]
    fin_cases v <;> simp [initVectors]
  · rw [Fin.sum_univ_six]
    simp only [devVecInit, Matrix.cons_val]
    rw [sq_sqrt (by norm_num), sq_sqrt (by norm_num), sq_sqrt (by norm_num), sq_sqrt (by norm_num), sq_sqrt (by norm_num), sq_sqrt (by norm_num)]
    norm_num

/-- the hypotheses are met: free growth, U a b = e^(b-a) -/
example : Propagator (fun a b => (exp (b - a)) • (LinearMap.id : V6 →ₗ[ℝ] V6)) where
  refl a x := by simp
  trans a b c x := by
    simp only [LinearMap.smul_apply, LinearMap.id_apply, smul_smul, ← exp_add]
    congr 2
    ring

end
end Verif.Orbit.Variational
