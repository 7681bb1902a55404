import Verif.Ode.Series
import Mathlib.Analysis.SpecialFunctions.Sqrt
import Mathlib.Analysis.Calculus.ContDiff.RCLike
import Mathlib.Analysis.Calculus.Deriv.Mul
import Mathlib.Analysis.Calculus.Deriv.Pow
import Mathlib.Analysis.Calculus.Deriv.Prod
import Mathlib.Analysis.SpecialFunctions.Trigonometric.Deriv
import Mathlib.Analysis.Calculus.Deriv.Add
import Mathlib.Tactic.FieldSimp
import Mathlib.Tactic.LinearCombination
import Mathlib.Tactic.FinCases

/-! The 4th order Hermite integrator (/repo/src/math_ode.cpp:404-496, math_ode.h:143-162); C84.
Floating-point numbers are modelled as real numbers, except that the estimate of the next timestep may be infinite or undefined. -/
namespace Verif.Ode.Hermite

noncomputable section

open Finset

/-! ## Model -/

/-- Arrays of coordinates or velocities -/
abbrev Vec (n : ℕ) := Fin n → ℝ

/-- The value of the estimated timestep -/
inductive Fl
  | nan
  | inf
  | fin (r : ℝ)

/-- math_ode.h:47-51, IOdeSystemHermite::eval(t, {pos,vel}, acc, jerk) -/
structure Sys (n : ℕ) where
  acc : ℝ → Vec n → Vec n → Vec n
  jrk : ℝ → Vec n → Vec n → Vec n

/-- math_ode.h:155-161 and math_ode.cpp:428-440: the persistent data, `state` being composed of ten arrays of numVar elements -/
structure State (n : ℕ) where
  time : ℝ
  timePrev : ℝ
  next : Fl
  oldpos : Vec n
  oldvel : Vec n
  oldacc : Vec n
  oldjrk : Vec n
  newpos : Vec n
  newvel : Vec n
  newacc : Vec n
  newjrk : Vec n
  snap : Vec n
  crackle : Vec n

/-- math_ode.cpp:404-411: the constructor -/
def construct (n : ℕ) : State n := ⟨0, 0, .fin 0, 0, 0, 0, 0, 0, 0, 0, 0, 0, 0⟩

open Classical in
/-- math_ode.cpp:413-421: init; `timeNew=none` is NAN; `h0` is the result of initTimeStep. -/
def init {n : ℕ} (s : State n) (pos vel : Vec n) (timeNew : Option ℝ) (h0 : ℝ) : State n :=
  { s with newpos := pos, newvel := vel, time := timeNew.getD s.time, next := if s.next = .fin 0 then .fin h0 else s.next }

/-- math_ode.cpp:441-444: the beginning of the step -/
def begin_ {n : ℕ} (S : Sys n) (s : State n) : State n :=
  { s with oldpos := s.newpos, oldvel := s.newvel, oldacc := S.acc s.time s.newpos s.newvel, oldjrk := S.jrk s.time s.newpos s.newvel }

/-- math_ode.cpp:453-470: prediction, evaluation of the acceleration and jerk at the predicted point, and their higher derivatives -/
def predict {n : ℕ} (S : Sys n) (s : State n) (dt : ℝ) : State n :=
  let newpos := fun i => s.oldpos i + dt * (s.oldvel i + 0.5 * dt * (s.oldacc i + 1 / 3 * dt * s.oldjrk i))
  let newvel := fun i => s.oldvel i + dt * (s.oldacc i + 0.5 * dt * s.oldjrk i)
  let newacc := S.acc (s.time + dt) newpos newvel
  let newjrk := S.jrk (s.time + dt) newpos newvel
  { s with
    newpos := newpos, newvel := newvel, newacc := newacc, newjrk := newjrk
    snap := fun i => -(4 * s.oldjrk i + 2 * newjrk i) / dt + 6 * (newacc i - s.oldacc i) / dt ^ 2
    crackle := fun i => 6 * (s.oldjrk i + newjrk i - 2 * (newacc i - s.oldacc i) / dt) / dt ^ 2 }

open Classical in
/-- math_ode.cpp:462-476: the new estimate of the timestep, `accRel * sqrt((sqrt(sumasq*sumssq) + sumjsq) / (sqrt(sumjsq*sumcsq) + sumssq))`, accRel>0 -/
def estimate {n : ℕ} (accRel : ℝ) (s : State n) : Fl :=
  let a := ∑ i, s.newacc i ^ 2
  let j := ∑ i, s.newjrk i ^ 2
  let p := ∑ i, s.snap i ^ 2
  let c := ∑ i, s.crackle i ^ 2
  let num := Real.sqrt (a * p) + j
  let den := Real.sqrt (j * c) + p
  if den = 0 then (if num = 0 then .nan else .inf) else .fin (accRel * Real.sqrt (num / den))

open Classical in
/-- math_ode.cpp:450-478: `do { dt = nextTimeStep; ... } while(nextTimeStep < dt*0.5 && ++nreject < 3)`; `left` is the number of further repetitions allowed.
The result is the last used dt and the state. -/
def loop {n : ℕ} (S : Sys n) (accRel : ℝ) (s : State n) : ℕ → ℝ → ℝ × State n
  | 0, dt => (dt, { predict S s dt with next := estimate accRel (predict S s dt) })
  | left + 1, dt =>
    match estimate accRel (predict S s dt) with
    | .fin r => if r < dt * 0.5 then loop S accRel s left r else (dt, { predict S s dt with next := .fin r })
    | e => (dt, { predict S s dt with next := e })

/-- math_ode.cpp:480-487: the corrector -/
def correct {n : ℕ} (s : State n) (dt : ℝ) : State n :=
  let newvel := fun i => s.oldvel i + 0.5 * dt * (s.oldacc i + s.newacc i + 1 / 6 * dt * (s.oldjrk i - s.newjrk i))
  let newpos := fun i => s.oldpos i + 0.5 * dt * (s.oldvel i + newvel i + 1 / 6 * dt * (s.oldacc i - s.newacc i))
  { s with newvel := newvel, newpos := newpos }

/-- The argument of doStep: a nonzero length, or +0 (forward) or -0 (backward) -/
inductive Dt
  | given (dt : ℝ)
  | auto (fwd : Bool)

/-- math_ode.cpp:445-448: the initial length of the step (none if it is infinite or undefined) and the number of repetitions allowed -/
def firstStep {n : ℕ} (s : State n) : Dt → Option (ℝ × ℕ)
  | .given dt => some (dt, 0)
  | .auto fwd => match s.next with
    | .fin h => some (h * (if fwd then 1 else -1), 2)
    | _ => none

/-- math_ode.cpp:423-492: doStep; the result is none if the length of the step is infinite or undefined (then so is the entire state afterwards). -/
def doStep {n : ℕ} (S : Sys n) (accRel : ℝ) (dt : Dt) (s : State n) : Option (ℝ × State n) :=
  match firstStep s dt with
  | none => none
  | some (h, left) =>
    let r := loop S accRel (begin_ S s) left h
    some (r.1, { correct r.2 r.1 with timePrev := s.time, time := s.time + r.1 })

/-- math_ode.cpp:494-507: getSol, position part (ind < numVar) -/
def solPos {n : ℕ} (s : State n) (t : ℝ) (i : Fin n) : ℝ :=
  let d := t - s.timePrev
  s.oldpos i + d * (s.oldvel i + d / 2 * (s.oldacc i + d / 3 * (s.oldjrk i + d / 4 * (s.snap i + d / 5 * s.crackle i))))

/-- math_ode.cpp:494-507: getSol, velocity part -/
def solVel {n : ℕ} (s : State n) (t : ℝ) (i : Fin n) : ℝ :=
  let d := t - s.timePrev
  s.oldvel i + d * (s.oldacc i + d / 2 * (s.oldjrk i + d / 3 * (s.snap i + d / 4 * s.crackle i)))

/-- math_ode.cpp:494-507: getSol; `i = ind % numVar`, there is no check of the index (numVar>0). -/
def getSol {n : ℕ} (hn : 0 < n) (s : State n) (t : ℝ) (ind : ℕ) : ℝ :=
  if ind < n then solPos s t ⟨ind % n, Nat.mod_lt _ hn⟩ else solVel s t ⟨ind % n, Nat.mod_lt _ hn⟩

/-! ## The loop -/

/-- What remains unchanged in the loop and what the final state is. -/
theorem loop_spec {n : ℕ} (S : Sys n) (accRel : ℝ) (s : State n) (left : ℕ) (h : ℝ) :
    ∃ dt, (loop S accRel s left h).1 = dt ∧ ∃ nx, (loop S accRel s left h).2 = { predict S s dt with next := nx } ∧ nx = estimate accRel (predict S s dt) := by
  induction left generalizing h with
  | zero =>
    rw [loop]
    exact ⟨h, rfl, _, rfl, rfl⟩
  | succ left ih =>
    rw [loop]
    split
    next r he =>
      split_ifs with hr
      · exact ih _
      · exact ⟨h, rfl, _, rfl, he.symm⟩
    next => exact ⟨h, rfl, _, rfl, rfl⟩

/-- What one completed step of length dt does: the velocity and the position are given by the formulas of the 4th order Hermite scheme in terms of the accelerations and jerks at
the beginning of the step and at the point predicted by the Taylor expansion. -/
structure Stepped {n : ℕ} (S : Sys n) (s : State n) (dt : ℝ) (s' : State n) : Prop where
  time : s'.time = s.time + dt
  timePrev : s'.timePrev = s.time
  oldpos : s'.oldpos = s.newpos
  oldvel : s'.oldvel = s.newvel
  oldacc : s'.oldacc = S.acc s.time s.newpos s.newvel
  oldjrk : s'.oldjrk = S.jrk s.time s.newpos s.newvel
  newacc : ∃ xp vp : Vec n, (∀ i, xp i = s.newpos i + s.newvel i * dt + s'.oldacc i * dt ^ 2 / 2 + s'.oldjrk i * dt ^ 3 / 6) ∧
    (∀ i, vp i = s.newvel i + s'.oldacc i * dt + s'.oldjrk i * dt ^ 2 / 2) ∧ s'.newacc = S.acc (s.time + dt) xp vp ∧ s'.newjrk = S.jrk (s.time + dt) xp vp
  newvel : ∀ i, s'.newvel i = s.newvel i + (s'.oldacc i + s'.newacc i) * dt / 2 + (s'.oldjrk i - s'.newjrk i) * dt ^ 2 / 12
  newpos : ∀ i, s'.newpos i = s.newpos i + (s.newvel i + s'.newvel i) * dt / 2 + (s'.oldacc i - s'.newacc i) * dt ^ 2 / 12
  snap : ∀ i, s'.snap i = -(4 * s'.oldjrk i + 2 * s'.newjrk i) / dt + 6 * (s'.newacc i - s'.oldacc i) / dt ^ 2
  crackle : ∀ i, s'.crackle i = 6 * (s'.oldjrk i + s'.newjrk i - 2 * (s'.newacc i - s'.oldacc i) / dt) / dt ^ 2

theorem doStep_spec {n : ℕ} (S : Sys n) (accRel : ℝ) (dt : Dt) (s : State n) {r : ℝ} {s' : State n} (h : doStep S accRel dt s = some (r, s')) : Stepped S s r s' := by
  unfold doStep at h
  split at h
  next => cases h
  next h0 left he =>
    obtain ⟨d, h1, nx, h2, -⟩ := loop_spec S accRel (begin_ S s) left h0
    simp only [Option.some.injEq, Prod.mk.injEq] at h
    obtain ⟨hr, hs⟩ := h
    rw [h1] at hr
    subst hr
    rw [h1, h2] at hs
    subst hs
    refine ⟨rfl, rfl, rfl, rfl, rfl, rfl, ⟨_, _, fun i => ?_, fun i => ?_, rfl, rfl⟩, fun i => ?_, fun i => ?_, fun i => rfl, fun i => rfl⟩
    · simp only [begin_, correct, predict]; ring
    · simp only [begin_, correct, predict]; ring
    · simp only [begin_, correct, predict]; ring
    · simp only [begin_, correct, predict]; ring

/-! ## C84 -/

/-- C84: one step. A step of a prescribed length is made as requested; the length of an automatically chosen step has the requested sign and does not exceed the previous
estimate, and no more than three attempts are made. -/
theorem C84_step {n : ℕ} (S : Sys n) (accRel : ℝ) (hacc : 0 < accRel) (s : State n) :
    (∀ dt, ∃ s', doStep S accRel (.given dt) s = some (dt, s') ∧ Stepped S s dt s') ∧
    (∀ h, s.next = .fin h → 0 < h → ∃ r s', doStep S accRel (.auto true) s = some (r, s') ∧ Stepped S s r s' ∧ 0 ≤ r ∧ r ≤ h) ∧
    (∀ h, s.next = .fin h → 0 < h → ∃ s', doStep S accRel (.auto false) s = some (-h, s') ∧ Stepped S s (-h) s') := by
  refine ⟨fun dt => ?_, fun h hh h0 => ?_, fun h hh h0 => ?_⟩
  · obtain ⟨r, s', e⟩ : ∃ r s', doStep S accRel (.given dt) s = some (r, s') := ⟨_, _, rfl⟩
    have hs := doStep_spec S accRel _ s e
    have : r = dt := by
      simp only [doStep, firstStep, Option.some.injEq, Prod.mk.injEq] at e
      rw [← e.1, loop]
    subst this
    exact ⟨s', e, hs⟩
  · have e1 : firstStep s (.auto true) = some (h, 2) := by simp [firstStep, hh]
    have key : ∀ (left : ℕ) (g : ℝ), 0 ≤ g → 0 ≤ (loop S accRel (begin_ S s) left g).1 ∧ (loop S accRel (begin_ S s) left g).1 ≤ g := by
      intro left
      induction left with
      | zero => intro g hg; rw [loop]; exact ⟨hg, le_rfl⟩
      | succ left ih =>
        intro g hg
        rw [loop]
        split
        next r he =>
          split_ifs with hr
          · have hr0 : 0 ≤ r := by
              simp only [estimate] at he
              split_ifs at he
              injection he with he
              rw [← he]
              positivity
            have := ih r hr0
            exact ⟨this.1, by norm_num at hr; linarith [this.2]⟩
          · exact ⟨hg, le_rfl⟩
        next => exact ⟨hg, le_rfl⟩
    obtain ⟨r, s', e⟩ : ∃ r s', doStep S accRel (.auto true) s = some (r, s') := ⟨_, _, by rw [doStep, e1]⟩
    refine ⟨r, s', e, doStep_spec S accRel _ s e, ?_⟩
    have : r = (loop S accRel (begin_ S s) 2 h).1 := by
      rw [doStep, e1] at e
      simp only [Option.some.injEq, Prod.mk.injEq] at e
      exact e.1.symm
    rw [this]
    exact key 2 h h0.le
  · have e1 : firstStep s (.auto false) = some (-h, 2) := by simp [firstStep, hh]
    have key : (loop S accRel (begin_ S s) 2 (-h)).1 = -h := by
      rw [loop]
      split
      next r he =>
        split_ifs with hr
        · exfalso
          have hr0 : 0 ≤ r := by
            simp only [estimate] at he
            split_ifs at he
            injection he with he
            rw [← he]
            positivity
          norm_num at hr
          linarith
        · rfl
      next => rfl
    obtain ⟨r, s', e⟩ : ∃ r s', doStep S accRel (.auto false) s = some (r, s') := ⟨_, _, by rw [doStep, e1]⟩
    have : r = -h := by
      rw [doStep, e1] at e
      simp only [Option.some.injEq, Prod.mk.injEq] at e
      rw [← e.1, key]
    subst this
    exact ⟨s', e, doStep_spec S accRel _ s e⟩

/-- The specification of attempts to make a step: `est g` is the recommended length found after an attempt with the length g. An attempt is repeated with the recommended length only if
this is less than a half of the tried one, and no more than `left` times. -/
inductive Attempts (est : ℝ → Fl) : ℕ → ℝ → ℝ → Prop
  | last (g) : Attempts est 0 g g
  | accept (left g) (h : ∀ r, est g = .fin r → g / 2 ≤ r) : Attempts est left g g
  | retry {left g r res} (he : est g = .fin r) (h : r < g / 2) (ha : Attempts est left r res) : Attempts est (left + 1) g res

/-- C84: repeated attempts. The automatically chosen step is repeated at most twice, only when the recommended length is less than a half of the tried one. -/
theorem C84_attempts {n : ℕ} (S : Sys n) (accRel : ℝ) (s : State n) (h : ℝ) (hh : s.next = .fin h) (r : ℝ) (s' : State n) (hs : doStep S accRel (.auto true) s = some (r, s')) :
    Attempts (fun g => estimate accRel (predict S (begin_ S s) g)) 2 h r := by
  have e1 : firstStep s (.auto true) = some (h, 2) := by simp [firstStep, hh]
  rw [doStep, e1] at hs
  simp only [Option.some.injEq, Prod.mk.injEq] at hs
  rw [← hs.1]
  generalize begin_ S s = s0
  have main : ∀ left g, Attempts (fun g => estimate accRel (predict S s0 g)) left g (loop S accRel s0 left g).1 := by
    intro left
    induction left with
    | zero => intro g; rw [loop]; exact .last g
    | succ left ih =>
      intro g
      rw [loop]
      split
      next q he =>
        split_ifs with hq
        · exact .retry he (by norm_num at hq; linarith) (ih q)
        · refine .accept _ _ fun r' hr' => ?_
          rw [he] at hr'
          injection hr' with hr'
          norm_num at hq; linarith
      next e he =>
        exact .accept _ _ fun r' hr' => absurd hr' (he r')
  exact main 2 h

/-- C84: dense output. The interpolated velocity is the derivative of the interpolated position; both coincide with the old values at the beginning of the step, the derivative of
the velocity there is the acceleration; the velocity at the end of the step is the new one, but the position at the end of the step differs from the new position by a
term of 5th order in the length of the step. -/
theorem C84_dense {n : ℕ} {S : Sys n} {s : State n} {dt : ℝ} {s' : State n} (h : Stepped S s dt s') (hdt : dt ≠ 0) (i : Fin n) :
    (∀ t, HasDerivAt (fun t => solPos s' t i) (solVel s' t i) t) ∧ solPos s' s.time i = s.newpos i ∧ solVel s' s.time i = s.newvel i ∧
      HasDerivAt (fun t => solVel s' t i) (S.acc s.time s.newpos s.newvel i) s.time ∧
      solVel s' (s.time + dt) i = s'.newvel i ∧ HasDerivAt (fun t => solVel s' t i) (s'.newacc i) (s.time + dt) ∧
      s'.newpos i = solPos s' (s.time + dt) i - s'.crackle i * dt ^ 5 / 720 := by
  have hd : ∀ t, HasDerivAt (fun t : ℝ => t - s'.timePrev) 1 t := fun t => (hasDerivAt_id' t).sub_const _
  have hvel : ∀ t, HasDerivAt (fun t => solVel s' t i) (s'.oldacc i + (t - s'.timePrev) * (s'.oldjrk i + (t - s'.timePrev) / 2 * (s'.snap i + (t - s'.timePrev) / 3 * s'.crackle i))) t := by
    intro t
    have e : (fun t => solVel s' t i) = fun t => s'.oldvel i + ((t - s'.timePrev) * s'.oldacc i + (t - s'.timePrev) ^ 2 * (s'.oldjrk i / 2) + (t - s'.timePrev) ^ 3 * (s'.snap i / 6) +
        (t - s'.timePrev) ^ 4 * (s'.crackle i / 24)) := by
      funext t; simp only [solVel]; ring
    rw [e]
    have := ((((hd t).mul_const (s'.oldacc i)).add (((hd t).pow 2).mul_const (s'.oldjrk i / 2))).add (((hd t).pow 3).mul_const (s'.snap i / 6))).add
      (((hd t).pow 4).mul_const (s'.crackle i / 24))
    refine (this.const_add (s'.oldvel i)).congr_deriv ?_
    simp
    ring
  have hpos : ∀ t, HasDerivAt (fun t => solPos s' t i) (solVel s' t i) t := by
    intro t
    have e : (fun t => solPos s' t i) = fun t => s'.oldpos i + ((t - s'.timePrev) * s'.oldvel i + (t - s'.timePrev) ^ 2 * (s'.oldacc i / 2) + (t - s'.timePrev) ^ 3 * (s'.oldjrk i / 6) +
        (t - s'.timePrev) ^ 4 * (s'.snap i / 24) + (t - s'.timePrev) ^ 5 * (s'.crackle i / 120)) := by
      funext t; simp only [solPos]; ring
    rw [e]
    have := (((((hd t).mul_const (s'.oldvel i)).add (((hd t).pow 2).mul_const (s'.oldacc i / 2))).add (((hd t).pow 3).mul_const (s'.oldjrk i / 6))).add
      (((hd t).pow 4).mul_const (s'.snap i / 24))).add (((hd t).pow 5).mul_const (s'.crackle i / 120))
    refine (this.const_add (s'.oldpos i)).congr_deriv ?_
    simp only [solVel]
    simp
    ring
  have et : s.time + dt - s'.timePrev = dt := by rw [h.timePrev]; ring
  refine ⟨hpos, ?_, ?_, ?_, ?_, ?_, ?_⟩
  · simp [solPos, h.timePrev, h.oldpos]
  · simp [solVel, h.timePrev, h.oldvel]
  · refine (hvel s.time).congr_deriv ?_
    rw [h.timePrev, h.oldacc]; simp
  · simp only [solVel]
    rw [et, h.newvel i, h.snap i, h.crackle i, h.oldvel]
    field_simp
    ring
  · refine (hvel (s.time + dt)).congr_deriv ?_
    rw [et, h.snap i, h.crackle i]
    field_simp
    ring
  · simp only [solPos]
    rw [et, h.newpos i, h.newvel i, h.snap i, h.crackle i, h.oldvel, h.oldpos]
    field_simp
    ring

/-- C84: exactness. If the acceleration along the solution is a given cubic polynomial of time, the new velocity is exact and the new position is exact up to the
term with the third derivative of the acceleration (hence exact for a quadratic polynomial). -/
theorem C84_exact {n : ℕ} {S : Sys n} {s : State n} {dt : ℝ} {s' : State n} (h : Stepped S s dt s') (a j b c : Vec n)
    (hacc : ∀ t x v i, S.acc t x v i = a i + j i * (t - s.time) + b i * (t - s.time) ^ 2 / 2 + c i * (t - s.time) ^ 3 / 6)
    (hjrk : ∀ t x v i, S.jrk t x v i = j i + b i * (t - s.time) + c i * (t - s.time) ^ 2 / 2) (i : Fin n) :
    s'.newvel i = s.newvel i + a i * dt + j i * dt ^ 2 / 2 + b i * dt ^ 3 / 6 + c i * dt ^ 4 / 24 ∧
    s'.newpos i = s.newpos i + s.newvel i * dt + a i * dt ^ 2 / 2 + j i * dt ^ 3 / 6 + b i * dt ^ 4 / 24 + c i * dt ^ 5 / 144 ∧
    (dt ≠ 0 → s'.snap i = b i ∧ s'.crackle i = c i) := by
  obtain ⟨xp, vp, -, -, ha, hj⟩ := h.newacc
  have e1 : s'.oldacc i = a i := by rw [h.oldacc, hacc]; ring
  have e2 : s'.oldjrk i = j i := by rw [h.oldjrk, hjrk]; ring
  have e3 : s'.newacc i = a i + j i * dt + b i * dt ^ 2 / 2 + c i * dt ^ 3 / 6 := by rw [ha, hacc]; ring
  have e4 : s'.newjrk i = j i + b i * dt + c i * dt ^ 2 / 2 := by rw [hj, hjrk]; ring
  refine ⟨?_, ?_, fun hd => ⟨?_, ?_⟩⟩
  · rw [h.newvel, e1, e2, e3, e4]; ring
  · rw [h.newpos, h.newvel, e1, e2, e3, e4]; ring
  · rw [h.snap, e1, e2, e3, e4]; field_simp; ring
  · rw [h.crackle, e1, e2, e3, e4]; field_simp; ring

/-- A particle with the acceleration t^3 -/
def cubic : Sys 1 := ⟨fun t _ _ _ => t ^ 3, fun t _ _ _ => 3 * t ^ 2⟩

/-- C84, refuted: the trajectory composed of consecutive steps is not continuous: the interpolated position at the end of a step is not the position from which the next step begins. -/
theorem C84_refuted_continuous : ∃ s', doStep cubic 1 (.given 1) (init (construct 1) 0 0 (some 0) 1) = some (1, s') ∧ solPos s' 1 0 ≠ s'.newpos 0 := by
  obtain ⟨s', h1, h2⟩ := (C84_step cubic 1 one_pos (init (construct 1) 0 0 (some 0) 1)).1 1
  refine ⟨s', h1, ?_⟩
  have h3 := (C84_dense h2 one_ne_zero 0).2.2.2.2.2.2
  have t0 : (init (construct 1) 0 0 (some 0) 1).time = 0 := rfl
  have h4 := ((C84_exact h2 0 0 0 (fun _ => 6) (fun t x v i => by rw [t0]; simp [cubic]) (fun t x v i => by rw [t0]; simp [cubic]; ring) 0).2.2 one_ne_zero).2
  rw [t0, h4] at h3
  rw [h3]
  norm_num
  intro h
  linarith

/-- C84, refuted: after `init` the solution at the current time is not the given one until the first step has been made. -/
theorem C84_refuted_init {n : ℕ} (hn : 0 < n) (pos vel : Vec n) (t h0 : ℝ) (i : ℕ) : getSol hn (init (construct n) pos vel (some t) h0) t i = 0 := by
  simp [getSol, solPos, solVel, init, construct]

/-- C84, refuted: an index beyond 2*numVar-1 is not rejected, contrary to the documentation: it is treated as that of some component of the velocity. -/
theorem C84_refuted_index {n : ℕ} (hn : 0 < n) (s : State n) (t : ℝ) (i : Fin n) (k : ℕ) : getSol hn s t (i + (k + 1) * n) = solVel s t i := by
  have h1 : ¬ (i : ℕ) + (k + 1) * n < n := by nlinarith
  have h2 : ((i : ℕ) + (k + 1) * n) % n = i := by rw [Nat.add_mul_mod_self_right, Nat.mod_eq_of_lt i.2]
  rw [getSol, if_neg h1]
  congr 1
  exact Fin.ext h2

/-- C84, refuted: the motion without acceleration cannot be integrated with an automatically chosen timestep: after the first step the estimate of the next one is undefined. -/
theorem C84_refuted_free {n : ℕ} (S : Sys n) (hS : ∀ t x v, S.acc t x v = 0 ∧ S.jrk t x v = 0) (accRel : ℝ) (s : State n) (dt : Dt) {r : ℝ} {s' : State n}
    (h : doStep S accRel dt s = some (r, s')) (fwd : Bool) : doStep S accRel (.auto fwd) s' = none := by
  have hn : s'.next = .nan := by
    unfold doStep at h
    split at h
    next => cases h
    next h0 left he =>
      obtain ⟨d, h1, nx, h2, h3⟩ := loop_spec S accRel (begin_ S s) left h0
      simp only [Option.some.injEq, Prod.mk.injEq] at h
      obtain ⟨hr, hs⟩ := h
      rw [h1, h2] at hs
      subst hs
      show nx = .nan
      rw [h3]
      simp [estimate, predict, begin_, (hS _ _ _).1, (hS _ _ _).2]
  rw [doStep, firstStep, hn]

/-- For example, a free particle -/
example : ∃ s', doStep (⟨fun _ _ _ => 0, fun _ _ _ => 0⟩ : Sys 1) 1 (.given 1) (init (construct 1) 0 (fun _ => 1) (some 0) 1) = some (1, s') ∧ s'.newpos 0 = 1 ∧
    doStep (⟨fun _ _ _ => 0, fun _ _ _ => 0⟩ : Sys 1) 1 (.auto true) s' = none := by
  obtain ⟨s', h1, h2⟩ := (C84_step (⟨fun _ _ _ => 0, fun _ _ _ => 0⟩ : Sys 1) 1 one_pos (init (construct 1) 0 (fun _ => 1) (some 0) 1)).1 1
  refine ⟨s', h1, ?_, C84_refuted_free _ (fun _ _ _ => ⟨rfl, rfl⟩) 1 _ _ h1 true⟩
  rw [(C84_exact h2 0 0 0 0 (by simp) (by simp) 0).2.1]
  simp [init]

/-- An automatically chosen step with a rejection: the acceleration t^3, the initial estimate of the step 1 and a low value of accRel -/
example : ∃ r s', doStep cubic 0.01 (.auto true) (init (construct 1) 0 0 (some 0) 1) = some (r, s') ∧ 0 ≤ r ∧ r ≤ 1 ∧ Stepped cubic (init (construct 1) 0 0 (some 0) 1) r s' := by
  have hn : (init (construct 1) 0 0 (some 0) 1).next = .fin 1 := by simp [init, construct]
  obtain ⟨r, s', h1, h2, h3, h4⟩ := (C84_step cubic 0.01 (by norm_num) (init (construct 1) 0 0 (some 0) 1)).2.1 1 hn one_pos
  exact ⟨r, s', h1, h3, h4, h2⟩

/-! ## Order -/

open Asymptotics Topology Filter

/-- C84: the order of the method. Let X(t) be the exact solution of the equation X''=acc(X) with 6 derivatives (velocity V, acceleration A, and so on) and initial conditions as in
the current state. Then the errors of the new position and velocity after one step of length h are O(h^5), i.e. the method is of order 4. -/
theorem C84_order {n : ℕ} (acc : Vec n → Vec n) (jrk : Vec n × Vec n → Vec n) (S : Sys n) (hSa : ∀ t x v, S.acc t x v = acc x) (hSj : ∀ t x v, S.jrk t x v = jrk (x, v))
    (s : State n) (hacc : ContDiffAt ℝ 1 acc s.newpos) (hjrk : ContDiffAt ℝ 1 jrk (s.newpos, s.newvel)) (X V A J B C D : ℝ → Vec n)
    (hX : ∀ᶠ t in 𝓝 (0 : ℝ), HasDerivAt X (V t) t) (hV : ∀ᶠ t in 𝓝 (0 : ℝ), HasDerivAt V (A t) t) (hA : ∀ᶠ t in 𝓝 (0 : ℝ), HasDerivAt A (J t) t)
    (hJ : ∀ᶠ t in 𝓝 (0 : ℝ), HasDerivAt J (B t) t) (hB : ∀ᶠ t in 𝓝 (0 : ℝ), HasDerivAt B (C t) t) (hC : ∀ᶠ t in 𝓝 (0 : ℝ), HasDerivAt C (D t) t)
    (hD : D =O[𝓝 0] fun _ => (1 : ℝ)) (hX0 : X 0 = s.newpos) (hV0 : V 0 = s.newvel) (eA : ∀ t, A t = acc (X t)) (eJ : ∀ t, J t = jrk (X t, V t))
    (s' : ℝ → State n) (hs : ∀ h, Stepped S s h (s' h)) :
    (fun h => (s' h).newvel - V h) =O[𝓝 0] (fun h => h ^ 5) ∧ (fun h => (s' h).newpos - X h) =O[𝓝 0] (fun h => h ^ 5) := by
  -- Taylor expansions
  have aux : ∀ (F F' : ℝ → Vec n) (P P' : ℝ → Vec n) (m : ℕ), (∀ᶠ t in 𝓝 (0 : ℝ), HasDerivAt F (F' t) t) → (∀ t, HasDerivAt P (P' t) t) → P 0 = F 0 →
      ((fun t => F' t - P' t) =O[𝓝 0] fun t => t ^ m) → (fun t => F t - P t) =O[𝓝 0] fun t => t ^ (m + 1) := by
    intro F F' P P' m hF hP h0 hb
    refine isBigO_of_deriv (g' := fun t => F' t - P' t) (by rw [h0, sub_self]) ?_ hb
    filter_upwards [hF] with t ht using ht.sub (hP t)
  have hpw : ∀ (k : ℕ) (c : ℝ) (v : Vec n) (t : ℝ), HasDerivAt (fun t : ℝ => (t ^ k * c) • v) ((k * t ^ (k - 1) * c) • v) t := fun k c v t =>
    ((hasDerivAt_pow k t).mul_const c).smul_const v
  have hcst : ∀ (v : Vec n) (t : ℝ), HasDerivAt (fun _ : ℝ => v) 0 t := fun v t => hasDerivAt_const t v
  have tC : (fun t => C t - C 0) =O[𝓝 0] fun t => t ^ 1 := aux C D (fun _ => C 0) (fun _ => 0) 0 hC (hcst _) rfl (by simpa using hD)
  have tB : (fun t => B t - (B 0 + (t ^ 1 * 1) • C 0)) =O[𝓝 0] fun t => t ^ 2 := by
    refine aux B C _ (fun t => C 0) 1 hB (fun t => ((hpw 1 1 (C 0) t).const_add (B 0)).congr_deriv (by simp)) (by simp) tC
  have tJ : (fun t => J t - (J 0 + (t ^ 1 * 1) • B 0 + (t ^ 2 * (1 / 2)) • C 0)) =O[𝓝 0] fun t => t ^ 3 := by
    refine aux J B _ (fun t => B 0 + (t ^ 1 * 1) • C 0) 2 hJ (fun t => (((hpw 1 1 (B 0) t).const_add (J 0)).add (hpw 2 (1 / 2) (C 0) t)).congr_deriv ?_) (by simp) tB
    norm_num
    ring_nf
  have tA : (fun t => A t - (A 0 + (t ^ 1 * 1) • J 0 + (t ^ 2 * (1 / 2)) • B 0 + (t ^ 3 * (1 / 6)) • C 0)) =O[𝓝 0] fun t => t ^ 4 := by
    refine aux A J _ _ 3 hA (fun t => ((((hpw 1 1 (J 0) t).const_add (A 0)).add (hpw 2 (1 / 2) (B 0) t)).add (hpw 3 (1 / 6) (C 0) t)).congr_deriv ?_) (by simp) tJ
    norm_num
    ring_nf
  have tV : (fun t => V t - (V 0 + (t ^ 1 * 1) • A 0 + (t ^ 2 * (1 / 2)) • J 0 + (t ^ 3 * (1 / 6)) • B 0 + (t ^ 4 * (1 / 24)) • C 0)) =O[𝓝 0] fun t => t ^ 5 := by
    refine aux V A _ _ 4 hV (fun t => (((((hpw 1 1 (A 0) t).const_add (V 0)).add (hpw 2 (1 / 2) (J 0) t)).add (hpw 3 (1 / 6) (B 0) t)).add (hpw 4 (1 / 24) (C 0) t)).congr_deriv ?_)
      (by simp) tA
    norm_num
    ring_nf
  have tX : (fun t => X t - (X 0 + (t ^ 1 * 1) • V 0 + (t ^ 2 * (1 / 2)) • A 0 + (t ^ 3 * (1 / 6)) • J 0 + (t ^ 4 * (1 / 24)) • B 0 + (t ^ 5 * (1 / 120)) • C 0)) =O[𝓝 0] fun t => t ^ 6 := by
    refine aux X V _ _ 5 hX (fun t => ((((((hpw 1 1 (V 0) t).const_add (X 0)).add (hpw 2 (1 / 2) (A 0) t)).add (hpw 3 (1 / 6) (J 0) t)).add (hpw 4 (1 / 24) (B 0) t)).add
      (hpw 5 (1 / 120) (C 0) t)).congr_deriv ?_) (by simp) tV
    norm_num
    ring_nf
  -- the predicted point
  choose xp vp hxp hvp hna hnj using fun h => (hs h).newacc
  have a0 : ∀ h, (s' h).oldacc = A 0 := fun h => by rw [(hs h).oldacc, hSa, eA, hX0]
  have j0 : ∀ h, (s' h).oldjrk = J 0 := fun h => by rw [(hs h).oldjrk, hSj, eJ, hX0, hV0]
  have rp : ∀ (k m : ℕ), m ≤ k → ∀ (c : ℝ) (v : Vec n), (fun t : ℝ => (t ^ k * c) • v) =O[𝓝 0] fun t => t ^ m := fun k m h c v => isBigO_term h c v
  have pX : (fun h => xp h - X h) =O[𝓝 0] fun h => h ^ 4 := by
    have := ((tX.trans (isBigO_pow (show 4 ≤ 6 by omega))).add ((rp 4 4 le_rfl (1 / 24) (B 0)).add (rp 5 4 (by omega) (1 / 120) (C 0)))).neg_left
    refine this.congr_left fun h => ?_
    funext i
    simp only [Pi.neg_apply, Pi.add_apply, Pi.sub_apply, Pi.smul_apply, smul_eq_mul]
    rw [hxp h i, a0, j0, hX0, hV0]
    ring
  have pV : (fun h => vp h - V h) =O[𝓝 0] fun h => h ^ 3 := by
    have := ((tV.trans (isBigO_pow (show 3 ≤ 5 by omega))).add ((rp 3 3 le_rfl (1 / 6) (B 0)).add (rp 4 3 (by omega) (1 / 24) (C 0)))).neg_left
    refine this.congr_left fun h => ?_
    funext i
    simp only [Pi.neg_apply, Pi.add_apply, Pi.sub_apply, Pi.smul_apply, smul_eq_mul]
    rw [hvp h i, a0, j0, hV0]
    ring
  have lX : Tendsto X (𝓝 0) (𝓝 s.newpos) := by
    rw [← hX0]; exact hX.self_of_nhds.continuousAt
  have lV : Tendsto V (𝓝 0) (𝓝 s.newvel) := by
    rw [← hV0]; exact hV.self_of_nhds.continuousAt
  have t0 : ∀ m : ℕ, 0 < m → Tendsto (fun h : ℝ => h ^ m) (𝓝 0) (𝓝 0) := by
    intro m hm
    have := (continuous_pow m).tendsto (0 : ℝ)
    rwa [zero_pow hm.ne'] at this
  have lxp : Tendsto xp (𝓝 0) (𝓝 s.newpos) := by
    have h1 := (pX.trans_tendsto (t0 4 (by omega))).add lX
    simpa using h1
  have lvp : Tendsto vp (𝓝 0) (𝓝 s.newvel) := by
    have h1 := (pV.trans_tendsto (t0 3 (by omega))).add lV
    simpa using h1
  have lip : ∀ {E : Type} [NormedAddCommGroup E] [NormedSpace ℝ E] (f : E → Vec n) (z : E) (P Q : ℝ → E) (m : ℕ), ContDiffAt ℝ 1 f z → Tendsto P (𝓝 0) (𝓝 z) → Tendsto Q (𝓝 0) (𝓝 z) →
      ((fun h => P h - Q h) =O[𝓝 0] fun h => h ^ m) → (fun h => f (P h) - f (Q h)) =O[𝓝 0] fun h => h ^ m := by
    intro E _ _ f z P Q m hf hP hQ hb
    obtain ⟨K, U, hU, hL⟩ := hf.exists_lipschitzOnWith
    refine IsBigO.trans (IsBigO.of_bound K ?_) hb
    filter_upwards [hP hU, hQ hU] with h h1 h2
    simpa [dist_eq_norm] using hL.dist_le_mul (P h) h1 (Q h) h2
  have dA : (fun h => (s' h).newacc - A h) =O[𝓝 0] fun h => h ^ 4 := by
    refine (lip acc s.newpos xp X 4 hacc lxp lX pX).congr_left fun h => ?_
    rw [hna, hSa, eA]
  have dJ : (fun h => (s' h).newjrk - J h) =O[𝓝 0] fun h => h ^ 3 := by
    refine (lip jrk (s.newpos, s.newvel) (fun h => (xp h, vp h)) (fun h => (X h, V h)) 3 hjrk (lxp.prodMk_nhds lvp) (lX.prodMk_nhds lV) ?_).congr_left fun h => ?_
    · exact (pX.trans (isBigO_pow (show 3 ≤ 4 by omega))).prod_left pV
    · rw [hnj, hSj, eJ]
  have mulh : ∀ (k m : ℕ) (c : ℝ) (F : ℝ → Vec n), (F =O[𝓝 0] fun h => h ^ m) → (fun h : ℝ => (h ^ k * c) • F h) =O[𝓝 0] fun h => h ^ (k + m) := by
    intro k m c F hF
    have h1 : (fun h : ℝ => h ^ k * c) =O[𝓝 0] fun h => h ^ k := by
      simpa [mul_comm] using (isBigO_refl (fun h : ℝ => h ^ k) (𝓝 0)).const_mul_left c
    refine (h1.smul hF).congr_right fun h => ?_
    rw [smul_eq_mul, pow_add]
  have rV : (fun h => (s' h).newvel - V h) =O[𝓝 0] fun h => h ^ 5 := by
    have := ((((mulh 1 4 (1 / 2) _ dA).add (mulh 2 3 (-1 / 12) _ dJ)).add (mulh 1 4 (1 / 2) _ tA)).add (mulh 2 3 (-1 / 12) _ tJ)).sub tV
    refine this.congr_left fun h => ?_
    funext i
    simp only [Pi.add_apply, Pi.sub_apply, Pi.smul_apply, smul_eq_mul]
    rw [(hs h).newvel i, a0, j0, hV0]
    ring
  refine ⟨rV, ?_⟩
  have := ((((mulh 1 4 (1 / 2) _ (rV.trans (isBigO_pow (show 4 ≤ 5 by omega)))).add (mulh 2 3 (-1 / 12) _ (dA.trans (isBigO_pow (show 3 ≤ 4 by omega))))).add
    (mulh 2 3 (-1 / 12) _ (tA.trans (isBigO_pow (show 3 ≤ 4 by omega))))).add (mulh 1 4 (1 / 2) _ (tV.trans (isBigO_pow (show 4 ≤ 5 by omega))))).sub
      (tX.trans (isBigO_pow (show 5 ≤ 6 by omega)))
  refine (this.add (rp 5 5 le_rfl (-1 / 720) (C 0))).congr_left fun h => ?_
  funext i
  simp only [Pi.add_apply, Pi.sub_apply, Pi.smul_apply, smul_eq_mul]
  rw [(hs h).newpos i, a0, hX0, hV0]
  ring

/-- The hypotheses of `C84_order` are satisfied by the harmonic oscillator. -/
example (s : State 1) (hp : s.newpos = fun _ => 1) (hv : s.newvel = fun _ => 0) (s' : ℝ → State 1)
    (hs : ∀ h, Stepped (⟨fun _ x _ => -x, fun _ _ v => -v⟩ : Sys 1) s h (s' h)) :
    (fun h => (s' h).newvel - fun _ => -Real.sin h) =O[𝓝 0] (fun h => h ^ 5) ∧ (fun h => (s' h).newpos - fun _ => Real.cos h) =O[𝓝 0] (fun h => h ^ 5) := by
  have c : ∀ (f f' : ℝ → ℝ), (∀ t, HasDerivAt f (f' t) t) → ∀ᶠ t in 𝓝 (0 : ℝ), HasDerivAt (fun t => (fun _ => f t : Vec 1)) (fun _ => f' t) t :=
    fun f f' h => Eventually.of_forall fun t => hasDerivAt_pi.2 fun _ => h t
  have h1 : ∀ t, HasDerivAt (fun t => -Real.sin t) (-Real.cos t) t := fun t => (Real.hasDerivAt_sin t).neg
  have h2 : ∀ t, HasDerivAt (fun t => -Real.cos t) (Real.sin t) t := fun t => (Real.hasDerivAt_cos t).neg.congr_deriv (neg_neg _)
  refine C84_order (fun x => -x) (fun x => -x.2) _ (fun _ _ _ => rfl) (fun _ _ _ => rfl) s contDiffAt_id.neg contDiffAt_snd.neg
    (fun t _ => Real.cos t) (fun t _ => -Real.sin t) (fun t _ => -Real.cos t) (fun t _ => Real.sin t) (fun t _ => Real.cos t) (fun t _ => -Real.sin t) (fun t _ => -Real.cos t)
    (c _ _ Real.hasDerivAt_cos) (c _ _ h1) (c _ _ h2) (c _ _ Real.hasDerivAt_sin) (c _ _ Real.hasDerivAt_cos) (c _ _ h1) ?_ ?_ ?_ ?_ ?_ s' hs
  · refine IsBigO.of_bound 1 (Eventually.of_forall fun t => ?_)
    refine (pi_norm_const_le _).trans ?_
    simp [Real.abs_cos_le_one]
  · rw [hp]; simp
  · rw [hv]; simp
  · intro t; rfl
  · intro t; funext i; simp

end

end Verif.Ode.Hermite
