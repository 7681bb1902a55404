import Mathlib.Algebra.Order.Archimedean.Real.Basic
import Mathlib.Algebra.Order.Floor.Ring
import Mathlib.Tactic.Linarith
import Mathlib.Tactic.Ring
import Mathlib.Tactic.LinearCombination
import Mathlib.Tactic.Positivity
import Mathlib.Tactic.FieldSimp
import Mathlib.Tactic.NormNum

/-! Orbit integration: the loop over time steps and the recording of the trajectory (/repo/src/orbit.cpp:10-77, orbit.h:77-110, 290-330); C81.
Times are exact real numbers. The ODE solver is any object with the interface of `math::BaseOdeSolver`. -/
namespace Verif.Orbit

noncomputable section

/-! ## Model -/

/-- math_ode.h, BaseOdeSolver: `doStep(sign)` with an automatically chosen length of the step (`true`: forward, +0.0; `false`: backward, -0.0), returns
the length of the step; `getTime()`; `getSol(t)` (all components together). -/
structure Solver (σ X : Type*) where
  doStep : Bool → σ → ℝ × σ
  getTime : σ → ℝ
  getSol : σ → ℝ → X

/-- orbit.h:57-74, BaseRuntimeFnc::processTimestep, restricted to functions that observe the orbit but do not reset it by calling `init()`.
All functions share the state τ (each one may use its own part of it). -/
abbrev Fnc (σ τ : Type*) := σ → ℝ → ℝ → τ → Bool × τ

variable {σ X τ : Type*}

/-- orbit.cpp:69-71: `for(i=0; contin && i<fncs.size(); i++) contin &= fncs[i]->processTimestep(prevTime, currentTime)` -/
def callFncs (fncs : List (Fnc σ τ)) (s : σ) (prevTime currentTime : ℝ) (st : τ) : Bool × τ :=
  fncs.foldl (fun c f => if c.1 then f s prevTime currentTime c.2 else c) (true, st)

/-- C81: the runtime functions are called in turn at each step. If all of them return true, all are called and the integration continues; the first one
that returns false stops the integration, and the functions after it are not called at this step. -/
theorem C81_callFncs (fncs : List (Fnc σ τ)) (s : σ) (t0 t1 : ℝ) (st : τ) :
    (∃ sts : ℕ → τ, sts 0 = st ∧ (∀ i (h : i < fncs.length), fncs[i] s t0 t1 (sts i) = (true, sts (i + 1))) ∧
      callFncs fncs s t0 t1 st = (true, sts fncs.length)) ∨
    (∃ k, ∃ hk : k < fncs.length, ∃ sts : ℕ → τ, sts 0 = st ∧ (∀ i (h : i < k), (fncs[i]'(by omega)) s t0 t1 (sts i) = (true, sts (i + 1))) ∧
      fncs[k] s t0 t1 (sts k) = (false, sts (k + 1)) ∧ callFncs fncs s t0 t1 st = (false, sts (k + 1))) := by
  have stay : ∀ (l : List (Fnc σ τ)) (st : τ), l.foldl (fun c f => if c.1 then f s t0 t1 c.2 else c) (false, st) = (false, st) := by
    intro l
    induction l with
    | nil => intro st; rfl
    | cons f l ih => intro st; rw [List.foldl_cons]; simpa using ih st
  induction fncs generalizing st with
  | nil => exact Or.inl ⟨fun _ => st, rfl, fun i h => absurd h (by simp), rfl⟩
  | cons f l ih =>
    have hc : callFncs (f :: l) s t0 t1 st = l.foldl (fun c f => if c.1 then f s t0 t1 c.2 else c) (f s t0 t1 st) := by
      simp [callFncs]
    rcases hf : f s t0 t1 st with ⟨b, st'⟩
    rw [hf] at hc
    cases b with
    | false =>
      refine Or.inr ⟨0, by simp, fun i => if i = 0 then st else st', by simp, fun i h => absurd h (by omega), by simpa using hf, ?_⟩
      rw [hc, stay]; simp
    | true =>
      have hc' : callFncs (f :: l) s t0 t1 st = callFncs l s t0 t1 st' := hc
      rcases ih st' with ⟨sts, h0, h1, h2⟩ | ⟨k, hk, sts, h0, h1, h2, h3⟩
      · refine Or.inl ⟨fun i => if i = 0 then st else sts (i - 1), by simp, ?_, ?_⟩
        · intro i h
          cases i with
          | zero => simp [hf, h0]
          | succ i => simpa using h1 i (by simpa using h)
        · rw [hc', h2]; simp
      · refine Or.inr ⟨k + 1, by simpa using hk, fun i => if i = 0 then st else sts (i - 1), by simp, ?_, ?_, ?_⟩
        · intro i h
          cases i with
          | zero => simp [hf, h0]
          | succ i => simpa using h1 i (by omega)
        · simpa using h2
        · rw [hc', h3]; simp

/-- The result of the loop: the time reached, the states of the solver and of the functions, and why it ended. -/
inductive Reason | endTime | error | fnc | maxSteps
  deriving DecidableEq

open Classical in
/-- orbit.cpp:60-76: `while(true)`; `left` is the number of further steps allowed after the present one, `fwd` is sign>0. -/
def runLoop (sol : Solver σ X) (fncs : List (Fnc σ τ)) (fwd : Bool) (endTime : ℝ) : ℕ → ℝ → σ → τ → ℝ × σ × τ × Reason
  | left, currentTime, s, st =>
    let sign : ℝ := if fwd then 1 else -1
    let step := sol.doStep fwd s
    if ¬ (step.1 * sign > 0) then (currentTime, step.2, st, .error) else
    let prevTime := currentTime
    let currentTime := min (sol.getTime step.2 * sign) (endTime * sign) * sign
    let r := callFncs fncs step.2 prevTime currentTime st
    if !r.1 then (currentTime, step.2, r.2, .fnc)
    else if currentTime * sign ≥ endTime * sign then (currentTime, step.2, r.2, .endTime)
    else match left with
      | 0 => (currentTime, step.2, r.2, .maxSteps)
      | left + 1 => runLoop sol fncs fwd endTime left currentTime step.2 r.2

open Classical in
/-- orbit.cpp:53-77, BaseOrbitIntegrator::run: the returned position, the final states and the reason (none if nothing was done).
`++numSteps >= maxNumSteps` is tested at the end of each step, so at least one step is made. -/
def run (sol : Solver σ X) (fncs : List (Fnc σ τ)) (maxNumSteps : ℕ) (totalTime : ℝ) (s : σ) (st : τ) : X × σ × τ × Option Reason :=
  if totalTime = 0 then (sol.getSol s (sol.getTime s), s, st, none) else
  let r := runLoop sol fncs (decide (totalTime > 0)) (totalTime + sol.getTime s) (maxNumSteps - 1) (sol.getTime s) s st
  (sol.getSol r.2.1 r.1, r.2.1, r.2.2.1, some r.2.2.2)

/-- orbit.cpp:11: `ROUNDOFF = 10*DBL_EPSILON` -/
def ROUNDOFF : ℝ := 10 * (1 / 2 ^ 52)

open Classical in
/-- `static_cast<ptrdiff_t>`: truncation towards zero -/
def trunc (x : ℝ) : ℤ := if 0 ≤ x then ⌊x⌋ else ⌈x⌉

/-- orbit.h:80-98: the state of RuntimeTrajectory; t0=none stands for NAN; elements of the array created by `resize` but not assigned are none. -/
structure Traj (X : Type*) where
  t0 : Option ℝ
  trajectory : List (Option (X × ℝ))

/-- `trajectory[i] = v`; none if out of bounds -/
def assign {A : Type*} (l : List (Option A)) (i : ℤ) (v : A) : Option (List (Option A)) :=
  if 0 ≤ i ∧ i < l.length then some (l.set i.toNat (some v)) else none

/-- `std::vector::resize`; a negative size is an error -/
def resize {A : Type*} (l : List (Option A)) (n : ℤ) : Option (List (Option A)) :=
  if 0 ≤ n then some (l.take n.toNat ++ List.replicate (n.toNat - l.length) none) else none

open Classical in
/-- orbit.cpp:26-37: regular sampling -/
def sampleRegular (getSol : ℝ → X) (samplingInterval t0 tbegin tend : ℝ) (trajectory : List (Option (X × ℝ))) : Option (List (Option (X × ℝ))) := do
  let sign : ℝ := if tend ≥ tbegin then 1 else -1
  let dtroundoff := ROUNDOFF * max (max |tend| |tbegin|) |t0|
  let ibegin := trunc ((sign * (tbegin - t0) - dtroundoff) / samplingInterval)
  let iend := trunc ((sign * (tend - t0) + dtroundoff) / samplingInterval)
  let trajectory ← resize trajectory (iend + 1)
  (List.range (iend + 1 - ibegin).toNat).foldlM (fun trajectory (k : ℕ) =>
    let iout := ibegin + (k : ℤ)
    let tout := sign * samplingInterval * iout + t0
    if sign * tout ≥ sign * tbegin - dtroundoff ∧ sign * tout ≤ sign * tend + dtroundoff then assign trajectory iout (getSol tout, tout)
    else some trajectory) trajectory

open Classical in
/-- orbit.cpp:15-46, RuntimeTrajectory::processTimestep; `samplingInterval = none` is INFINITY. The result is none if some array access is out of bounds. -/
def processTimestep (samplingInterval : Option ℝ) (getSol : ℝ → X) (tbegin tend : ℝ) (st : Traj X) : Option (Traj X) :=
  let t0 := st.t0.getD tbegin
  match samplingInterval with
  | none =>
    let trajectory := if st.trajectory.isEmpty then [none] else st.trajectory
    some ⟨some t0, trajectory.set 0 (some (getSol tend, tend))⟩
  | some dt =>
    if dt > 0 then (sampleRegular getSol dt t0 tbegin tend st.trajectory).map fun tr => ⟨some t0, tr⟩
    else
      let trajectory := if st.trajectory.isEmpty then [some (getSol tbegin, tbegin)] else st.trajectory
      some ⟨some t0, trajectory ++ [some (getSol tend, tend)]⟩

/-- RuntimeTrajectory as a runtime function (it always returns true); once an access has been out of bounds, the state is none. -/
def trajectoryFnc (sol : Solver σ X) (samplingInterval : Option ℝ) : Fnc σ (Option (Traj X)) := fun s tbegin tend st =>
  (true, st.bind (processTimestep samplingInterval (sol.getSol s) tbegin tend))

/-- orbit.h:305-330, integrateTraj: `init` is the solver after `init(initialConditions, startTime)`. -/
def integrateTraj (sol : Solver σ X) (maxNumSteps : ℕ) (totalTime : ℝ) (samplingInterval : Option ℝ) (init : σ) : Option (Traj X) :=
  (run sol [trajectoryFnc sol samplingInterval] maxNumSteps totalTime init (some ⟨none, []⟩)).2.2.1

/-! ## Specification -/

/-- The length of the step returned by the solver is the increment of its time. -/
def Solver.Advances (sol : Solver σ X) : Prop := ∀ b s, sol.getTime (sol.doStep b s).2 = sol.getTime s + (sol.doStep b s).1

/-- One call of the runtime functions: the state of the solver after the step, and the beginning and the end of the interval. -/
structure Call (σ : Type*) where
  state : σ
  tbegin : ℝ
  tend : ℝ

/-- A sequence of calls covers the way from `t` (where the solver is in the state `s`) towards `endTime` without gaps: each interval begins where the
previous one ended, is not empty, and ends where the solver is after its step, or at `endTime` if the latter is within the step. -/
def Covers (sol : Solver σ X) (fwd : Bool) (endTime : ℝ) : ℝ → σ → List (Call σ) → Prop
  | _, _, [] => True
  | t, s, c :: rest => c.state = (sol.doStep fwd s).2 ∧ c.tbegin = t ∧
      (if fwd then c.tbegin < c.tend ∧ c.tend = min (sol.getTime c.state) endTime else c.tend < c.tbegin ∧ c.tend = max (sol.getTime c.state) endTime) ∧
      Covers sol fwd endTime c.tend c.state rest

/-- The time and the state of the solver after these calls. -/
def lastOf (t : ℝ) (s : σ) : List (Call σ) → ℝ × σ
  | [] => (t, s)
  | c :: rest => lastOf c.tend c.state rest

/-- The functions applied to the calls one after another. -/
def applyAll (fncs : List (Fnc σ τ)) (calls : List (Call σ)) (st : τ) : τ :=
  calls.foldl (fun st c => (callFncs fncs c.state c.tbegin c.tend st).2) st

/-! ## The loop -/

/-- What the loop does, described by the sequence of calls. -/
def LoopSpec (sol : Solver σ X) (fncs : List (Fnc σ τ)) (fwd : Bool) (endTime : ℝ) (maxCalls : ℕ) (s : σ) (st : τ) (r : ℝ × σ × τ × Reason)
    (calls : List (Call σ)) : Prop :=
  Covers sol fwd endTime (sol.getTime s) s calls ∧ calls.length ≤ maxCalls ∧
  r.1 = (lastOf (sol.getTime s) s calls).1 ∧ r.2.2.1 = applyAll fncs calls st ∧
  (r.2.2.2 ≠ .error → calls ≠ [] ∧ r.2.1 = (lastOf (sol.getTime s) s calls).2) ∧
  (r.2.2.2 = .endTime → (lastOf (sol.getTime s) s calls).1 = endTime) ∧
  (r.2.2.2 = .error → ¬ (if fwd then 0 < (sol.doStep fwd (lastOf (sol.getTime s) s calls).2).1 else (sol.doStep fwd (lastOf (sol.getTime s) s calls).2).1 < 0)) ∧
  (r.2.2.2 = .fnc → ∃ before c, calls = before ++ [c] ∧ (callFncs fncs c.state c.tbegin c.tend (applyAll fncs before st)).1 = false) ∧
  (r.2.2.2 = .maxSteps → calls.length = maxCalls)

theorem runLoop_spec (sol : Solver σ X) (ha : sol.Advances) (fncs : List (Fnc σ τ)) (fwd : Bool) (endTime : ℝ) (left : ℕ) (s : σ) (st : τ)
    (h : if fwd then sol.getTime s < endTime else endTime < sol.getTime s) :
    ∃ calls : List (Call σ), LoopSpec sol fncs fwd endTime (left + 1) s st (runLoop sol fncs fwd endTime left (sol.getTime s) s st) calls := by
  classical
  induction left using Nat.strong_induction_on generalizing s st with
  | _ left ih =>
  rw [runLoop.eq_def]
  dsimp only
  have hadv := ha fwd s
  by_cases hstep : ¬ ((sol.doStep fwd s).1 * (if fwd = true then 1 else -1) > 0)
  · rw [if_pos hstep]
    refine ⟨[], trivial, by simp, rfl, rfl, by simp, by simp, ?_, by simp, by simp⟩
    intro _
    simp only [lastOf]
    cases fwd <;> simp at hstep ⊢ <;> exact hstep
  rw [if_neg hstep]
  push Not at hstep
  set s' := (sol.doStep fwd s).2 with hs'
  set cur := min (sol.getTime s' * (if fwd = true then 1 else -1)) (endTime * (if fwd = true then 1 else -1)) * (if fwd = true then 1 else -1) with hcur
  have hint : if fwd then sol.getTime s < cur ∧ cur = min (sol.getTime s') endTime else cur < sol.getTime s ∧ cur = max (sol.getTime s') endTime := by
    cases fwd
    · simp only [Bool.false_eq_true, if_false] at *
      have e : cur = max (sol.getTime s') endTime := by
        rw [hcur, mul_neg_one, mul_neg_one, mul_neg_one, ← max_neg_neg, neg_neg, neg_neg]
      exact ⟨by rw [e, max_lt_iff]; exact ⟨by linarith, h⟩, e⟩
    · simp only [if_true, mul_one] at *
      exact ⟨by rw [hcur, lt_min_iff]; exact ⟨by linarith, h⟩, hcur⟩
  set c : Call σ := ⟨s', sol.getTime s, cur⟩ with hc
  by_cases hr : (callFncs fncs s' (sol.getTime s) cur st).1 = true
  · rw [if_neg (by rw [hr]; simp)]
    by_cases hend : cur * (if fwd = true then 1 else -1) ≥ endTime * (if fwd = true then 1 else -1)
    · rw [if_pos hend]
      refine ⟨[c], ⟨rfl, rfl, hint, trivial⟩, by simp, rfl, rfl, by simp [lastOf, hc], ?_, by simp, by simp, by simp⟩
      intro _
      rw [lastOf, lastOf]
      cases fwd
      · simp only [Bool.false_eq_true, if_false] at *
        exact le_antisymm (by linarith) (by rw [hc]; dsimp only; rw [hint.2]; exact le_max_right _ _)
      · simp only [if_true, mul_one] at *
        exact le_antisymm (by rw [hc]; dsimp only; rw [hint.2]; exact min_le_right _ _) hend
    · rw [if_neg hend]
      have hnext : cur = sol.getTime s' ∧ if fwd then sol.getTime s' < endTime else endTime < sol.getTime s' := by
        cases fwd
        · simp only [Bool.false_eq_true, if_false] at *
          have h1 : endTime < cur := by linarith
          rcases max_choice (sol.getTime s') endTime with h2 | h2
          · rw [h2] at hint; exact ⟨hint.2, by rw [← hint.2]; exact h1⟩
          · rw [h2] at hint; linarith [hint.2]
        · simp only [if_true, mul_one] at *
          push Not at hend
          rcases min_choice (sol.getTime s') endTime with h2 | h2
          · rw [h2] at hint; exact ⟨hint.2, by rw [← hint.2]; exact hend⟩
          · rw [h2] at hint; linarith [hint.2]
      cases left with
      | zero =>
        dsimp only
        exact ⟨[c], ⟨rfl, rfl, hint, trivial⟩, by simp, rfl, rfl, by simp [lastOf, hc], by simp, by simp, by simp, by simp⟩
      | succ left =>
        dsimp only
        rw [hnext.1]
        obtain ⟨calls, i1, i2, i3, i4, i5, i6, i7, i8, i9⟩ := ih left (by omega) s' (callFncs fncs s' (sol.getTime s) (sol.getTime s') st).2 hnext.2
        have el : lastOf (sol.getTime s) s (c :: calls) = lastOf (sol.getTime s') s' calls := by rw [lastOf, hc]; dsimp only; rw [hnext.1]
        have ef : ∀ l, applyAll fncs (c :: l) st = applyAll fncs l (callFncs fncs s' (sol.getTime s) (sol.getTime s') st).2 := by
          intro l; rw [applyAll, applyAll, List.foldl_cons, hc]; dsimp only; rw [hnext.1]
        refine ⟨c :: calls, ⟨rfl, rfl, hint, by rw [hc]; dsimp only; rw [hnext.1]; exact i1⟩, by simpa using i2, by rw [el]; exact i3, by rw [ef]; exact i4,
          fun hh => ⟨by simp, by rw [el]; exact (i5 hh).2⟩, by rw [el]; exact i6, by rw [el]; exact i7, ?_, fun hh => by simpa using i9 hh⟩
        intro hh
        obtain ⟨before, d, e1, e2⟩ := i8 hh
        exact ⟨c :: before, d, by rw [e1]; rfl, by rw [ef]; exact e2⟩
  · rw [if_pos (by simpa using hr)]
    refine ⟨[c], ⟨rfl, rfl, hint, trivial⟩, by simp, rfl, rfl, by simp [lastOf, hc], by simp, by simp, ?_, by simp⟩
    intro _
    exact ⟨[], c, rfl, by simpa [applyAll, hc] using hr⟩

/-- C81: `run`. For any nonzero duration, the runtime functions are called for consecutive intervals of time without gaps, beginning at the current time
of the solver and ending at the prescribed time, unless the solver fails, a function requests to stop, or the number of steps reaches the limit;
the returned value is the solution at the end of the last interval. -/
theorem C81_run (sol : Solver σ X) (ha : sol.Advances) (fncs : List (Fnc σ τ)) (maxNumSteps : ℕ) (totalTime : ℝ) (h : totalTime ≠ 0) (s : σ) (st : τ) :
    ∃ calls t s' reason, LoopSpec sol fncs (decide (0 < totalTime)) (sol.getTime s + totalTime) (max 1 maxNumSteps) s st (t, s', applyAll fncs calls st, reason) calls ∧
      run sol fncs maxNumSteps totalTime s st = (sol.getSol s' t, s', applyAll fncs calls st, some reason) := by
  classical
  have hd : if (decide (0 < totalTime) : Bool) then sol.getTime s < sol.getTime s + totalTime else sol.getTime s + totalTime < sol.getTime s := by
    rcases lt_or_gt_of_ne h with h | h
    · rw [if_neg (by simpa using h.le)]; linarith
    · rw [if_pos (by simpa using h)]; linarith
  obtain ⟨calls, hc⟩ := runLoop_spec sol ha fncs (decide (0 < totalTime)) (sol.getTime s + totalTime) (maxNumSteps - 1) s st hd
  rw [show maxNumSteps - 1 + 1 = max 1 maxNumSteps by omega] at hc
  rw [run, if_neg h]
  dsimp only
  rw [add_comm totalTime]
  simp only [gt_iff_lt]
  set r := runLoop sol fncs (decide (0 < totalTime)) (sol.getTime s + totalTime) (maxNumSteps - 1) (sol.getTime s) s st with hr
  refine ⟨calls, r.1, r.2.1, r.2.2.2, ?_, ?_⟩
  · rw [← hc.2.2.2.1]; exact hc
  · rw [← hc.2.2.2.1]

/-! ## Regular sampling -/

theorem trunc_le {x : ℝ} {i : ℤ} (h : x ≤ i) : trunc x ≤ i := by
  rw [trunc]
  split_ifs with h0
  · exact_mod_cast (Int.floor_le x).trans h
  · exact Int.ceil_le.2 h

theorem trunc_nonneg {x : ℝ} (h : -1 < x) : 0 ≤ trunc x := by
  rw [trunc]
  split_ifs with h0
  · exact Int.floor_nonneg.2 h0
  · have : (-1 : ℤ) < ⌈x⌉ := Int.lt_ceil.2 (by exact_mod_cast h)
    omega

theorem fold_assign (P : ℤ → Prop) [DecidablePred P] (v : ℤ → X) (ibegin : ℤ) (m : ℕ) (l : List (Option X)) (h0 : 0 ≤ ibegin)
    (hm : ibegin + m ≤ l.length) :
    ∃ l', (List.range m).foldlM (fun l (k : ℕ) => if P (ibegin + (k : ℤ)) then assign l (ibegin + (k : ℤ)) (v (ibegin + (k : ℤ))) else some l) l = some l' ∧
      l'.length = l.length ∧ ∀ j : ℕ, l'[j]? = if ibegin ≤ j ∧ (j : ℤ) < ibegin + m ∧ P j then some (some (v j)) else l[j]? := by
  induction m with
  | zero =>
    refine ⟨l, rfl, rfl, fun j => ?_⟩
    rw [if_neg (by push_cast; omega)]
  | succ m ih =>
    obtain ⟨l', e, hl, hj⟩ := ih (by push_cast at hm; omega)
    rw [List.range_succ, List.foldlM_append, e]
    have hm' : ibegin + m < l'.length := by rw [hl]; push_cast at hm; omega
    by_cases hp : P (ibegin + m)
    · refine ⟨l'.set (ibegin + m).toNat (some (v (ibegin + m))), ?_, by rw [List.length_set, hl], ?_⟩
      · simp only [Option.bind_eq_bind, Option.bind_some, List.foldlM_cons, List.foldlM_nil, if_pos hp]
        rw [assign, if_pos ⟨by omega, hm'⟩]; rfl
      · intro j
        rw [List.getElem?_set]
        by_cases hjm : (ibegin + m).toNat = j
        · have e2 : (j : ℤ) = ibegin + m := by omega
          rw [if_pos hjm, if_pos (by omega), if_pos (by rw [e2]; exact ⟨by omega, by push_cast; omega, hp⟩), e2]
        · rw [if_neg hjm, hj]
          congr 1
          rw [eq_iff_iff]
          constructor
          · rintro ⟨a, b, c⟩; exact ⟨a, by push_cast; omega, c⟩
          · rintro ⟨a, b, c⟩; exact ⟨a, by push_cast at b; omega, c⟩
    · refine ⟨l', ?_, hl, ?_⟩
      · simp only [Option.bind_eq_bind, Option.bind_some, List.foldlM_cons, List.foldlM_nil, if_neg hp]; rfl
      · intro j
        rw [hj]
        congr 1
        rw [eq_iff_iff]
        constructor
        · rintro ⟨a, b, c⟩; exact ⟨a, by push_cast; omega, c⟩
        · rintro ⟨a, b, c⟩
          refine ⟨a, ?_, c⟩
          by_contra hc
          have e2 : (j : ℤ) = ibegin + m := by push_cast at b; omega
          rw [e2] at c
          exact hp c

/-- The time steps lie in the direction `sg` from the initial time: `b` is further than `a`. -/
def Ahead (sg t0 a b : ℝ) : Prop := (sg = 1 ∧ t0 ≤ a ∧ a < b) ∨ (sg = -1 ∧ a ≤ t0 ∧ b < a)

theorem abs_mid {sg t0 a b : ℝ} (h : Ahead sg t0 a b) : |a| ≤ max |b| |t0| := by
  rcases h with ⟨_, h1, h2⟩ | ⟨_, h1, h2⟩
  · rw [le_max_iff]
    rcases le_total 0 a with h0 | h0
    · left; rw [abs_of_nonneg h0, abs_of_nonneg (h0.trans h2.le)]; exact h2.le
    · right; rw [abs_of_nonpos h0, abs_of_nonpos (h1.trans h0)]; linarith
  · rw [le_max_iff]
    rcases le_total 0 a with h0 | h0
    · right; rw [abs_of_nonneg h0, abs_of_nonneg (h0.trans h1)]; exact h1
    · left; rw [abs_of_nonpos h0, abs_of_nonpos (h2.le.trans h0)]; linarith

/-- The tolerance of the sampling at the time t. -/
def tolAt (t0 t : ℝ) : ℝ := ROUNDOFF * max |t| |t0|

theorem ROUNDOFF_pos : 0 < ROUNDOFF := by rw [ROUNDOFF]; positivity

theorem tolAt_mono {sg t0 a b : ℝ} (h : Ahead sg t0 a b) : tolAt t0 a ≤ tolAt t0 b :=
  mul_le_mul_of_nonneg_left (max_le (abs_mid h) (le_max_right _ _)) ROUNDOFF_pos.le

theorem tolAt_nonneg (t0 t : ℝ) : 0 ≤ tolAt t0 t := mul_nonneg ROUNDOFF_pos.le ((abs_nonneg _).trans (le_max_left _ _))

/-- The number of the last sample taken until time t. -/
def lastSample (sg dt t0 t : ℝ) : ℤ := ⌊(sg * (t - t0) + tolAt t0 t) / dt⌋

theorem Ahead.progress {sg t0 a b : ℝ} (h : Ahead sg t0 a b) : 0 ≤ sg * (a - t0) ∧ sg * (a - t0) < sg * (b - t0) := by
  rcases h with ⟨e, h1, h2⟩ | ⟨e, h1, h2⟩ <;> subst e <;> constructor <;> linarith

theorem lastSample_mono {sg dt t0 a b : ℝ} (hd : 0 < dt) (h : Ahead sg t0 a b) : lastSample sg dt t0 a ≤ lastSample sg dt t0 b := by
  apply Int.floor_le_floor
  have := tolAt_mono h
  have := h.progress
  rw [div_le_div_iff_of_pos_right hd]
  linarith

/-- The k-th moment of sampling. -/
def sampleTime (sg dt t0 : ℝ) (k : ℕ) : ℝ := t0 + sg * dt * k

/-- One call of the regular sampling. -/
theorem sample_step (getSol : ℝ → X) {sg dt t0 a b : ℝ} (hd : 0 < dt) (h : Ahead sg t0 a b) (hE : tolAt t0 b < dt) (tr : List (Option (X × ℝ)))
    (hn : (tr.length : ℤ) ≤ lastSample sg dt t0 b + 1) (hnew : ∀ k : ℕ, tr.length ≤ k → sg * (a - t0) ≤ dt * k) :
    ∃ tr', sampleRegular getSol dt t0 a b tr = some tr' ∧ (tr'.length : ℤ) = lastSample sg dt t0 b + 1 ∧
      ∀ k < tr'.length, (sg * a - tolAt t0 b ≤ sg * sampleTime sg dt t0 k ∧ sg * sampleTime sg dt t0 k ≤ sg * b + tolAt t0 b ∧
          tr'[k]? = some (some (getSol (sampleTime sg dt t0 k), sampleTime sg dt t0 k))) ∨ (k < tr.length ∧ tr'[k]? = tr[k]?) := by
  classical
  have hsign : (if b ≥ a then (1 : ℝ) else -1) = sg := by
    rcases h with ⟨e, h1, h2⟩ | ⟨e, h1, h2⟩
    · rw [if_pos h2.le, e]
    · rw [if_neg (not_le.2 h2), e]
  have hsq : sg * sg = 1 := by rcases h with ⟨e, _⟩ | ⟨e, _⟩ <;> rw [e] <;> norm_num
  have htol : ROUNDOFF * max (max |b| |a|) |t0| = tolAt t0 b := by
    rw [tolAt]; congr 1
    apply le_antisymm
    · exact max_le (max_le (le_max_left _ _) (abs_mid h)) (le_max_right _ _)
    · exact max_le_max_right _ (le_max_left _ _)
  obtain ⟨p1, p2⟩ := h.progress
  have t0' := tolAt_nonneg t0 b
  have hend : trunc ((sg * (b - t0) + tolAt t0 b) / dt) = lastSample sg dt t0 b := by
    rw [trunc, if_pos (div_nonneg (by linarith) hd.le)]; rfl
  have hend0 : 0 ≤ lastSample sg dt t0 b := Int.floor_nonneg.2 (div_nonneg (by linarith) hd.le)
  set ib := trunc ((sg * (a - t0) - tolAt t0 b) / dt) with hib
  have hib0 : 0 ≤ ib := trunc_nonneg (by rw [lt_div_iff₀ hd]; linarith)
  have hible : ib ≤ lastSample sg dt t0 b := by
    rw [← hend, hib]
    have hx : (sg * (a - t0) - tolAt t0 b) / dt ≤ (sg * (b - t0) + tolAt t0 b) / dt := by rw [div_le_div_iff_of_pos_right hd]; linarith
    rw [trunc, trunc, if_pos (div_nonneg (by linarith : 0 ≤ sg * (b - t0) + tolAt t0 b) hd.le)]
    split_ifs with h0
    · exact Int.floor_le_floor hx
    · exact le_trans (Int.ceil_le.2 (by push_cast; exact (not_le.1 h0).le)) (Int.floor_nonneg.2 (div_nonneg (by linarith) hd.le))
  set tr1 := tr.take (lastSample sg dt t0 b + 1).toNat ++ List.replicate ((lastSample sg dt t0 b + 1).toNat - tr.length) none with htr1
  have hres : resize tr (lastSample sg dt t0 b + 1) = some tr1 := by rw [resize, if_pos (by omega)]
  have hlen1 : (tr1.length : ℤ) = lastSample sg dt t0 b + 1 := by
    rw [htr1, List.length_append, List.length_take, List.length_replicate]; omega
  have hold : ∀ k < tr.length, tr1[k]? = tr[k]? := by
    intro k hk
    rw [htr1, List.getElem?_append_left (by rw [List.length_take]; omega), List.getElem?_take, if_pos (by omega)]
  obtain ⟨tr', e, hl, hj⟩ := fold_assign (X := X × ℝ) (fun i : ℤ => sg * (sg * dt * i + t0) ≥ sg * a - tolAt t0 b ∧ sg * (sg * dt * i + t0) ≤ sg * b + tolAt t0 b)
    (fun i : ℤ => (getSol (sg * dt * i + t0), sg * dt * i + t0)) ib (lastSample sg dt t0 b + 1 - ib).toNat tr1 hib0 (by omega)
  refine ⟨tr', ?_, by rw [hl, hlen1], ?_⟩
  · rw [sampleRegular, hsign, htol]
    dsimp only
    rw [hend, hres]
    exact e
  · intro k hk
    rw [hl] at hk
    have hs : sg * dt * (k : ℤ) + t0 = sampleTime sg dt t0 k := by rw [sampleTime]; push_cast; ring
    have hj := hj k
    rw [hs] at hj
    by_cases hc : ib ≤ (k : ℤ) ∧ (k : ℤ) < ib + (lastSample sg dt t0 b + 1 - ib).toNat ∧
        (sg * sampleTime sg dt t0 k ≥ sg * a - tolAt t0 b ∧ sg * sampleTime sg dt t0 k ≤ sg * b + tolAt t0 b)
    · left
      rw [if_pos hc] at hj
      exact ⟨hc.2.2.1, hc.2.2.2, hj⟩
    · right
      rw [if_neg hc] at hj
      have hk' : k < tr.length := by
        by_contra hkn
        push Not at hkn
        apply hc
        have hd1 := hnew k hkn
        have es : sg * sampleTime sg dt t0 k = sg * t0 + dt * k := by rw [sampleTime]; linear_combination dt * k * hsq
        have hk2 : (k : ℤ) ≤ lastSample sg dt t0 b := by omega
        refine ⟨trunc_le ?_, by omega, ?_, ?_⟩
        · rw [div_le_iff₀ hd]; push_cast; linarith
        · rw [es]; linarith
        · have h3 : (k : ℝ) ≤ (sg * (b - t0) + tolAt t0 b) / dt := by
            have := Int.le_floor.1 hk2
            push_cast at this; exact this
          rw [le_div_iff₀ hd] at h3
          rw [es]; linarith
      exact ⟨hk', by rw [hj, hold k hk']⟩

/-- All samples until the time t are filled with the solution taken from a time step that includes this moment. -/
def Filled (sol : Solver σ X) (sg dt t0 : ℝ) (calls : List (Call σ)) (tr : List (Option (X × ℝ))) : Prop :=
  ∀ k < tr.length, ∃ c ∈ calls, sg * c.tbegin - tolAt t0 c.tend ≤ sg * sampleTime sg dt t0 k ∧ sg * sampleTime sg dt t0 k ≤ sg * c.tend + tolAt t0 c.tend ∧
    tr[k]? = some (some (sol.getSol c.state (sampleTime sg dt t0 k), sampleTime sg dt t0 k))

theorem sample_all (sol : Solver σ X) {fwd : Bool} {sg dt t0 endTime : ℝ} (hsg : sg = if fwd then 1 else -1) (hd : 0 < dt)
    (hE : ∀ t, (if fwd then t0 ≤ t ∧ t ≤ endTime else endTime ≤ t ∧ t ≤ t0) → tolAt t0 t < dt)
    (calls : List (Call σ)) (done : List (Call σ)) (t : ℝ) (ht : if fwd then t0 ≤ t else t ≤ t0) (s : σ) (hc : Covers sol fwd endTime t s calls)
    (st : Traj X) (h0 : st.t0.getD t = t0) (hn : (st.trajectory.length : ℤ) ≤ lastSample sg dt t0 t + 1)
    (hnew : ∀ k : ℕ, st.trajectory.length ≤ k → sg * (t - t0) ≤ dt * k) (hf : Filled sol sg dt t0 done st.trajectory) (hne : calls ≠ []) :
    ∃ tr, applyAll [trajectoryFnc sol (some dt)] calls (some st) = some ⟨some t0, tr⟩ ∧
      (tr.length : ℤ) = lastSample sg dt t0 (lastOf t s calls).1 + 1 ∧ Filled sol sg dt t0 (done ++ calls) tr := by
  induction calls generalizing done t s st with
  | nil => exact absurd rfl hne
  | cons c rest ih =>
    obtain ⟨c1, c2, c3, c4⟩ := hc
    have ha : Ahead sg t0 c.tbegin c.tend := by
      rw [c2] at c3 ⊢
      cases fwd
      · simp only [Bool.false_eq_true, if_false] at *; exact Or.inr ⟨hsg, ht, c3.1⟩
      · simp only [if_true] at *; exact Or.inl ⟨hsg, ht, c3.1⟩
    have ht' : if fwd then t0 ≤ c.tend else c.tend ≤ t0 := by
      cases fwd
      · simp only [Bool.false_eq_true, if_false] at *; linarith [c3.1]
      · simp only [if_true] at *; linarith [c3.1]
    have hE' : tolAt t0 c.tend < dt := by
      apply hE
      cases fwd
      · simp only [Bool.false_eq_true, if_false] at *; exact ⟨by rw [c3.2]; exact le_max_right _ _, ht'⟩
      · simp only [if_true] at *; exact ⟨ht', by rw [c3.2]; exact min_le_right _ _⟩
    obtain ⟨tr, e, hl, hk⟩ := sample_step (sol.getSol c.state) hd ha hE' st.trajectory (hn.trans (by
      have := lastSample_mono hd ha; rw [c2] at this; omega)) (by rw [c2]; exact hnew)
    have happ : (callFncs [trajectoryFnc sol (some dt)] c.state c.tbegin c.tend (some st)).2 = some ⟨some t0, tr⟩ := by
      simp only [callFncs, List.foldl_cons, List.foldl_nil, if_true, trajectoryFnc, Option.bind_some, processTimestep]
      rw [if_pos hd, c2, h0, ← c2, e]; rfl
    have hf' : Filled sol sg dt t0 (done ++ [c]) tr := by
      intro k hkl
      rcases hk k hkl with ⟨q1, q2, q3⟩ | ⟨q1, q2⟩
      · exact ⟨c, by simp, q1, q2, q3⟩
      · obtain ⟨c', m, r1, r2, r3⟩ := hf k q1
        exact ⟨c', by simp [m], r1, r2, by rw [q2]; exact r3⟩
    rw [applyAll, List.foldl_cons, happ, lastOf]
    cases rest with
    | nil => exact ⟨tr, rfl, by simpa [lastOf] using hl, by simpa using hf'⟩
    | cons d rest =>
      have := ih (done ++ [c]) c.tend ht' c.state c4 ⟨some t0, tr⟩ rfl hl.le ?_ hf' (by simp)
      · rw [List.append_assoc, List.singleton_append] at this
        exact this
      · intro k hkl
        dsimp only at hkl
        have h1 : lastSample sg dt t0 c.tend < k := by omega
        have h2 := Int.floor_lt.1 h1
        rw [div_lt_iff₀ hd] at h2
        push_cast at h2
        linarith [tolAt_nonneg t0 c.tend]

theorem covers_last (sol : Solver σ X) (fwd : Bool) (endTime : ℝ) (t : ℝ) (s : σ) (calls : List (Call σ)) (h : Covers sol fwd endTime t s calls) :
    if fwd then t ≤ (lastOf t s calls).1 else (lastOf t s calls).1 ≤ t := by
  induction calls generalizing t s with
  | nil => rw [lastOf]; split_ifs <;> exact le_refl _
  | cons c rest ih =>
    have := ih c.tend c.state h.2.2.2
    rw [lastOf]
    have h3 := h.2.2.1
    rw [h.2.1] at h3
    cases fwd
    · simp only [Bool.false_eq_true, if_false] at *; exact this.trans h3.1.le
    · simp only [if_true] at *; exact h3.1.le.trans this

/-- C81: recording at regular intervals. Provided that the interval is not comparable to the roundoff error of time, the trajectory of an orbit
integrated from t0 to t1 (normally t1=t0+totalTime) contains exactly the samples at t0, t0 ± dt, t0 ± 2dt, ... up to t1 (within a roundoff tolerance),
each one assigned from the step of the integrator which includes that moment. -/
theorem C81_regular (sol : Solver σ X) (ha : sol.Advances) (maxNumSteps : ℕ) (totalTime dt : ℝ) (h : totalTime ≠ 0) (hd : 0 < dt) (s : σ)
    (hE : ROUNDOFF * max |sol.getTime s| |sol.getTime s + totalTime| < dt) :
    ∃ calls t s' reason st,
      LoopSpec sol [trajectoryFnc sol (some dt)] (decide (0 < totalTime)) (sol.getTime s + totalTime) (max 1 maxNumSteps) s (some ⟨none, []⟩) (t, s', some st, reason) calls ∧
      integrateTraj sol maxNumSteps totalTime (some dt) s = some st ∧
      (calls = [] → st.trajectory = []) ∧
      (calls ≠ [] → (st.trajectory.length : ℤ) = ⌊(|t - sol.getTime s| + ROUNDOFF * max |t| |sol.getTime s|) / dt⌋ + 1 ∧
        Filled sol (if 0 < totalTime then 1 else -1) dt (sol.getTime s) calls st.trajectory) := by
  classical
  obtain ⟨calls, t, s', reason, hl, hr⟩ := C81_run sol ha [trajectoryFnc sol (some dt)] maxNumSteps totalTime h s (some ⟨none, []⟩)
  by_cases hc : calls = []
  · refine ⟨calls, t, s', reason, ⟨none, []⟩, ?_, ?_, fun _ => rfl, fun hh => absurd hc hh⟩
    · have : applyAll [trajectoryFnc sol (some dt)] calls (some (⟨none, []⟩ : Traj X)) = some ⟨none, []⟩ := by rw [hc]; rfl
      rw [this] at hl; exact hl
    · rw [integrateTraj, hr, hc]; rfl
  · have hsgE : (if 0 < totalTime then (1 : ℝ) else -1) = if (decide (0 < totalTime) : Bool) then 1 else -1 := by
      by_cases h0 : 0 < totalTime <;> simp [h0]
    have hE' : ∀ u, (if (decide (0 < totalTime) : Bool) then sol.getTime s ≤ u ∧ u ≤ sol.getTime s + totalTime else sol.getTime s + totalTime ≤ u ∧ u ≤ sol.getTime s) →
        tolAt (sol.getTime s) u < dt := by
      intro u hu
      refine lt_of_le_of_lt (mul_le_mul_of_nonneg_left (max_le ?_ (le_max_left _ _)) ROUNDOFF_pos.le) hE
      have : min (sol.getTime s) (sol.getTime s + totalTime) ≤ u ∧ u ≤ max (sol.getTime s) (sol.getTime s + totalTime) := by
        by_cases h0 : 0 < totalTime
        · rw [if_pos (by simpa using h0)] at hu; exact ⟨min_le_iff.2 (Or.inl hu.1), le_max_iff.2 (Or.inr hu.2)⟩
        · rw [if_neg (by simpa using h0)] at hu; exact ⟨min_le_iff.2 (Or.inr hu.1), le_max_iff.2 (Or.inl hu.2)⟩
      rw [abs_le]
      constructor
      · refine le_trans ?_ this.1
        rw [le_min_iff]
        exact ⟨by linarith [neg_abs_le (sol.getTime s), le_max_left |sol.getTime s| |sol.getTime s + totalTime|],
          by linarith [neg_abs_le (sol.getTime s + totalTime), le_max_right |sol.getTime s| |sol.getTime s + totalTime|]⟩
      · exact this.2.trans (max_le_max (le_abs_self _) (le_abs_self _))
    obtain ⟨tr, e1, e2, e3⟩ := sample_all sol hsgE hd hE' calls [] (sol.getTime s) (by split_ifs <;> exact le_refl _) s hl.1 ⟨none, []⟩ rfl
      (by
        have : 0 ≤ lastSample (if 0 < totalTime then 1 else -1) dt (sol.getTime s) (sol.getTime s) := by
          apply Int.floor_nonneg.2
          rw [sub_self, mul_zero, zero_add]
          exact div_nonneg (tolAt_nonneg _ _) hd.le
        simp; omega)
      (by intro k _; rw [sub_self, mul_zero]; positivity) (by intro k hk; simp at hk) hc
    refine ⟨calls, t, s', reason, ⟨some (sol.getTime s), tr⟩, ?_, ?_, fun hh => absurd hh hc, fun _ => ⟨?_, ?_⟩⟩
    · rw [e1] at hl; exact hl
    · rw [integrateTraj, hr, ← e1]
    · dsimp only
      rw [e2, lastSample, ← hl.2.2.1]
      dsimp only
      rw [tolAt]
      congr 4
      have hm := covers_last sol _ _ _ _ _ hl.1
      rw [← hl.2.2.1] at hm
      dsimp only at hm
      by_cases h0 : 0 < totalTime
      · rw [if_pos (by simpa using h0)] at hm
        rw [if_pos h0, one_mul, abs_of_nonneg (by linarith)]
      · rw [if_neg (by simpa using h0)] at hm
        rw [if_neg h0, neg_one_mul, abs_of_nonpos (by linarith)]
    · simpa using e3

/-- C81: with zero sampling interval the trajectory contains the initial point and the end of each time step. -/
theorem C81_steps (sol : Solver σ X) (ha : sol.Advances) (maxNumSteps : ℕ) (totalTime dt : ℝ) (h : totalTime ≠ 0) (hd : dt ≤ 0) (s : σ) :
    ∃ calls t s' reason st,
      LoopSpec sol [trajectoryFnc sol (some dt)] (decide (0 < totalTime)) (sol.getTime s + totalTime) (max 1 maxNumSteps) s (some ⟨none, []⟩) (t, s', some st, reason) calls ∧
      integrateTraj sol maxNumSteps totalTime (some dt) s = some st ∧
      st.trajectory = (calls.head?.toList.map fun c => some (sol.getSol c.state (sol.getTime s), sol.getTime s)) ++
        calls.map fun c => some (sol.getSol c.state c.tend, c.tend) := by
  obtain ⟨calls, t, s', reason, hl, hr⟩ := C81_run sol ha [trajectoryFnc sol (some dt)] maxNumSteps totalTime h s (some ⟨none, []⟩)
  have one : ∀ (c : Call σ) (st : Traj X), (callFncs [trajectoryFnc sol (some dt)] c.state c.tbegin c.tend (some st)).2 =
      some ⟨some (st.t0.getD c.tbegin), (if st.trajectory.isEmpty then [some (sol.getSol c.state c.tbegin, c.tbegin)] else st.trajectory) ++ [some (sol.getSol c.state c.tend, c.tend)]⟩ := by
    intro c st
    simp only [callFncs, List.foldl_cons, List.foldl_nil, if_true, trajectoryFnc, Option.bind_some, processTimestep]
    rw [if_neg (not_lt.2 hd)]
  have more : ∀ (calls : List (Call σ)) (st : Traj X), st.trajectory ≠ [] → ∃ t0, applyAll [trajectoryFnc sol (some dt)] calls (some st) =
      some ⟨t0, st.trajectory ++ calls.map fun c => some (sol.getSol c.state c.tend, c.tend)⟩ := by
    intro calls
    induction calls with
    | nil => intro st _; exact ⟨st.t0, by simp [applyAll]⟩
    | cons c rest ih =>
      intro st hst
      rw [applyAll, List.foldl_cons, one, if_neg (by simpa using hst)]
      obtain ⟨t0, e⟩ := ih ⟨some (st.t0.getD c.tbegin), st.trajectory ++ [some (sol.getSol c.state c.tend, c.tend)]⟩ (by simp)
      exact ⟨t0, by rw [applyAll] at e; rw [e]; simp⟩
  have key : ∃ st, applyAll [trajectoryFnc sol (some dt)] calls (some ⟨none, []⟩) = some st ∧
      st.trajectory = (calls.head?.toList.map fun c => some (sol.getSol c.state (sol.getTime s), sol.getTime s)) ++
        calls.map fun c => some (sol.getSol c.state c.tend, c.tend) := by
    cases calls with
    | nil => exact ⟨⟨none, []⟩, rfl, by simp⟩
    | cons c rest =>
      obtain ⟨t0, e⟩ := more rest ⟨some c.tbegin, [some (sol.getSol c.state c.tbegin, c.tbegin)] ++ [some (sol.getSol c.state c.tend, c.tend)]⟩ (by simp)
      have hb := hl.1.2.1
      refine ⟨_, by rw [applyAll, List.foldl_cons, one]; exact e, ?_⟩
      simp [hb]
  obtain ⟨st, e1, e2⟩ := key
  refine ⟨calls, t, s', reason, st, ?_, ?_, e2⟩
  · rw [e1] at hl; exact hl
  · rw [integrateTraj, hr, ← e1]

/-- C81: with infinite sampling interval only the final point is stored. -/
theorem C81_last (sol : Solver σ X) (ha : sol.Advances) (maxNumSteps : ℕ) (totalTime : ℝ) (h : totalTime ≠ 0) (s : σ) :
    ∃ calls t s' reason st,
      LoopSpec sol [trajectoryFnc sol none] (decide (0 < totalTime)) (sol.getTime s + totalTime) (max 1 maxNumSteps) s (some ⟨none, []⟩) (t, s', some st, reason) calls ∧
      integrateTraj sol maxNumSteps totalTime none s = some st ∧
      st.trajectory = calls.getLast?.toList.map fun c => some (sol.getSol c.state c.tend, c.tend) := by
  obtain ⟨calls, t, s', reason, hl, hr⟩ := C81_run sol ha [trajectoryFnc sol none] maxNumSteps totalTime h s (some ⟨none, []⟩)
  have one : ∀ (c : Call σ) (st : Traj X), st.trajectory.length ≤ 1 → (callFncs [trajectoryFnc sol none] c.state c.tbegin c.tend (some st)).2 =
      some ⟨some (st.t0.getD c.tbegin), [some (sol.getSol c.state c.tend, c.tend)]⟩ := by
    intro c st hst
    simp only [callFncs, List.foldl_cons, List.foldl_nil, if_true, trajectoryFnc, Option.bind_some, processTimestep]
    rcases hs : st.trajectory with _ | ⟨a, _ | ⟨b, l⟩⟩
    · simp
    · simp
    · rw [hs] at hst; simp at hst
  have key : ∀ (calls : List (Call σ)) (st : Traj X), st.trajectory.length ≤ 1 → ∃ t0, applyAll [trajectoryFnc sol none] calls (some st) =
      some ⟨t0, if calls = [] then st.trajectory else calls.getLast?.toList.map fun c => some (sol.getSol c.state c.tend, c.tend)⟩ := by
    intro calls
    induction calls with
    | nil => intro st _; exact ⟨st.t0, by simp [applyAll]⟩
    | cons c rest ih =>
      intro st hst
      rw [applyAll, List.foldl_cons, one c st hst]
      obtain ⟨t0, e⟩ := ih ⟨some (st.t0.getD c.tbegin), [some (sol.getSol c.state c.tend, c.tend)]⟩ (by simp)
      refine ⟨t0, ?_⟩
      rw [applyAll] at e
      rw [e]
      cases rest with
      | nil => simp
      | cons d r => simp [List.getLast?_cons_cons]
  obtain ⟨t0, e⟩ := key calls ⟨none, []⟩ (by simp)
  have e' : applyAll [trajectoryFnc sol none] calls (some ⟨none, []⟩) =
      some ⟨t0, calls.getLast?.toList.map fun c => some (sol.getSol c.state c.tend, c.tend)⟩ := by
    rw [e]
    split_ifs with hc
    · rw [hc]; rfl
    · rfl
  refine ⟨calls, t, s', reason, ⟨t0, calls.getLast?.toList.map fun c => some (sol.getSol c.state c.tend, c.tend)⟩, ?_, ?_, rfl⟩
  · rw [e'] at hl; exact hl
  · rw [integrateTraj, hr, ← e']

/-! ## Examples and counterexamples -/

/-- A solver with steps of unit length; the solution is the time itself. -/
def unitSolver : Solver ℝ ℝ := ⟨fun fwd t => if fwd then (1, t + 1) else (-1, t - 1), id, fun _ t => t⟩

example : unitSolver.Advances := by
  intro b s
  cases b
  · simp [unitSolver]; ring
  · simp [unitSolver]

/-- A function recording the intervals it was called with. -/
def logFnc : Fnc ℝ (List (ℝ × ℝ)) := fun _ a b l => (true, l ++ [(a, b)])

theorem unit_loop (E : ℝ) (left : ℕ) (t : ℝ) (l : List (ℝ × ℝ)) :
    runLoop unitSolver [logFnc] true E (left + 1) t t l =
      if t + 1 < E then runLoop unitSolver [logFnc] true E left (t + 1) (t + 1) (l ++ [(t, t + 1)]) else (E, t + 1, l ++ [(t, E)], .endTime) := by
  rw [runLoop.eq_def]
  by_cases h : t + 1 < E
  · simp [unitSolver, callFncs, logFnc, min_eq_left h.le, h]
  · simp [unitSolver, callFncs, logFnc, min_eq_right (not_lt.1 h), h]

/-- An orbit integrated for 2.5 units: three calls, the last one ending at the prescribed time. -/
example : run unitSolver [logFnc] 100 2.5 0 [] = (2.5, 3, [(0, 1), (1, 2), (2, 2.5)], some .endTime) := by
  rw [run, if_neg (by norm_num)]
  dsimp only
  rw [show (100 - 1 : ℕ) = 96 + 1 + 1 + 1 from rfl, show unitSolver.getTime (0 : ℝ) = 0 from rfl, show decide ((2.5 : ℝ) > 0) = true by norm_num,
    unit_loop, if_pos (by norm_num), unit_loop, if_pos (by norm_num), unit_loop, if_neg (by norm_num)]
  norm_num [unitSolver]

/-- C81, refuted: according to orbit.h:146-148, `run` may be called more than once to continue the integration of the same orbit. However, the second run
begins where the last step of the first one ended, which is usually later than the prescribed time, and ends later by the same amount;
the intermediate interval (1.5 to 2 in this example) is never presented to the runtime functions. -/
theorem C81_refuted_continue :
    let first := run unitSolver [logFnc] 100 1.5 0 []
    let second := run unitSolver [logFnc] 100 1.5 first.2.1 first.2.2.1
    first.1 = 1.5 ∧ second.1 = 3.5 ∧ second.2.2.1 = [(0, 1), (1, 1.5), (2, 3), (3, 3.5)] := by
  have e1 : ∀ (T t : ℝ) (l : List (ℝ × ℝ)), 1 < T → T ≤ 2 → run unitSolver [logFnc] 100 T t l = (T + t, t + 2, l ++ [(t, t + 1), (t + 1, T + t)], some .endTime) := by
    intro T t l h1 h2
    rw [run, if_neg (by linarith)]
    dsimp only
    rw [show (100 - 1 : ℕ) = 97 + 1 + 1 from rfl, show unitSolver.getTime t = t from rfl, decide_eq_true (show T > 0 by linarith),
      unit_loop, if_pos (by linarith), unit_loop, if_neg (by linarith)]
    simp [unitSolver]; ring
  intro first second
  have f : first = (1.5, 2, [(0, 1), (1, 1.5)], some .endTime) := by
    show run unitSolver [logFnc] 100 1.5 0 [] = _
    rw [e1 _ _ _ (by norm_num) (by norm_num)]; norm_num
  have g : second = (3.5, 4, [(0, 1), (1, 1.5), (2, 3), (3, 3.5)], some .endTime) := by
    show run unitSolver [logFnc] 100 1.5 first.2.1 first.2.2.1 = _
    rw [f, e1 _ _ _ (by norm_num) (by norm_num)]; norm_num
  rw [f, g]
  exact ⟨rfl, rfl, rfl⟩

/-- C81, refuted without the assumption about roundoff errors: if the sampling interval is below the roundoff error of the time,
the array is accessed at a negative index. -/
theorem C81_refuted_index : sampleRegular (fun t => t) 1 (2 ^ 53) (2 ^ 53) (2 ^ 53 + 2) [] = none := by
  classical
  have hE : ROUNDOFF * max (max |(2 : ℝ) ^ 53 + 2| |(2 : ℝ) ^ 53|) |(2 : ℝ) ^ 53| = 20 + 20 / 2 ^ 52 := by
    rw [abs_of_nonneg (by positivity), abs_of_nonneg (by positivity), max_eq_left (by norm_num), max_eq_left (by norm_num), ROUNDOFF]; norm_num
  have hb : trunc ((1 * ((2 : ℝ) ^ 53 - 2 ^ 53) - (20 + 20 / 2 ^ 52)) / 1) = -20 := by
    rw [trunc, if_neg (by norm_num), Int.ceil_eq_iff]; norm_num
  have he : trunc ((1 * ((2 : ℝ) ^ 53 + 2 - 2 ^ 53) + (20 + 20 / 2 ^ 52)) / 1) = 22 := by
    rw [trunc, if_pos (by norm_num), Int.floor_eq_iff]; norm_num
  rw [sampleRegular, hE, if_pos (by norm_num), hb, he, resize, if_pos (by norm_num)]
  simp only [Option.bind_eq_bind, Option.bind_some]
  rw [show ((22 : ℤ) + 1 - -20).toNat = 42 + 1 from rfl, List.range_succ_eq_map, List.foldlM_cons, if_pos (by norm_num), assign, if_neg (by norm_num)]
  rfl

end

end Verif.Orbit
