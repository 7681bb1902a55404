import Verif.Ode.Tableau
import Verif.Orbit.Run
import Mathlib.Analysis.SpecialFunctions.Log.Basic
import Mathlib.Analysis.SpecialFunctions.Sqrt
import Mathlib.Analysis.Calculus.Deriv.Mul
import Mathlib.Analysis.Calculus.Deriv.Pi
import Mathlib.Tactic.FieldSimp

/-! The Runge-Kutta integrator DOP853 (/repo/src/math_ode.cpp:14-400, math_ode.h:75-140); C83.
Floating-point numbers are modelled as real numbers, except that a number with the absolute value below `Env.tiny` is zero (underflow), which is what ends the sequence of
rejected steps in the worst case. The r.h.s. of the system is assumed to be finite everywhere (the tests `isFinite` are omitted). -/
namespace Verif.Ode

noncomputable section

open Finset

/-! ## Model -/

/-- An array of N numbers -/
abbrev Vec (N : ℕ) := Fin N → ℝ

/-- math_ode.h:21-45, IOdeSystem: `eval` and `getAccuracyFactor` -/
structure Sys (N : ℕ) where
  f : ℝ → Vec N → Vec N
  accFactor : ℝ → Vec N → ℝ

/-- math_ode.h:136, accRel and accAbs; `tiny` is the smallest positive number of the floating-point type -/
structure Env where
  accRel : ℝ
  accAbs : ℝ
  tiny : ℝ
  tiny_pos : 0 < tiny

/-- math_ode.h:135-139 and 113: the persistent data; `state` consists of x, k1 (derivatives), rcont1..rcont8 (rc 0 .. rc 7). -/
structure State (N : ℕ) where
  time : ℝ
  timePrev : ℝ
  next : ℝ
  x : Vec N
  k1 : Vec N
  rc : ℕ → Vec N

/-- math_ode.cpp:211-214 -/
def fdec : ℝ := 0.333
def finc : ℝ := 6
def safe : ℝ := 0.9

/-- fmin/fmax(c, v), where v is a floating-point number possibly infinite or undefined (none): C99 fmin and fmax ignore an undefined argument. -/
def fminX (c : ℝ) : Option EReal → Option EReal
  | none => some c
  | some v => some (min c v)
def fmaxX (c : ℝ) : Option EReal → Option EReal
  | none => some c
  | some v => some (max c v)

/-- math_ode.cpp:21, 67-68: the last line of initTimeStep, `fmax(HMIN, fmin(HMAX, v))`, where v is the estimate of the timestep (any number, also infinite or undefined: the
code that computes it, which uses several divisions by quantities possibly equal to zero, is not modelled). -/
def initTimeStep (v : Option EReal) : ℝ :=
  match fmaxX 1e-12 (fminX 1e12 v) with
  | none => 0
  | some r => r.toReal

/-- math_ode.cpp:73-84, init: `timeNew=none` is NAN; `est` is the estimate in initTimeStep. -/
def init {N : ℕ} (S : Sys N) (s : State N) (xnew : Vec N) (timeNew : Option ℝ) (est : Option EReal) : State N :=
  let time := timeNew.getD s.time
  { s with time := time, x := xnew, k1 := S.f time xnew, next := if s.next = 0 then initTimeStep est else s.next }

/-- math_ode.h:122-127: the constructor (the array `state` is filled with zeros). -/
def construct (N : ℕ) : State N := ⟨0, 0, 0, 0, 0, fun _ => 0⟩

/-- math_ode.cpp:219-235: the memory location of the derivatives at each stage (numbered from 0: k1..k13): `k11=k2, k12=k3, k13=k4`. -/
def slot (i : ℕ) : ℕ := if i ≤ 9 then i else i - 9

/-- math_ode.cpp:249-300: one stage: `xt = x + timeStep * (a_i1*k1 + ...); eval(time + c_i*timeStep, xt, k_i)`. Terms with zero coefficients are absent from the code. -/
def stageStep {N : ℕ} (f : ℝ → Vec N → Vec N) (t : ℝ) (x : Vec N) (h : ℝ) (mem : ℕ → Vec N) (i : ℕ) : ℕ → Vec N :=
  Function.update mem (slot i) (f (t + (cs.getD i 0 : ℚ) * h) (x + h • ∑ j ∈ range i, (acoef i j : ℝ) • mem (slot j)))

/-- math_ode.cpp:248-300: stages 2..12; other memory has any content (zero here; it is not read). -/
def stages {N : ℕ} (f : ℝ → Vec N → Vec N) (t : ℝ) (x k1 : Vec N) (h : ℝ) : ℕ → Vec N :=
  [1, 2, 3, 4, 5, 6, 7, 8, 9, 10, 11].foldl (stageStep f t x h) (fun i => if i = 0 then k1 else 0)

/-- Sum of the contents of the memory with given coefficients. -/
def lin {N : ℕ} (c : List ℚ) (n : ℕ) (mem : ℕ → Vec N) : Vec N := ∑ j ∈ range n, (coef c j : ℝ) • mem (slot j)

/-- math_ode.cpp:306-321: the estimate of the error -/
def errEst {N : ℕ} (E : Env) (S : Sys N) (t : ℝ) (x xt : Vec N) (h : ℝ) (k13 : Vec N) (mem : ℕ → Vec N) : ℝ :=
  let accFac := S.accFactor (t + h) xt
  let sk := fun i => (E.accAbs + E.accRel * max |x i| |xt i|) * accFac
  let err3 := ∑ i, if sk i = 0 then 0 else ((k13 i - lin bhh 12 mem i) / sk i) ^ 2
  let err5 := ∑ i, if sk i = 0 then 0 else (lin er 12 mem i / sk i) ^ 2
  let den := Real.sqrt (N * (err5 + 0.01 * err3))
  if den = 0 then 0 else err5 * |h| / den

/-- math_ode.cpp:301-305: `k13 = b1*k1 + ...; xt = x + timeStep * k13` -/
def newX {N : ℕ} (f : ℝ → Vec N → Vec N) (t : ℝ) (x k1 : Vec N) (h : ℝ) : Vec N := x + h • lin bs 12 (stages f t x k1 h)

/-- The error of an attempted step -/
def errOf {N : ℕ} (E : Env) (S : Sys N) (s : State N) (h : ℝ) : ℝ :=
  errEst E S s.time s.x (newX S.f s.time s.x s.k1 h) h (lin bs 12 (stages S.f s.time s.x s.k1 h)) (stages S.f s.time s.x s.k1 h)

/-- math_ode.cpp:327: `sqrt(sqrt(sqrt(err)))` -/
def facOf (err : ℝ) : ℝ := Real.sqrt (Real.sqrt (Real.sqrt err))

/-- `safe/fac` in `fmin(finc, safe/fac)`: infinite if fac=0 -/
def incFactor (fac : ℝ) : ℝ := if fac = 0 then finc else min finc (safe / fac)

/-- The argument of doStep: a nonzero length, or +0 (forward) or -0 (backward) -/
inductive Dt
  | given (dt : ℝ)
  | auto (fwd : Bool)

/-- What follows an attempt: return 0; accept, with the new value of nextTimeStep; repeat with another length and values of nbad, preverr -/
inductive Verdict
  | fail
  | accept (next : ℝ)
  | retry (h : ℝ) (nbad : ℕ) (preverr : ℝ)

/-- math_ode.cpp:337: `err > 0.5*preverr`; `preverr=none` is the infinity. -/
def isBad (err : ℝ) : Option ℝ → Prop
  | none => False
  | some p => err > 0.5 * p

open Classical in
/-- math_ode.cpp:340, 350-351: the new value of nbad -/
def newBad (err : ℝ) (nbad : ℕ) (preverr : Option ℝ) : ℕ := if isBad err preverr then nbad + 1 else 0

open Classical in
/-- math_ode.cpp:327, 341-342: fac used for the reduction of the step -/
def facDec (err : ℝ) (nbad : ℕ) (preverr : Option ℝ) : ℝ := if isBad err preverr ∧ newBad err nbad preverr ≥ 2 then 1 / fdec else facOf err

open Classical in
/-- math_ode.cpp:241-356: one iteration of the loop with the length h. -/
def attempt {N : ℕ} (E : Env) (S : Sys N) (s : State N) (isGiven : Bool) (h : ℝ) (nbad : ℕ) (preverr : Option ℝ) : Verdict :=
  if |h| < E.tiny then .fail
  else if isGiven = true ∨ errOf E S s h ≤ 1 then .accept (|h| * incFactor (facOf (errOf E S s h)))
  else if isBad (errOf E S s h) preverr ∧ newBad (errOf E S s h) nbad preverr ≥ 4 then .accept |h|
  else .retry (h * max fdec (safe / facDec (errOf E S s h) nbad preverr)) (newBad (errOf E S s h) nbad preverr) (errOf E S s h)

/-- The number of attempts left before the underflow -/
def attempts (E : Env) (h : ℝ) : ℕ := if |h| < E.tiny then 0 else ⌊Real.log (|h| / E.tiny) / Real.log (10 / 9)⌋₊ + 1

theorem attempt_retry {N : ℕ} {E : Env} {S : Sys N} {s : State N} {g : Bool} {h : ℝ} {n : ℕ} {p : Option ℝ} {h' : ℝ} {n' : ℕ} {p' : ℝ}
    (ha : attempt E S s g h n p = .retry h' n' p') :
    g = false ∧ E.tiny ≤ |h| ∧ 1 < errOf E S s h ∧ ∃ c, fdec ≤ c ∧ c < safe ∧ h' = h * c := by
  unfold attempt at ha
  split_ifs at ha with h1 h2 h3
  injection ha with e1 e2 e3
  push Not at h2
  have hfac : 1 < facOf (errOf E S s h) := by
    rw [facOf]
    have a := Real.lt_sqrt_of_sq_lt (show (1 : ℝ) ^ 2 < errOf E S s h by simpa using h2.2)
    have b := Real.lt_sqrt_of_sq_lt (show (1 : ℝ) ^ 2 < √(errOf E S s h) by simpa using a)
    exact Real.lt_sqrt_of_sq_lt (by simpa using b)
  refine ⟨by simpa using h2.1, not_lt.1 h1, h2.2, _, le_max_left _ _, max_lt (by norm_num [fdec, safe]) ?_, e1.symm⟩
  rw [facDec]
  split_ifs with h4
  · norm_num [fdec, safe]
  · rw [div_lt_iff₀ (by linarith)]
    have hs : 0 < safe := by norm_num [safe]
    nlinarith

theorem attempts_decrease {E : Env} {h c : ℝ} (h1 : E.tiny ≤ |h|) (hc0 : fdec ≤ c) (hc : c < safe) : attempts E (h * c) < attempts E h := by
  have ht := E.tiny_pos
  have hf : 0 < fdec := by norm_num [fdec]
  have hcp : 0 < c := by linarith
  rw [attempts, attempts, if_neg (not_lt.2 h1)]
  split_ifs with h2
  · omega
  · rw [add_lt_add_iff_right]
    rw [not_lt] at h2
    have hl : 0 < Real.log (10 / 9) := Real.log_pos (by norm_num)
    have e : Real.log (|h * c| / E.tiny) ≤ Real.log (|h| / E.tiny) - Real.log (10 / 9) := by
      have hhp : 0 < |h| := by linarith
      rw [← Real.log_div (by positivity) (by norm_num)]
      refine Real.log_le_log (by rw [abs_mul, abs_of_pos hcp]; positivity) ?_
      rw [abs_mul, abs_of_pos hcp, mul_div_right_comm, div_eq_mul_inv _ (10 / 9 : ℝ)]
      refine mul_le_mul_of_nonneg_left ?_ (by positivity)
      have : safe = 0.9 := rfl
      norm_num at *
      linarith
    have h3 : 0 ≤ Real.log (|h * c| / E.tiny) := Real.log_nonneg (by rw [le_div_iff₀ ht]; linarith)
    have h4 : Real.log (|h * c| / E.tiny) / Real.log (10 / 9) + 1 ≤ Real.log (|h| / E.tiny) / Real.log (10 / 9) := by
      rw [← sub_nonneg]
      have : Real.log (|h| / E.tiny) / Real.log (10 / 9) - (Real.log (|h * c| / E.tiny) / Real.log (10 / 9) + 1) =
          (Real.log (|h| / E.tiny) - Real.log (10 / 9) - Real.log (|h * c| / E.tiny)) / Real.log (10 / 9) := by
        field_simp; ring
      rw [this]
      exact div_nonneg (by linarith) hl.le
    have h5 := Nat.floor_le_floor h4
    rw [Nat.floor_add_one (by positivity)] at h5
    omega

/-- math_ode.cpp:241-356: `while(1)`: the length of the accepted step and nextTimeStep, or none if `return 0`.
The recursion terminates because the length of the step decreases at least by 0.9 each time, until the underflow. -/
def loop {N : ℕ} (E : Env) (S : Sys N) (s : State N) (isGiven : Bool) (h : ℝ) (nbad : ℕ) (preverr : Option ℝ) : Option (ℝ × ℝ) :=
  match _ha : attempt E S s isGiven h nbad preverr with
  | .fail => none
  | .accept next => some (h, next)
  | .retry h' n' p' => loop E S s isGiven h' n' (some p')
termination_by attempts E h
decreasing_by
  obtain ⟨-, h1, -, c, hc0, hc, rfl⟩ := attempt_retry _ha
  exact attempts_decrease h1 hc0 hc

/-- math_ode.cpp:238-239: the initial length of the step -/
def firstStep {N : ℕ} (s : State N) : Dt → ℝ
  | .given dt => dt
  | .auto fwd => s.next * (if fwd then 1 else -1)

def Dt.isGiven : Dt → Bool
  | .given _ => true
  | .auto _ => false

/-- math_ode.cpp:358-391: the full step: memory with k13 = the derivative at the end, interpolation coefficients, new state. -/
def fullStep {N : ℕ} (S : Sys N) (s : State N) (h next : ℝ) : State N :=
  let xt := newX S.f s.time s.x s.k1 h
  let k13 := S.f (s.time + h) xt
  let mem := Function.update (stages S.f s.time s.x s.k1 h) (slot 12) k13
  let xd := xt - s.x
  let xc := h • s.k1 - xd
  { time := s.time + h
    timePrev := s.time
    next := next
    x := xt
    k1 := k13
    rc := fun n => match n with
      | 0 => s.x
      | 1 => xd
      | 2 => xc
      | 3 => xd - h • k13 - xc
      | 4 => h • lin d4 13 mem
      | 5 => h • lin d5 13 mem
      | 6 => h • lin d6 13 mem
      | 7 => h • lin d7 13 mem
      | _ => 0 }

/-- math_ode.cpp:86-391, OdeSolverDOP853::doStep -/
def doStep {N : ℕ} (E : Env) (S : Sys N) (dt : Dt) (s : State N) : ℝ × State N :=
  match loop E S s dt.isGiven (firstStep s dt) 0 none with
  | none => (0, s)
  | some (h, next) => (h, fullStep S s h next)

open Classical in
/-- math_ode.cpp:394-402, OdeSolverDOP853::getSol; `none` is the exception. -/
def getSol {N : ℕ} (s : State N) (t : ℝ) (i : ℕ) : Option ℝ :=
  if hi : i < N then
    let v : Vec N → ℝ := fun x => x ⟨i, hi⟩
    if t = s.time then some (v s.x)
    else if t = s.timePrev then some (v (s.rc 0))
    else
      let p := (t - s.timePrev) / (s.time - s.timePrev)
      let q := 1 - p
      some (v (s.rc 0) + p * (v (s.rc 1) + q * (v (s.rc 2) + p * (v (s.rc 3) + q * (v (s.rc 4) + p * (v (s.rc 5) + q * (v (s.rc 6) + p * v (s.rc 7))))))))
  else none

/-! ## Specification -/

/-- The stages of the method as in textbooks: k_0 is the derivative at the beginning, k_i = f(t + c_i h, x + h sum_{j<i} a_ij k_j). -/
structure IsRK {N : ℕ} (f : ℝ → Vec N → Vec N) (t : ℝ) (x k1 : Vec N) (h : ℝ) (K : ℕ → Vec N) : Prop where
  zero : K 0 = k1
  succ : ∀ i, 0 < i → i < 12 → K i = f (t + (cs.getD i 0 : ℚ) * h) (x + h • ∑ j ∈ range i, (acoef i j : ℝ) • K j)

/-- The stages by recursion -/
def stageK {N : ℕ} (f : ℝ → Vec N → Vec N) (t : ℝ) (x k1 : Vec N) (h : ℝ) (i : ℕ) : Vec N :=
  if i = 0 then k1 else f (t + (cs.getD i 0 : ℚ) * h) (x + h • ∑ j : Fin i, (acoef i j : ℝ) • stageK f t x k1 h j)
termination_by i
decreasing_by exact j.2

theorem stageK_isRK {N : ℕ} (f : ℝ → Vec N → Vec N) (t : ℝ) (x k1 : Vec N) (h : ℝ) : IsRK f t x k1 h (stageK f t x k1 h) := by
  refine ⟨by rw [stageK]; rfl, fun i hi _ => ?_⟩
  rw [stageK, if_neg hi.ne', Finset.sum_range]

theorem IsRK.unique {N : ℕ} {f : ℝ → Vec N → Vec N} {t : ℝ} {x k1 : Vec N} {h : ℝ} {K L : ℕ → Vec N} (hK : IsRK f t x k1 h K) (hL : IsRK f t x k1 h L) (i : ℕ) (hi : i < 12) :
    K i = L i := by
  induction i using Nat.strong_induction_on with
  | _ i ih =>
    rcases Nat.eq_zero_or_pos i with rfl | h0
    · rw [hK.zero, hL.zero]
    · rw [hK.succ i h0 hi, hL.succ i h0 hi]
      congr 3
      refine Finset.sum_congr rfl fun j hj => ?_
      rw [ih j (mem_range.1 hj) (lt_trans (mem_range.1 hj) hi)]

/-! ## The memory shared between stages -/

/-- The stages whose derivatives are still in memory after the stage i -/
def live (i j : ℕ) : Prop := j ≤ i ∧ ¬ (i ≥ 10 ∧ j = 1) ∧ ¬ (i ≥ 11 ∧ j = 2)

theorem acoef_dead (i j : ℕ) (hi : 0 < i) (hi12 : i < 12) (hj : j < i) (h : ¬ live (i - 1) j) : acoef i j = 0 := by
  unfold live at h
  have h2 : (i = 11 ∧ j = 1) := by omega
  obtain ⟨rfl, rfl⟩ := h2
  decide +kernel

theorem slot_inj (i j : ℕ) (hi : i < 12) (hj : live i j) (hne : j ≠ i) : slot j ≠ slot i := by
  unfold live at hj
  unfold slot
  split_ifs <;> omega

theorem stages_upto {N : ℕ} (f : ℝ → Vec N → Vec N) (t : ℝ) (x k1 : Vec N) (h : ℝ) (K : ℕ → Vec N) (hK : IsRK f t x k1 h K) (i : ℕ) (hi : i < 12) :
    ∀ j, live i j → ((List.range' 1 i).foldl (stageStep f t x h) (fun i => if i = 0 then k1 else 0)) (slot j) = K j := by
  induction i with
  | zero =>
    intro j hj
    obtain rfl : j = 0 := by unfold live at hj; omega
    simp [slot, hK.zero]
  | succ i ih =>
    intro j hj
    rw [List.range'_1_concat, List.foldl_append]
    simp only [List.foldl_cons, List.foldl_nil]
    set m := (List.range' 1 i).foldl (stageStep f t x h) (fun i => if i = 0 then k1 else 0) with hm
    rw [stageStep, show 1 + i = i + 1 by omega]
    by_cases hje : j = i + 1
    · subst hje
      rw [Function.update_self, hK.succ (i + 1) (by omega) hi]
      congr 3
      refine Finset.sum_congr rfl fun l hl => ?_
      by_cases hlive : live i l
      · rw [ih (by omega) l hlive]
      · rw [acoef_dead (i + 1) l (by omega) hi (mem_range.1 hl) (by simpa using hlive)]
        simp
    · rw [Function.update_of_ne (slot_inj _ _ hi hj hje)]
      refine ih (by omega) j ?_
      unfold live at hj ⊢
      omega

theorem stages_eq {N : ℕ} {f : ℝ → Vec N → Vec N} {t : ℝ} {x k1 : Vec N} {h : ℝ} {K : ℕ → Vec N} (hK : IsRK f t x k1 h K) (j : ℕ) (hj : j < 12) (h1 : j ≠ 1) (h2 : j ≠ 2) :
    stages f t x k1 h (slot j) = K j :=
  stages_upto f t x k1 h K hK 11 (by omega) j (by unfold live; omega)

/-- A combination with zero coefficients at the stages that are no more in memory -/
theorem lin_eq {N : ℕ} {f : ℝ → Vec N → Vec N} {t : ℝ} {x k1 : Vec N} {h : ℝ} {K : ℕ → Vec N} (hK : IsRK f t x k1 h K) {c : List ℚ} (h1 : coef c 1 = 0) (h2 : coef c 2 = 0) :
    lin c 12 (stages f t x k1 h) = ∑ j ∈ range 12, (coef c j : ℝ) • K j := by
  rw [lin]
  refine Finset.sum_congr rfl fun j hj => ?_
  by_cases e1 : j = 1
  · rw [e1, h1]; simp
  by_cases e2 : j = 2
  · rw [e2, h2]; simp
  rw [stages_eq hK j (mem_range.1 hj) e1 e2]

theorem lin_eq13 {N : ℕ} {f : ℝ → Vec N → Vec N} {t : ℝ} {x k1 : Vec N} {h : ℝ} {K : ℕ → Vec N} (hK : IsRK f t x k1 h K) {c : List ℚ} (h1 : coef c 1 = 0) (h2 : coef c 2 = 0)
    (h3 : coef c 3 = 0) : lin c 13 (Function.update (stages f t x k1 h) (slot 12) (K 12)) = ∑ j ∈ range 13, (coef c j : ℝ) • K j := by
  rw [lin]
  refine Finset.sum_congr rfl fun j hj => ?_
  by_cases e1 : j = 1
  · rw [e1, h1]; simp
  by_cases e2 : j = 2
  · rw [e2, h2]; simp
  by_cases e3 : j = 3
  · rw [e3, h3]; simp
  by_cases e4 : j = 12
  · rw [e4, Function.update_self]
  have hj' := mem_range.1 hj
  rw [Function.update_of_ne, stages_eq hK j (by omega) e1 e2]
  unfold slot
  split_ifs <;> omega

theorem newX_eq {N : ℕ} {f : ℝ → Vec N → Vec N} {t : ℝ} {x k1 : Vec N} {h : ℝ} {K : ℕ → Vec N} (hK : IsRK f t x k1 h K) :
    newX f t x k1 h = x + h • ∑ j ∈ range 12, (coef bs j : ℝ) • K j := by
  rw [newX, lin_eq hK (by decide +kernel) (by decide +kernel)]

/-! ## The loop -/

/-- The attempted lengths of the step, the most recent first: each one is shorter than the previous one by a factor between 0.333 and 0.9. -/
def Shrinking : List ℝ → Prop
  | a :: b :: L => (∃ c, 0.333 ≤ c ∧ c < 0.9 ∧ a = b * c) ∧ Shrinking (b :: L)
  | _ => True

/-- The number of the most recent attempts which did not reduce the error by half is at least n. -/
def NotImproving (err : ℝ → ℝ) : ℕ → List ℝ → Prop
  | 0, _ => True
  | n + 1, a :: b :: L => err a > 0.5 * err b ∧ NotImproving err n (b :: L)
  | _ + 1, _ => False

/-- The outcome of the sequence of attempts -/
structure LoopSpec {N : ℕ} (E : Env) (S : Sys N) (s : State N) (first : ℝ) (L : List ℝ) (res : Option (ℝ × ℝ)) : Prop where
  first : L.getLast? = some first
  shrink : Shrinking L
  rejected : ∀ a ∈ L.tail, 1 < errOf E S s a
  accepted : ∀ h next, res = some (h, next) → L.head? = some h ∧ E.tiny ≤ |h| ∧ (errOf E S s h ≤ 1 ∨ NotImproving (errOf E S s) 4 L)
  failed : res = none → ∃ h, L.head? = some h ∧ |h| < E.tiny

theorem newBad_spec {err : ℝ → ℝ} {h : ℝ} {n : ℕ} {hist : List ℝ} (hn : NotImproving err n hist) :
    NotImproving err (newBad (err h) n (hist.head?.map err)) (h :: hist) := by
  unfold newBad
  split_ifs with hb
  · cases hist with
    | nil => simp [isBad] at hb
    | cons a L => exact ⟨by simpa [isBad] using hb, hn⟩
  · trivial

theorem loop_spec {N : ℕ} (E : Env) (S : Sys N) (s : State N) (first h : ℝ) (n : ℕ) (hist : List ℝ) (h1 : (h :: hist).getLast? = some first) (h2 : Shrinking (h :: hist))
    (h3 : ∀ a ∈ hist, 1 < errOf E S s a) (h4 : NotImproving (errOf E S s) n hist) :
    ∃ L, LoopSpec E S s first L (loop E S s false h n (hist.head?.map (errOf E S s))) := by
  induction hm : attempts E h using Nat.strong_induction_on generalizing h n hist with
  | _ m ih =>
    rw [loop]
    split
    next ha =>
      refine ⟨h :: hist, h1, h2, h3, by simp, fun _ => ⟨h, rfl, ?_⟩⟩
      unfold attempt at ha
      split_ifs at ha with a1
      exact a1
    next next ha =>
      refine ⟨h :: hist, h1, h2, h3, ?_, by simp⟩
      intro h' next' he
      simp only [Option.some.injEq, Prod.mk.injEq] at he
      obtain ⟨rfl, rfl⟩ := he
      unfold attempt at ha
      split_ifs at ha with a1 a2 a3
      · exact ⟨rfl, not_lt.1 a1, Or.inl (by simpa using a2)⟩
      · refine ⟨rfl, not_lt.1 a1, Or.inr ?_⟩
        have := newBad_spec (h := h) h4
        obtain ⟨k, hk⟩ := Nat.exists_eq_add_of_le a3.2
        rw [hk, add_comm] at this
        clear a3 hk ih
        induction k with
        | zero => exact this
        | succ k ihk =>
          refine ihk ?_
          have mono : ∀ (n : ℕ) (L : List ℝ), NotImproving (errOf E S s) (n + 1) L → NotImproving (errOf E S s) n L := by
            intro n
            induction n with
            | zero => intro L _; trivial
            | succ n ihn =>
              intro L hL
              match L, hL with
              | a :: b :: L, hL => exact ⟨hL.1, ihn _ hL.2⟩
          exact mono _ _ this
    next h' n' p' ha =>
      obtain ⟨-, b1, b2, c, hc0, hc, rfl⟩ := attempt_retry ha
      have e : n' = newBad (errOf E S s h) n (hist.head?.map (errOf E S s)) ∧ p' = errOf E S s h := by
        unfold attempt at ha
        split_ifs at ha
        injection ha with _ e2 e3
        exact ⟨e2.symm, e3.symm⟩
      obtain ⟨rfl, rfl⟩ := e
      refine ih _ (by rw [← hm]; exact attempts_decrease b1 hc0 hc) (h * c) _ (h :: hist) (by rw [← h1]; rfl) ⟨⟨c, hc0, hc, rfl⟩, h2⟩ ?_ (newBad_spec h4) rfl
      intro a ha'
      rcases List.mem_cons.1 ha' with rfl | ha'
      · exact b2
      · exact h3 a ha'

theorem loop_given {N : ℕ} (E : Env) (S : Sys N) (s : State N) (h : ℝ) (hh : E.tiny ≤ |h|) :
    loop E S s true h 0 none = some (h, |h| * incFactor (facOf (errOf E S s h))) := by
  rw [loop]
  have : attempt E S s true h 0 none = .accept (|h| * incFactor (facOf (errOf E S s h))) := by
    rw [attempt, if_neg (not_lt.2 hh), if_pos (Or.inl rfl)]
  split <;> rename_i ha <;> rw [this] at ha <;> cases ha
  rfl

theorem incFactor_bounds {err : ℝ} (h : 0 ≤ err) : 0 < incFactor (facOf err) ∧ incFactor (facOf err) ≤ 6 := by
  have h0 : 0 ≤ facOf err := Real.sqrt_nonneg _
  unfold incFactor
  split_ifs with h1
  · norm_num [finc]
  · have : 0 < facOf err := lt_of_le_of_ne h0 (Ne.symm h1)
    refine ⟨lt_min (by norm_num [finc]) (div_pos (by norm_num [safe]) this), min_le_of_left_le (by norm_num [finc])⟩

theorem errOf_nonneg {N : ℕ} (E : Env) (S : Sys N) (s : State N) (h : ℝ) : 0 ≤ errOf E S s h := by
  unfold errOf errEst
  dsimp only
  split_ifs with h1
  · exact le_rfl
  · refine div_nonneg (mul_nonneg (Finset.sum_nonneg fun i _ => ?_) (abs_nonneg _)) (Real.sqrt_nonneg _)
    split_ifs
    · exact le_rfl
    · positivity

theorem loop_next {N : ℕ} (E : Env) (S : Sys N) (s : State N) (g : Bool) (h : ℝ) (n : ℕ) (p : Option ℝ) {r next : ℝ} (hl : loop E S s g h n p = some (r, next)) :
    E.tiny ≤ |r| ∧ 0 < next ∧ next ≤ 6 * |r| := by
  induction hm : attempts E h using Nat.strong_induction_on generalizing h n p with
  | _ m ih =>
    rw [loop] at hl
    split at hl
    next => cases hl
    next next' ha =>
      simp only [Option.some.injEq, Prod.mk.injEq] at hl
      obtain ⟨rfl, rfl⟩ := hl
      unfold attempt at ha
      split_ifs at ha with a1 a2 a3
      · injection ha with ha
        have hr : 0 < |h| := lt_of_lt_of_le E.tiny_pos (not_lt.1 a1)
        have := incFactor_bounds (errOf_nonneg E S s h)
        subst ha
        exact ⟨not_lt.1 a1, by nlinarith [this.1], by nlinarith [this.2]⟩
      · injection ha with ha
        have hr : 0 < |h| := lt_of_lt_of_le E.tiny_pos (not_lt.1 a1)
        subst ha
        exact ⟨not_lt.1 a1, hr, by linarith⟩
    next h' n' p' ha =>
      obtain ⟨-, b1, b2, c, hc0, hc, rfl⟩ := attempt_retry ha
      exact ih _ (by rw [← hm]; exact attempts_decrease b1 hc0 hc) _ _ _ hl rfl

theorem Shrinking.ratio {L : List ℝ} (h : Shrinking L) {a b : ℝ} (ha : L.head? = some a) (hb : L.getLast? = some b) : ∃ c, 0 < c ∧ c ≤ 1 ∧ a = b * c := by
  induction L generalizing a with
  | nil => cases ha
  | cons x L ih =>
    cases L with
    | nil => simp at ha hb; exact ⟨1, by norm_num, le_rfl, by rw [← ha, ← hb]; ring⟩
    | cons y L =>
      simp at ha
      obtain ⟨⟨c, hc0, hc, rfl⟩, h2⟩ := h
      obtain ⟨d, hd0, hd, hy⟩ := ih h2 (a := y) rfl (by simpa using hb)
      have : (0 : ℝ) < c := by norm_num at hc0; linarith
      refine ⟨d * c, mul_pos hd0 this, by norm_num at hc; nlinarith, ?_⟩
      rw [← ha, hy]; ring

/-! ## C83: the step -/

/-- The state agrees with the equation: the stored derivative is the r.h.s. at the current point. -/
def Valid {N : ℕ} (S : Sys N) (s : State N) : Prop := s.k1 = S.f s.time s.x

/-- What one completed step does: the new point is obtained from the old one by the Runge-Kutta formula with the stages K. -/
structure Stepped {N : ℕ} (S : Sys N) (s : State N) (h : ℝ) (s' : State N) : Prop where
  time : s'.time = s.time + h
  timePrev : s'.timePrev = s.time
  stages : ∃ K, IsRK S.f s.time s.x (S.f s.time s.x) h K ∧ s'.x = s.x + h • ∑ j ∈ range 12, (coef bs j : ℝ) • K j
  valid : Valid S s'

theorem fullStep_spec {N : ℕ} {S : Sys N} {s : State N} (hv : Valid S s) (h next : ℝ) : Stepped S s h (fullStep S s h next) := by
  refine ⟨rfl, rfl, ⟨stageK S.f s.time s.x s.k1 h, ?_, newX_eq (stageK_isRK _ _ _ _ _)⟩, rfl⟩
  rw [← hv]
  exact stageK_isRK _ _ _ _ _

/-- C83: init. The current point, time and derivative are set. -/
theorem C83_init {N : ℕ} (S : Sys N) (s : State N) (xnew : Vec N) (timeNew : Option ℝ) (est : Option EReal) :
    Valid S (init S s xnew timeNew est) ∧ (init S s xnew timeNew est).x = xnew ∧ (∀ t, timeNew = some t → (init S s xnew timeNew est).time = t) ∧
      (timeNew = none → (init S s xnew timeNew est).time = s.time) ∧
      ∀ i : Fin N, getSol (init S s xnew timeNew est) (init S s xnew timeNew est).time i = some (xnew i) := by
  refine ⟨rfl, rfl, ?_, ?_, ?_⟩
  · rintro t rfl; rfl
  · rintro rfl; rfl
  · intro i
    rw [getSol, dif_pos i.2]
    dsimp only
    rw [if_pos rfl]
    rfl

/-- C83: the initial estimate of the step is within fixed limits, whatever is the system. -/
theorem C83_initTimeStep (v : Option EReal) : 1e-12 ≤ initTimeStep v ∧ initTimeStep v ≤ 1e12 := by
  have key : ∀ r : EReal, ((1e-12 : ℝ) : EReal) ≤ r → r ≤ ((1e12 : ℝ) : EReal) → 1e-12 ≤ r.toReal ∧ r.toReal ≤ 1e12 := by
    intro r h1 h2
    have hb : r ≠ ⊥ := fun hh => by rw [hh] at h1; exact absurd h1 (by simp)
    have ht : r ≠ ⊤ := fun hh => by rw [hh] at h2; exact absurd h2 (by simp)
    lift r to ℝ using ⟨ht, hb⟩
    exact ⟨by exact_mod_cast h1, by exact_mod_cast h2⟩
  have h12 : ((1e-12 : ℝ) : EReal) ≤ ((1e12 : ℝ) : EReal) := by
    rw [EReal.coe_le_coe_iff]; norm_num
  cases v with
  | none => exact key _ (le_max_left _ _) (max_le h12 le_rfl)
  | some v => exact key _ (le_max_left _ _) (max_le h12 (min_le_left _ _))

/-- C83: a step of a prescribed length (not underflowing) is always accepted, and advances the solution by exactly that length. -/
theorem C83_step_given {N : ℕ} (E : Env) (S : Sys N) (s : State N) (hv : Valid S s) (dt : ℝ) (hd : E.tiny ≤ |dt|) :
    (doStep E S (.given dt) s).1 = dt ∧ Stepped S s dt (doStep E S (.given dt) s).2 ∧ 0 < (doStep E S (.given dt) s).2.next ∧
      (doStep E S (.given dt) s).2.next ≤ 6 * |dt| := by
  have hl := loop_given E S s dt hd
  have hn := loop_next E S s true dt 0 none hl
  have e : doStep E S (.given dt) s = (dt, fullStep S s dt (|dt| * incFactor (facOf (errOf E S s dt)))) := by
    simp only [doStep, Dt.isGiven, firstStep, hl]
  rw [e]
  exact ⟨rfl, fullStep_spec hv _ _, hn.2.1, hn.2.2⟩

/-- C83: a step of an automatically chosen length. The attempted lengths begin with the previous estimate with the requested sign and decrease each time; all attempts but the
last one have errors above the tolerance. The last one is accepted and returned, the solution being advanced by exactly that length, if the error is within tolerance or if four
attempts in a row did not reduce the error by half; otherwise the length underflows, zero is returned and nothing is changed. The next estimate is positive and not longer than
6 times the length of the step. -/
theorem C83_step_auto {N : ℕ} (E : Env) (S : Sys N) (s : State N) (hv : Valid S s) (fwd : Bool) :
    ∃ L : List ℝ, L.getLast? = some (if fwd then s.next else -s.next) ∧ Shrinking L ∧ (∀ a ∈ L.tail, 1 < errOf E S s a) ∧ ∃ h, L.head? = some h ∧
      ((|h| < E.tiny ∧ doStep E S (.auto fwd) s = (0, s)) ∨
       (E.tiny ≤ |h| ∧ (errOf E S s h ≤ 1 ∨ NotImproving (errOf E S s) 4 L) ∧ (doStep E S (.auto fwd) s).1 = h ∧ Stepped S s h (doStep E S (.auto fwd) s).2 ∧
         0 < (doStep E S (.auto fwd) s).2.next ∧ (doStep E S (.auto fwd) s).2.next ≤ 6 * |h|)) := by
  obtain ⟨L, hL⟩ := loop_spec E S s (firstStep s (.auto fwd)) (firstStep s (.auto fwd)) 0 [] rfl trivial (by simp) trivial
  have e0 : firstStep s (.auto fwd) = if fwd then s.next else -s.next := by
    cases fwd <;> simp [firstStep]
  have hd : doStep E S (.auto fwd) s = match loop E S s false (firstStep s (.auto fwd)) 0 none with | none => (0, s) | some (h, next) => (h, fullStep S s h next) := rfl
  simp only [List.head?_nil, Option.map_none] at hL
  rcases hl : loop E S s false (firstStep s (.auto fwd)) 0 none with _ | ⟨h, next⟩
  · rw [hl] at hd hL
    obtain ⟨h, hh, ht⟩ := hL.failed rfl
    exact ⟨L, by rw [← e0]; exact hL.first, hL.shrink, hL.rejected, h, hh, Or.inl ⟨ht, hd⟩⟩
  · rw [hl] at hd hL
    obtain ⟨hh, ht, hacc⟩ := hL.accepted h next rfl
    have hn := loop_next E S s false _ 0 none hl
    refine ⟨L, by rw [← e0]; exact hL.first, hL.shrink, hL.rejected, h, hh, Or.inr ⟨ht, hacc, ?_⟩⟩
    rw [hd]
    exact ⟨rfl, fullStep_spec hv _ _, hn.2.1, hn.2.2⟩

/-- C83: the length of the step has the requested sign and does not exceed the previous estimate. -/
theorem C83_step_sign {N : ℕ} (E : Env) (S : Sys N) (s : State N) (hv : Valid S s) (hn : 0 < s.next) (fwd : Bool) :
    let r := (doStep E S (.auto fwd) s).1
    |r| ≤ s.next ∧ (r ≠ 0 → if fwd then 0 < r else r < 0) ∧ (doStep E S (.auto fwd) s).2.time = s.time + r := by
  obtain ⟨L, h1, h2, -, h, hh, h3⟩ := C83_step_auto E S s hv fwd
  rcases h3 with ⟨ht, hd⟩ | ⟨ht, -, hr, hs, -⟩
  · rw [hd]; exact ⟨by simpa using hn.le, fun hne => absurd rfl hne, by simp⟩
  · obtain ⟨c, hc0, hc, e⟩ := h2.ratio hh h1
    dsimp only
    rw [hr, hs.time]
    refine ⟨?_, fun _ => ?_, rfl⟩
    · rw [e, abs_mul, abs_of_pos hc0]
      have : |if fwd = true then s.next else -s.next| = s.next := by cases fwd <;> simp [abs_of_pos hn]
      rw [this]; nlinarith
    · cases fwd
      · simp only [Bool.false_eq_true, if_false] at e ⊢; rw [e]; nlinarith
      · simp only [if_true] at e ⊢; rw [e]; nlinarith

/-- The solver as an object used by the orbit integrator (all components of the solution together; components out of range are not requested). -/
def solver {N : ℕ} (E : Env) (S : Sys N) : Orbit.Solver {s : State N // Valid S s ∧ 0 < s.next} (Vec N) where
  doStep fwd s := ((doStep E S (.auto fwd) s.1).1, ⟨(doStep E S (.auto fwd) s.1).2, by
    obtain ⟨L, -, -, -, h, -, h3⟩ := C83_step_auto E S s.1 s.2.1 fwd
    rcases h3 with ⟨-, hd⟩ | ⟨-, -, -, hs, hn, -⟩
    · rw [hd]; exact s.2
    · exact ⟨hs.valid, hn⟩⟩)
  getTime s := s.1.time
  getSol s t := fun i => (getSol s.1 t i).getD 0

/-- C83: the assumption about the solver under which the properties of the orbit integrator are proved is satisfied. -/
theorem C83_advances {N : ℕ} (E : Env) (S : Sys N) : (solver E S).Advances := fun b s => (C83_step_sign E S s.1 s.2.1 s.2.2 b).2.2

end

end Verif.Ode
