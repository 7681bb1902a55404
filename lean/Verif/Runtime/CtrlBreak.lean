import Mathlib.Data.List.Infix
import Mathlib.Tactic

/-! Model of the Ctrl-Break handler, /repo/src/utils.cpp:204-232, and C31. An interrupt may arrive between any two of the
steps below. `signal()` has the BSD semantics (the handler stays installed after a signal), as in glibc.
Constructor and destructor calls are not themselves concurrent (the stack is a plain std::vector). -/
namespace Verif.CtrlBreak

/-- Signal handlers: the one of this file, and all others (SIG_DFL, SIG_IGN, Python's, ...). -/
inductive Handler where
  | custom
  | other (n : ℕ)
  deriving DecidableEq, Repr

/-- What happens at one moment: an interrupt, a step of a constructor or of a destructor. -/
inductive Ev where
  | intr
  | ctorTest    -- utils.cpp:218-219
  | ctorSignal  -- utils.cpp:221, the call of signal()
  | ctorPush    -- utils.cpp:221, push_back
  | dtorSignal  -- utils.cpp:227-228
  | dtorPop     -- utils.cpp:229
  deriving DecidableEq, Repr

/-- Where the program is within the constructor or destructor. -/
inductive Phase where
  | idle
  | tested
  | installed (prev : Handler)
  | restored
  deriving DecidableEq, Repr

/-- utils.cpp:207, 211 and the handler known to the operating system; `log` collects the handlers other than the custom
one which received an interrupt. -/
structure St where
  handler : Handler
  flag : Bool
  stack : List Handler
  phase : Phase
  log : List ℕ
  deriving DecidableEq, Repr

/-- utils.cpp:204-232: one event; `none` if the program cannot do it (or the assert fails). -/
def step (s : St) : Ev → Option St
  | .intr => match s.handler with
    | .custom => some { s with flag := true }                       -- utils.cpp:209
    | .other n => some { s with log := n :: s.log }
  | .ctorTest => if s.phase = .idle then
      some { s with phase := .tested, flag := if s.stack = [] then false else s.flag } else none
  | .ctorSignal => if s.phase = .tested then
      some { s with phase := .installed s.handler, handler := .custom } else none
  | .ctorPush => match s.phase with
    | .installed prev => some { s with phase := .idle, stack := prev :: s.stack }
    | _ => none
  | .dtorSignal => if s.phase = .idle then
      match s.stack with
      | [] => none                                                  -- assertion failure
      | b :: _ => some { s with phase := .restored, handler := b } else none
  | .dtorPop => if s.phase = .restored then some { s with phase := .idle, stack := s.stack.tail } else none

/-- A whole history. -/
def run (s : St) : List Ev → Option St
  | [] => some s
  | e :: es => (step s e).bind (fun t => run t es)

/-- utils.cpp:232. -/
def triggered (s : St) : Bool := s.flag

/-- The program starts with some handler of its own and no CtrlBreakHandler objects. -/
def start (n : ℕ) (flag : Bool) : St := ⟨.other n, flag, [], .idle, []⟩

theorem run_append (s : St) (a b : List Ev) : run s (a ++ b) = (run s a).bind (fun t => run t b) := by
  induction a generalizing s with
  | nil => rfl
  | cons e es ih =>
    simp only [List.cons_append, run]
    cases step s e with
    | none => rfl
    | some t => exact ih t

/-- Number of handlers installed and not restored. -/
def depth (h : List Ev) : ℤ := (h.count .ctorSignal : ℤ) - h.count .dtorSignal

/-- The invariant: `d` is the number of installed handlers. -/
def Inv (n : ℕ) (d : ℕ) (s : St) : Prop :=
  match s.phase with
  | .idle | .tested => s.stack = (List.replicate d Handler.custom ++ [Handler.other n]).tail ∧
      s.handler = (List.replicate d Handler.custom ++ [Handler.other n]).head?.getD .custom
  | .installed prev => 0 < d ∧ s.handler = .custom ∧
      (prev :: s.stack) = (List.replicate d Handler.custom ++ [Handler.other n]).tail
  | .restored => s.handler :: s.stack.tail = List.replicate d Handler.custom ++ [Handler.other n] ∧ s.stack ≠ []

theorem rep_pos {n d : ℕ} (h : 0 < d) : List.replicate d Handler.custom ++ [Handler.other n] =
    Handler.custom :: (List.replicate (d - 1) Handler.custom ++ [Handler.other n]) := by
  obtain ⟨k, rfl⟩ : ∃ k, d = k + 1 := ⟨d - 1, by omega⟩
  rfl

theorem inv_handler {n d : ℕ} {s : St} (h : Inv n d s) : s.handler = if d = 0 then .other n else .custom := by
  unfold Inv at h
  rcases hp : s.phase with _ | _ | prev | _ <;> rw [hp] at h <;> simp only at h
  · obtain ⟨-, h⟩ := h
    rw [h]
    cases d with
    | zero => rfl
    | succ k => rfl
  · obtain ⟨-, h⟩ := h
    rw [h]
    cases d with
    | zero => rfl
    | succ k => rfl
  · rw [h.2.1, if_neg (by omega)]
  · obtain ⟨h, -⟩ := h
    cases d with
    | zero => simp at h; rw [if_pos rfl]; exact h.1
    | succ k => rw [rep_pos (by omega)] at h; simp at h; rw [if_neg (by omega)]; exact h.1

theorem step_inv {n : ℕ} {d : ℕ} {s t : St} {e : Ev} (h : Inv n d s) (hs : step s e = some t) :
    ∃ d' : ℕ, Inv n d' t ∧ (d' : ℤ) = d + depth [e] ∧ (0 < d → 0 < d' → (e ≠ .intr → t.flag = s.flag) ∧ t.log = s.log) := by
  have hh := inv_handler h
  cases e with
  | intr =>
    refine ⟨d, ?_, by simp [depth], ?_⟩
    · simp only [step] at hs
      split at hs <;> cases hs <;> exact h
    · intro hd _
      rw [if_neg (by omega)] at hh
      simp only [step, hh] at hs
      cases hs
      exact ⟨by simp, rfl⟩
  | ctorTest =>
    simp only [step] at hs
    split at hs
    · rename_i hp
      cases hs
      refine ⟨d, ?_, by simp [depth], ?_⟩
      · simp only [Inv, hp] at h ⊢; exact h
      · intro hd _
        refine ⟨fun _ => ?_, rfl⟩
        simp only [Inv, hp] at h
        have : s.stack ≠ [] := by
          rw [h.1, rep_pos hd]
          simp
        simp [this]
    · cases hs
  | ctorSignal =>
    simp only [step] at hs
    split at hs
    · rename_i hp
      cases hs
      refine ⟨d + 1, ?_, by simp [depth], fun _ _ => ⟨fun _ => rfl, rfl⟩⟩
      simp only [Inv, hp] at h ⊢
      refine ⟨by omega, trivial, ?_⟩
      rw [h.1, h.2]
      cases d with
      | zero => rfl
      | succ k => rfl
    · cases hs
  | ctorPush =>
    simp only [step] at hs
    split at hs
    · rename_i prev hp
      cases hs
      refine ⟨d, ?_, by simp [depth], fun _ _ => ⟨fun _ => rfl, rfl⟩⟩
      simp only [Inv, hp] at h ⊢
      refine ⟨h.2.2, ?_⟩
      rw [h.2.1, rep_pos h.1]; rfl
    · cases hs
  | dtorSignal =>
    simp only [step] at hs
    split at hs
    · rename_i hp
      split at hs
      · cases hs
      · rename_i b l hb
        cases hs
        simp only [Inv, hp] at h
        have hd : 0 < d := by
          by_contra h0
          have h0 : d = 0 := by omega
          subst h0
          rw [h.1] at hb; simp at hb
        refine ⟨d - 1, ?_, by simp [depth]; omega, fun _ _ => ⟨fun _ => rfl, rfl⟩⟩
        simp only [Inv]
        refine ⟨?_, by rw [hb]; simp⟩
        have h1 := h.1
        rw [hb, rep_pos hd] at h1
        rw [hb]
        exact h1
    · cases hs
  | dtorPop =>
    simp only [step] at hs
    split at hs
    · rename_i hp
      cases hs
      refine ⟨d, ?_, by simp [depth], fun _ _ => ⟨fun _ => rfl, rfl⟩⟩
      simp only [Inv, hp] at h ⊢
      rw [← h.1]
      exact ⟨rfl, rfl⟩
    · cases hs

theorem depth_cons (e : Ev) (h : List Ev) : depth (e :: h) = depth [e] + depth h := by
  have : ∀ a : Ev, (e :: h).count a = [e].count a + h.count a := by
    intro a
    rw [← List.count_append]; rfl
  simp only [depth, this]
  push_cast; ring

theorem run_inv {n : ℕ} {d : ℕ} {s t : St} (es : List Ev) (h : Inv n d s) (hr : run s es = some t) :
    ∃ d' : ℕ, Inv n d' t ∧ (d' : ℤ) = d + depth es := by
  induction es generalizing s d with
  | nil =>
    simp only [run, Option.some.injEq] at hr
    subst hr
    exact ⟨d, h, by simp [depth]⟩
  | cons e es ih =>
    simp only [run] at hr
    cases hst : step s e with
    | none => rw [hst] at hr; cases hr
    | some u =>
      rw [hst] at hr
      obtain ⟨d1, h1, e1, -⟩ := step_inv h hst
      obtain ⟨d2, h2, e2⟩ := ih h1 hr
      exact ⟨d2, h2, by rw [depth_cons]; omega⟩

theorem run_flag {n : ℕ} {d : ℕ} {s t : St} (es : List Ev) (h : Inv n d s) (hd : 0 < d) (hr : run s es = some t)
    (hpos : ∀ q, q <+: es → 0 < d + depth q) :
    t.flag = (s.flag || decide (Ev.intr ∈ es)) ∧ t.log = s.log := by
  induction es generalizing s d with
  | nil =>
    simp only [run, Option.some.injEq] at hr
    subst hr
    simp
  | cons e es ih =>
    simp only [run] at hr
    cases hst : step s e with
    | none => rw [hst] at hr; cases hr
    | some u =>
      rw [hst] at hr
      obtain ⟨d1, h1, e1, f1⟩ := step_inv h hst
      have p1 := hpos [e] ⟨es, rfl⟩
      have hd1 : 0 < d1 := by omega
      obtain ⟨g1, g2⟩ := f1 hd hd1
      have := ih h1 hd1 hr (fun q hq => by
        have := hpos (e :: q) (List.cons_prefix_cons.2 ⟨rfl, hq⟩)
        rw [depth_cons] at this
        omega)
      rw [this.1, this.2, g2]
      refine ⟨?_, rfl⟩
      by_cases he : e = .intr
      · subst he
        have hh := inv_handler h
        rw [if_neg (by omega)] at hh
        simp only [step, hh] at hst
        cases hst
        simp
      · rw [g1 he]
        simp [Ne.symm he]

theorem run_intr {n : ℕ} (k : ℕ) (u : St) (hu : u.handler = .other n) :
    run u (List.replicate k .intr) = some { u with log := List.replicate k n ++ u.log } := by
  induction k generalizing u with
  | zero => rfl
  | succ k ih =>
    have e : step u .intr = some { u with log := n :: u.log } := by simp only [step, hu]
    rw [List.replicate_succ, run, e, Option.bind_some, ih { u with log := n :: u.log } hu]
    simp only [List.replicate_succ' (n := k) (a := n), List.append_assoc]
    rfl

/-- C31: in every history that the program can go through, with interrupts at any moments, the handler in force is the
custom one while at least one object is installed, and the original one as soon as none is. -/
theorem C31_handler_restored (n : ℕ) (flag : Bool) (h : List Ev) (t : St) (hr : run (start n flag) h = some t) :
    0 ≤ depth h ∧ t.handler = if depth h = 0 then .other n else .custom := by
  obtain ⟨d, hi, e⟩ := run_inv (n := n) (d := 0) h (by simp [Inv, start]) hr
  have hh := inv_handler hi
  refine ⟨by omega, ?_⟩
  rw [hh]
  by_cases hd : d = 0
  · rw [if_pos hd, if_pos (by omega)]
  · rw [if_neg hd, if_neg (by omega)]

/-- C31: consider any moment after the installation of an outermost object, while it (or an object nested in it) is
still installed: triggered() is true exactly if an interrupt arrived since that installation; and none of the
interrupts went elsewhere. Interrupts may arrive anywhere, and objects may be nested to any depth and destroyed in
any order. -/
theorem C31_triggered_iff (n : ℕ) (flag : Bool) (pre : List Ev) (k : ℕ) (post : List Ev) (s t : St)
    (hpre : depth pre = 0) (hs : run (start n flag) pre = some s)
    (hr : run s (.ctorTest :: (List.replicate k .intr ++ .ctorSignal :: post)) = some t)
    (hpost : ∀ q, q <+: post → 0 ≤ depth q) :
    triggered t = decide (Ev.intr ∈ post) ∧ t.log = List.replicate k n ++ s.log := by
  obtain ⟨d, hi, e⟩ := run_inv (n := n) (d := 0) pre (by simp [Inv, start]) hs
  have hd : d = 0 := by omega
  subst hd
  simp only [run] at hr
  cases h1 : step s .ctorTest with
  | none => rw [h1] at hr; cases hr
  | some s1 =>
    rw [h1] at hr
    simp only [Option.bind_some] at hr
    obtain ⟨d1, i1, e1, -⟩ := step_inv hi h1
    have : d1 = 0 := by simp [depth] at e1; omega
    subst this
    have hph : s.phase = .idle := by
      simp only [step] at h1
      split at h1
      · assumption
      · cases h1
    have hst : s.stack = [] := by
      simp only [Inv, hph] at hi
      rw [hi.1]; rfl
    have f1 : s1.flag = false ∧ s1.log = s.log := by
      simp only [step, hph, if_true, hst] at h1
      cases h1; exact ⟨rfl, rfl⟩
    rw [run_append] at hr
    rw [run_intr k s1 (by rw [inv_handler i1, if_pos rfl])] at hr
    simp only [Option.bind_some, run] at hr
    have i1' : Inv n 0 { s1 with log := List.replicate k n ++ s1.log } := i1
    generalize hs2 : ({ s1 with log := List.replicate k n ++ s1.log } : St) = s2 at hr i1'
    have f2 : s2.flag = false ∧ s2.log = List.replicate k n ++ s.log := by rw [← hs2]; exact ⟨f1.1, by rw [← f1.2]⟩
    cases h3 : step s2 .ctorSignal with
    | none => rw [h3] at hr; cases hr
    | some s3 =>
      rw [h3] at hr
      simp only [Option.bind_some] at hr
      obtain ⟨d3, i3, e3, -⟩ := step_inv i1' h3
      have : d3 = 1 := by simp [depth] at e3; omega
      subst this
      have f3 : s3.flag = false ∧ s3.log = s2.log := by
        simp only [step] at h3
        split at h3
        · cases h3; exact ⟨f2.1, rfl⟩
        · cases h3
      obtain ⟨a, b⟩ := run_flag post i3 (by omega) hr (fun q hq => by have := hpost q hq; omega)
      rw [triggered, a, b, f3.1, f3.2, f2.2]
      simp

/-- C31: after the outermost object has been destroyed the flag is frozen: later interrupts go to the original handler
and do not change triggered() until another object is created. -/
theorem C31_outside_frozen (n : ℕ) (flag : Bool) (pre : List Ev) (k : ℕ) (s t : St) (hpre : depth pre = 0)
    (hs : run (start n flag) pre = some s) (hr : run s (List.replicate k .intr) = some t) :
    triggered t = triggered s ∧ t.log = List.replicate k n ++ s.log ∧ t.handler = .other n := by
  have hh := (C31_handler_restored n flag pre s hs).2
  rw [if_pos hpre] at hh
  rw [run_intr k s hh] at hr
  cases hr
  exact ⟨rfl, rfl, hh⟩

/-- Every nesting of constructors and destructors can be executed: a destructor runs whenever an object exists, and its
assert never fails. -/
theorem C31_no_assert (n : ℕ) (flag : Bool) (h : List Ev) (t : St) (hr : run (start n flag) h = some t)
    (hph : t.phase = .idle) (hd : 0 < depth h) : ∃ u v, step t .dtorSignal = some u ∧ step u .dtorPop = some v := by
  obtain ⟨d, hi, e⟩ := run_inv (n := n) (d := 0) h (by simp [Inv, start]) hr
  simp only [Inv, hph] at hi
  have hd' : 0 < d := by omega
  have : ∃ b l, t.stack = b :: l := by
    rw [hi.1, rep_pos hd']
    cases hq : List.replicate (d - 1) Handler.custom ++ [Handler.other n] with
    | nil => simp at hq
    | cons b l => exact ⟨b, l, rfl⟩
  obtain ⟨b, l, hb⟩ := this
  refine ⟨{ t with phase := .restored, handler := b }, { t with phase := .idle, handler := b, stack := l }, ?_, ?_⟩
  · simp [step, hph, hb]
  · simp [step, hb]

/-- A history with two nested objects: interrupts before, in both constructors, inside and after. -/
example : ∃ t, run (start 7 true) [.intr, .ctorTest, .intr, .ctorSignal, .ctorPush, .ctorTest, .ctorSignal, .intr, .ctorPush,
      .dtorSignal, .dtorPop] = some t ∧ triggered t = true ∧ t.log = [7, 7] ∧ t.handler = .custom := by
  refine ⟨_, rfl, ?_⟩; decide

example : ∃ t, run (start 7 true) [.ctorTest, .ctorSignal, .ctorPush, .ctorTest, .ctorSignal, .ctorPush, .dtorSignal, .dtorPop,
      .dtorSignal, .intr, .dtorPop] = some t ∧ triggered t = false ∧ t.log = [7] ∧ t.handler = .other 7 := by
  refine ⟨_, rfl, ?_⟩; decide

end Verif.CtrlBreak
