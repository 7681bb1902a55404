import Mathlib.Data.List.Perm.Basic
import Mathlib.Data.List.Count
import Mathlib.Logic.Function.Basic
import Mathlib.Tactic

/-! Model of /repo/src/shared_ptr.h: reference-counted pointers, and C30. Objects may contain shared pointers as members
(fields), so that deleting one object may release others. Counts are unbounded integers (`long` in the code); only one
thread is modelled, as the header says the class is not thread-safe. -/
namespace Verif.SharedPtr

/-- A heap-allocated control block (`counted_base_impl`). -/
abbrev Ctrl := ℕ
/-- A heap-allocated managed object. -/
abbrev Obj := ℕ

/-- Where a shared_ptr lives: in a variable, or as a member number `k` of a managed object. -/
inductive Loc where
  | var (n : ℕ)
  | field (o : Obj) (k : ℕ)
  deriving DecidableEq, Repr

/-- shared_ptr.h:106-109: members px and pn. `pn.pi_` is never null after construction (shared_ptr.h:68-77). -/
structure Ptr where
  px : Option Obj
  pn : Ctrl
  deriving DecidableEq, Repr

/-- The heap and all existing shared_ptr objects. `bad` is set by any access to a deleted control block or a deleted
shared_ptr. -/
structure St where
  ptrs : List (Loc × Ptr)
  cnt : Ctrl → ℤ
  live : Ctrl → Bool
  objOf : Ctrl → Option Obj
  dels : Obj → ℕ
  nextC : Ctrl
  nextO : Obj
  bad : Bool

/-- Nothing exists. -/
def St.init : St := ⟨[], fun _ => 0, fun _ => false, fun _ => none, fun _ => 0, 0, 0, false⟩

def Loc.inObj (o : Option Obj) : Loc → Bool
  | .var _ => false
  | .field o' _ => o == some o'

/-- The pn members of the shared pointers that live inside object `o` (none for a null pointer). -/
def inside (s : St) (o : Option Obj) : List Ctrl := (s.ptrs.filter (fun p => p.1.inObj o)).map (fun p => p.2.pn)

def outside (s : St) (o : Option Obj) : List (Loc × Ptr) := s.ptrs.filter (fun p => !p.1.inObj o)

/-- shared_ptr.h:54-57 with 114-121: delete the object if the pointer is not null (`delete 0` does nothing). -/
def bump (dels : Obj → ℕ) : Option Obj → Obj → ℕ
  | none => dels
  | some o => Function.update dels o (dels o + 1)

/-- shared_ptr.h:27-34 (`release`) and 54-57 (`dispose`) for a list of pending releases: decrement the count; if it
drops to zero delete the object, whose member pointers are destroyed and release in turn, and the block. `delete this`
is placed before the nested releases, which is the pessimistic order for finding accesses to deleted blocks. -/
def drop (work : List Ctrl) (s : St) : St :=
  match work with
  | [] => s
  | c :: rest =>
    if s.live c = false then drop rest { s with bad := true }
    else
      let n := s.cnt c - 1
      if n = 0 then
        let o := s.objOf c
        drop (inside s o ++ rest)
          { s with
            ptrs := outside s o
            cnt := Function.update s.cnt c n
            live := Function.update s.live c false
            dels := bump s.dels o }
      else drop rest { s with cnt := Function.update s.cnt c n }
termination_by 2 * s.ptrs.length + work.length
decreasing_by
  · simp
  · have h := List.length_eq_length_filter_add (l := s.ptrs) (fun p => p.1.inObj (s.objOf c))
    simp only [inside, outside, List.length_append, List.length_map, List.length_cons]
    omega
  · simp

/-- The shared_ptr at a location. -/
def St.get (s : St) (l : Loc) : Option Ptr := (s.ptrs.find? (fun p => p.1 == l)).map Prod.snd

/-- Overwrite the shared_ptr at a location. -/
def St.set (s : St) (l : Loc) (p : Ptr) : St :=
  { s with ptrs := s.ptrs.map (fun q => if q.1 = l then (l, p) else q) }

/-- Operations of the program on its shared pointers. `isNull`: the raw pointer argument is null, otherwise it is a newly
created object. `fails`: allocation of the control block throws. -/
inductive Op where
  | construct (l : Loc) (isNull fails : Bool)
  | copy (l src : Loc)
  | aliasOf (l src : Loc) (px : Option Obj)
  | assign (l src : Loc)
  | swap (a b : Loc)
  | reset (l : Loc) (isNull fails : Bool)
  | destroy (l : Loc)
  deriving Repr

/-- A new managed object (or null): the raw pointer. -/
def newObj (s : St) (isNull : Bool) : Option Obj × St :=
  if isNull then (none, s) else (some s.nextO, { s with nextO := s.nextO + 1 })

/-- shared_ptr.h:64-77: the shared_count constructor: a new control block with count 1, or the object deleted. -/
def newCount (s : St) (p : Option Obj) (fails : Bool) : Option (Ctrl × St) × St :=
  if fails then
    (none, match p with
      | none => s
      | some o => { s with dels := Function.update s.dels o (s.dels o + 1) })
  else
    (some (s.nextC, { s with
      cnt := Function.update s.cnt s.nextC 1
      live := Function.update s.live s.nextC true
      objOf := Function.update s.objOf s.nextC p
      nextC := s.nextC + 1 }), s)

/-- shared_ptr.h:24-26 (`add_ref`). -/
def addRef (s : St) (c : Ctrl) : St :=
  if s.live c then { s with cnt := Function.update s.cnt c (s.cnt c + 1) } else { s with bad := true }

/-- One operation. A reference to a shared_ptr that does not exist is an error of the caller and sets `bad`. -/
def step (s : St) : Op → St
  -- shared_ptr.h:127, 129: shared_ptr(T* p), shared_ptr(T* p, D d)
  | .construct l isNull fails =>
    let (p, s) := newObj s isNull
    match newCount s p fails with
    | (none, s) => s
    | (some (c, s), _) => { s with ptrs := (l, ⟨p, c⟩) :: s.ptrs }
  -- shared_ptr.h:131, 84-87
  | .copy l src =>
    match s.get src with
    | none => { s with bad := true }
    | some r => let s := addRef s r.pn; { s with ptrs := (l, ⟨r.px, r.pn⟩) :: s.ptrs }
  -- shared_ptr.h:133
  | .aliasOf l src px =>
    match s.get src with
    | none => { s with bad := true }
    | some r => let s := addRef s r.pn; { s with ptrs := (l, ⟨px, r.pn⟩) :: s.ptrs }
  -- shared_ptr.h:135-139, 89-96
  | .assign l src =>
    match s.get src, s.get l with
    | some r, some p =>
      let s := s.set l ⟨r.px, p.pn⟩
      let s := addRef s r.pn
      let s := drop [p.pn] s
      match s.get l with
      | none => { s with bad := true }
      | some q => s.set l ⟨q.px, r.pn⟩
    | _, _ => { s with bad := true }
  -- shared_ptr.h:158-162, 98-103
  | .swap a b =>
    match s.get a, s.get b with
    | some p, some q => (s.set a q).set b p
    | _, _ => { s with bad := true }
  -- shared_ptr.h:141-145
  | .reset l isNull fails =>
    match s.get l with
    | none => { s with bad := true }
    | some q =>
      let (p, s) := newObj s isNull
      if q.px = p then s else
      match newCount s p fails with
      | (none, s) => s
      | (some (c, s), _) => drop [q.pn] (s.set l ⟨p, c⟩)
  -- shared_ptr.h:79-82
  | .destroy l =>
    match s.get l with
    | none => { s with bad := true }
    | some q => drop [q.pn] { s with ptrs := s.ptrs.filter (fun p => p.1 ≠ l) }

/-- The members of an object exist only while the object does. -/
def Loc.valid (s : St) : Loc → Prop
  | .var _ => True
  | .field o _ => o < s.nextO ∧ s.dels o = 0

/-- What the caller must respect: a new pointer is placed at an unused place, operands exist, an aliased address is null
or that of an object created before (addresses are never reused in the model), and the target of an
assignment is not destroyed by the assignment itself (it may only be if it is a member of an object that is deleted when
the target gives up its old value). -/
def Valid (s : St) : Op → Prop
  | .construct l _ _ => s.get l = none ∧ l.valid s
  | .copy l src => s.get l = none ∧ l.valid s ∧ s.get src ≠ none
  | .aliasOf l src px => s.get l = none ∧ l.valid s ∧ s.get src ≠ none ∧ ∀ o, px = some o → o < s.nextO
  | .assign l src => ∃ p r, s.get l = some p ∧ s.get src = some r ∧
      (drop [p.pn] (addRef (s.set l ⟨r.px, r.pn⟩) r.pn)).get l ≠ none
  | .swap a b => s.get a ≠ none ∧ s.get b ≠ none
  | .reset l _ _ => s.get l ≠ none
  | .destroy l => s.get l ≠ none

/-- States reached by the operations of a correct caller. -/
inductive Reach : St → Prop where
  | init : Reach St.init
  | step {s : St} {op : Op} : Reach s → Valid s op → Reach (step s op)

/-! ## Invariant -/

def cntPtr (s : St) (c : Ctrl) : ℕ := (s.ptrs.map (fun p => p.2.pn)).count c

structure Inv (s : St) (work : List Ctrl) : Prop where
  nodup : (s.ptrs.map Prod.fst).Nodup
  ok : s.bad = false
  cnt : ∀ c, s.live c = true → s.cnt c = cntPtr s c + work.count c ∧ 0 < s.cnt c
  pl : ∀ p ∈ s.ptrs, s.live p.2.pn = true
  wl : ∀ c ∈ work, s.live c = true
  fresh : ∀ c, s.live c = true → c < s.nextC
  obj : ∀ c o, c < s.nextC → s.objOf c = some o → o < s.nextO ∧
    (s.live c = true → s.dels o = 0) ∧ (s.live c = false → s.dels o = 1)
  inj : ∀ c c' o, c < s.nextC → c' < s.nextC → s.objOf c = some o → s.objOf c' = some o → c = c'
  own : ∀ o, o < s.nextO → s.dels o = 0 → ∃ c, c < s.nextC ∧ s.objOf c = some o
  del1 : ∀ o, s.dels o ≤ 1
  fob : ∀ o, s.nextO ≤ o → s.dels o = 0
  loc : ∀ p ∈ s.ptrs, p.1.valid s

theorem inv_init : Inv St.init [] := by
  constructor <;> simp [St.init]

theorem get_some {s : St} {l : Loc} {p : Ptr} (h : s.get l = some p) : (l, p) ∈ s.ptrs := by
  rw [St.get, Option.map_eq_some_iff] at h
  obtain ⟨⟨a, b⟩, h1, h2⟩ := h
  have := List.find?_some h1
  simp only [beq_iff_eq] at this
  cases h2
  subst this
  exact List.mem_of_find?_eq_some h1

theorem get_none {s : St} {l : Loc} (h : s.get l = none) : ∀ p ∈ s.ptrs, p.1 ≠ l := by
  rw [St.get, Option.map_eq_none_iff, List.find?_eq_none] at h
  intro p hp
  have := h p hp
  simpa using this

theorem get_of_mem {s : St} (hn : (s.ptrs.map Prod.fst).Nodup) {l : Loc} {p : Ptr} (h : (l, p) ∈ s.ptrs) :
    s.get l = some p := by
  cases hg : s.get l with
  | none => exact absurd rfl (get_none hg _ h)
  | some q =>
    have hq := get_some hg
    have := List.inj_on_of_nodup_map hn h hq rfl
    cases this; rfl

theorem cntPtr_pos {s : St} {p : Loc × Ptr} (h : p ∈ s.ptrs) : 0 < cntPtr s p.2.pn := by
  rw [cntPtr, List.count_pos_iff]
  exact List.mem_map_of_mem h

theorem cnt_split (s : St) (o : Option Obj) (c : Ctrl) :
    (inside s o).count c + ((outside s o).map (fun p => p.2.pn)).count c = cntPtr s c := by
  rw [inside, outside, cntPtr, ← List.count_append, ← List.map_append]
  apply List.Perm.count_eq
  apply List.Perm.map
  exact List.filter_append_perm _ _

theorem drop_inv : ∀ (work : List Ctrl) (s : St), Inv s work → Inv (drop work s) [] := by
  intro work s
  induction work, s using drop.induct with
  | case1 s => intro h; rw [drop]; exact h
  | case2 s c rest hl ih =>
    intro h
    have := h.wl c List.mem_cons_self
    rw [hl] at this; cases this
  | case3 s c rest hl n hn o ih =>
    intro h
    rw [drop, if_neg hl]
    simp only
    rw [if_pos hn]
    apply ih
    clear ih
    have hlc : s.live c = true := by simpa using hl
    obtain ⟨e, hpos⟩ := h.cnt c hlc
    rw [List.count_cons_self] at e
    have hn' : s.cnt c - 1 = 0 := hn
    have z1 : cntPtr s c = 0 := by omega
    have z2 : rest.count c = 0 := by omega
    have notmem : ∀ p ∈ s.ptrs, p.2.pn ≠ c := by
      intro p hp he
      have := cntPtr_pos hp
      rw [he] at this; omega
    have hsub : ∀ p ∈ outside s o, p ∈ s.ptrs ∧ p.1.inObj o = false := by
      intro p hp
      rw [outside, List.mem_filter] at hp
      exact ⟨hp.1, by simpa using hp.2⟩
    have livedef : ∀ c', Function.update s.live c false c' = true → c' ≠ c ∧ s.live c' = true := by
      intro c' hc'
      by_cases hcc : c' = c
      · subst hcc; rw [Function.update_self] at hc'; cases hc'
      · rw [Function.update_of_ne hcc] at hc'; exact ⟨hcc, hc'⟩
    have delsdef : ∀ o', bump s.dels o o' = if o = some o' then s.dels o' + 1 else s.dels o' := by
      intro o'
      cases ho : o with
      | none => simp [bump]
      | some o1 =>
        by_cases h1 : o' = o1
        · subst h1; simp [bump]
        · simp [bump, h1, Ne.symm h1]
    have hc_lt := h.fresh c hlc
    have od : o = s.objOf c := rfl
    constructor
    · exact h.nodup.sublist (List.Sublist.map _ List.filter_sublist)
    · exact h.ok
    · intro c' hc'
      obtain ⟨hne, hl'⟩ := livedef c' hc'
      obtain ⟨e', hp'⟩ := h.cnt c' hl'
      simp only
      rw [Function.update_of_ne hne]
      refine ⟨?_, hp'⟩
      rw [e', List.count_cons_of_ne (Ne.symm hne), List.count_append]
      have := cnt_split s o c'
      rw [← this]
      simp only [cntPtr]
      push_cast; ring
    · intro p hp
      have hp' := hsub p hp
      simp only
      rw [Function.update_of_ne (notmem p hp'.1)]
      exact h.pl p hp'.1
    · intro c' hc'
      rw [List.mem_append] at hc'
      simp only
      rcases hc' with hc' | hc'
      · rw [inside, List.mem_map] at hc'
        obtain ⟨p, hp, rfl⟩ := hc'
        rw [List.mem_filter] at hp
        rw [Function.update_of_ne (notmem p hp.1)]
        exact h.pl p hp.1
      · have hne : c' ≠ c := by
          rintro rfl
          have := List.count_pos_iff.2 hc'; omega
        rw [Function.update_of_ne hne]
        exact h.wl c' (List.mem_cons_of_mem _ hc')
    · intro c' hc'
      exact h.fresh c' (livedef c' hc').2
    · intro c' o' hc' ho'
      obtain ⟨a, b⟩ := h.obj c' o' hc' ho'
      refine ⟨a, ?_⟩
      simp only at ho' ⊢
      rw [delsdef]
      by_cases hcc : c' = c
      · subst hcc
        rw [od, ho', if_pos rfl, Function.update_self, b.1 hlc]; simp
      · rw [Function.update_of_ne hcc, if_neg]
        · exact b
        · rw [od]
          intro he
          exact hcc (h.inj c' c o' hc' hc_lt ho' he)
    · exact h.inj
    · intro o' ho' hd'
      simp only at hd'
      rw [delsdef] at hd'
      by_cases he : o = some o'
      · rw [if_pos he] at hd'; omega
      · rw [if_neg he] at hd'
        exact h.own o' ho' hd'
    · intro o'
      simp only
      rw [delsdef]
      by_cases he : o = some o'
      · rw [if_pos he]
        have := (h.obj c o' hc_lt (od ▸ he)).2.1 hlc
        rw [this]
      · rw [if_neg he]; exact h.del1 o'
    · intro o' ho'
      simp only at ho' ⊢
      rw [delsdef, if_neg, h.fob o' ho']
      intro he
      exact absurd (h.obj c o' hc_lt (od ▸ he)).1 (Nat.not_lt_of_le ho')
    · intro p hp
      obtain ⟨hp1, hp2⟩ := hsub p hp
      have := h.loc p hp1
      cases hl : p.1 with
      | var n => trivial
      | field o' k =>
        rw [hl] at this hp2
        refine ⟨this.1, ?_⟩
        simp only
        rw [delsdef, if_neg, this.2]
        intro he
        rw [Loc.inObj, he] at hp2
        simp at hp2
  | case4 s c rest hl n hn ih =>
    intro h
    rw [drop, if_neg hl]
    simp only
    rw [if_neg hn]
    apply ih
    clear ih
    have hlc : s.live c = true := by simpa using hl
    have hn' : s.cnt c - 1 ≠ 0 := hn
    refine ⟨h.nodup, h.ok, ?_, h.pl, fun c' hc' => h.wl c' (List.mem_cons_of_mem _ hc'), h.fresh, h.obj, h.inj, h.own,
      h.del1, h.fob, h.loc⟩
    intro c' hc'
    obtain ⟨e, hpos⟩ := h.cnt c' hc'
    simp only
    by_cases hcc : c' = c
    · subst hcc
      rw [Function.update_self]
      rw [List.count_cons_self] at e
      refine ⟨?_, by omega⟩
      rw [show cntPtr { s with cnt := Function.update s.cnt c' n } c' = cntPtr s c' from rfl]
      push_cast at e
      omega
    · rw [Function.update_of_ne hcc]
      rw [List.count_cons_of_ne (Ne.symm hcc)] at e
      exact ⟨e, hpos⟩

/-! ## Operations preserve the invariant -/

theorem mem_set {s : St} {l : Loc} {p : Ptr} {x : Loc × Ptr} (h : x ∈ (s.set l p).ptrs) :
    x = (l, p) ∨ (x ∈ s.ptrs ∧ x.1 ≠ l) := by
  rw [St.set] at h
  simp only [List.mem_map] at h
  obtain ⟨q, hq, e⟩ := h
  by_cases hl : q.1 = l
  · rw [if_pos hl] at e; exact Or.inl e.symm
  · rw [if_neg hl] at e; subst e; exact Or.inr ⟨hq, hl⟩

theorem set_fst (s : St) (l : Loc) (p : Ptr) : (s.set l p).ptrs.map Prod.fst = s.ptrs.map Prod.fst := by
  rw [St.set]
  simp only [List.map_map]
  apply List.map_congr_left
  intro q _
  simp only [Function.comp]
  by_cases hl : q.1 = l
  · rw [if_pos hl, hl]
  · rw [if_neg hl]

/-- Replacing the pointer at `l`: one reference less to the old block, one more to the new. -/
theorem cnt_set {s : St} (hn : (s.ptrs.map Prod.fst).Nodup) {l : Loc} {old : Ptr} (h : (l, old) ∈ s.ptrs) (p : Ptr)
    (c : Ctrl) : cntPtr (s.set l p) c + (if old.pn = c then 1 else 0) = cntPtr s c + (if p.pn = c then 1 else 0) := by
  have key : ∀ L : List (Loc × Ptr), (L.map Prod.fst).Nodup → (l, old) ∈ L →
      ((L.map (fun q => if q.1 = l then (l, p) else q)).map (fun q => q.2.pn)).count c + (if old.pn = c then 1 else 0) =
      (L.map (fun q => q.2.pn)).count c + (if p.pn = c then 1 else 0) := by
    intro L
    induction L with
    | nil => intro _ h; cases h
    | cons x xs ih =>
      intro hn hm
      rw [List.map_cons, List.nodup_cons] at hn
      rcases List.mem_cons.1 hm with rfl | hm
      · have : xs.map (fun q => if q.1 = l then (l, p) else q) = xs := by
          conv_rhs => rw [← List.map_id xs]
          apply List.map_congr_left
          intro q hq
          rw [if_neg]; · rfl
          intro e
          exact hn.1 (List.mem_map.2 ⟨q, hq, e⟩)
        simp only [List.map_cons, this, List.count_cons, if_true, beq_iff_eq]
        omega
      · have hx : x.1 ≠ l := by
          intro e
          exact hn.1 (List.mem_map.2 ⟨_, hm, e.symm⟩)
        have := ih hn.2 hm
        simp only [List.map_cons, if_neg hx, List.count_cons] at this ⊢
        omega
  exact key s.ptrs hn h

theorem addRef_live {s : St} {c : Ctrl} (h : s.live c = true) :
    addRef s c = { s with cnt := Function.update s.cnt c (s.cnt c + 1) } := by
  rw [addRef, if_pos h]

/-- A new pointer to an existing block. -/
theorem inv_copy {s : St} (h : Inv s []) {l : Loc} (hl : s.get l = none) (hv : l.valid s) {r : Loc × Ptr}
    (hr : r ∈ s.ptrs) (px : Option Obj) :
    Inv { addRef s r.2.pn with ptrs := (l, ⟨px, r.2.pn⟩) :: (addRef s r.2.pn).ptrs } [] := by
  have hlive := h.pl r hr
  rw [addRef_live hlive]
  refine ⟨?_, h.ok, ?_, ?_, fun c hc => by simp at hc, h.fresh, h.obj, h.inj, h.own, h.del1, h.fob, ?_⟩
  · simp only [List.map_cons, List.nodup_cons]
    refine ⟨?_, h.nodup⟩
    rw [List.mem_map]
    rintro ⟨q, hq, e⟩
    exact get_none hl q hq e
  · intro c hc
    obtain ⟨e, hp⟩ := h.cnt c hc
    simp only [cntPtr, List.map_cons, List.count_cons] at e ⊢
    by_cases hcc : c = r.2.pn
    · subst hcc
      simp only [Function.update_self, beq_self_eq_true, if_true]
      rw [e]
      exact ⟨by push_cast; ring, by omega⟩
    · rw [Function.update_of_ne hcc]
      have : (r.2.pn == c) = false := by simpa using (Ne.symm hcc)
      simp only [this, Bool.false_eq_true, if_false]
      exact ⟨by rw [e]; simp, hp⟩
  · intro p hp
    rcases List.mem_cons.1 hp with rfl | hp
    · exact hlive
    · exact h.pl p hp
  · intro p hp
    rcases List.mem_cons.1 hp with rfl | hp
    · cases l with
      | var n => trivial
      | field o k => exact hv
    · have := h.loc p hp
      cases hq : p.1 with
      | var n => trivial
      | field o k => rw [hq] at this; exact this

/-- Exchange of the contents of two places. -/
theorem inv_swap {s : St} (h : Inv s []) {a b : Loc} {p q : Ptr} (ha : s.get a = some p) (hb : s.get b = some q) :
    Inv ((s.set a q).set b p) [] := by
  have ma := get_some ha
  have mb := get_some hb
  have n1 : ((s.set a q).ptrs.map Prod.fst).Nodup := by rw [set_fst]; exact h.nodup
  have hmem : (b, q) ∈ (s.set a q).ptrs := by
    rw [St.set]
    simp only [List.mem_map]
    by_cases hab : b = a
    · subst hab
      exact ⟨(b, q), mb, by simp⟩
    · exact ⟨(b, q), mb, by simp [hab]⟩
  have hc : ∀ c, cntPtr ((s.set a q).set b p) c = cntPtr s c := by
    intro c
    have e1 := cnt_set h.nodup ma q c
    have e2 := cnt_set n1 hmem p c
    omega
  have hm : ∀ x ∈ ((s.set a q).set b p).ptrs, s.live x.2.pn = true ∧ x.1.valid s := by
    intro x hx
    rcases mem_set hx with rfl | ⟨hx, -⟩
    · exact ⟨h.pl (a, p) ma, h.loc (b, q) mb⟩
    · rcases mem_set hx with rfl | ⟨hx, -⟩
      · exact ⟨h.pl (b, q) mb, h.loc (a, p) ma⟩
      · exact ⟨h.pl _ hx, h.loc _ hx⟩
  refine ⟨by rw [set_fst]; exact n1, h.ok, ?_, fun x hx => (hm x hx).1, fun c hc => by simp at hc, h.fresh, h.obj,
    h.inj, h.own, h.del1, h.fob, fun x hx => ?_⟩
  · intro c hcl
    rw [hc c]
    exact h.cnt c hcl
  · have := (hm x hx).2
    cases hq : x.1 with
    | var n => trivial
    | field o k => rw [hq] at this; exact this

/-- A new object that is not yet owned is described by the invariant for the state without it. -/
theorem newObj_cases (s : St) (b : Bool) : (newObj s b = (none, s)) ∨
    (newObj s b = (some s.nextO, { s with nextO := s.nextO + 1 })) := by
  rw [newObj]; cases b <;> simp

/-- The state after a new control block for a new object (or null) was created, with the single reference to it still
pending in `work`. -/
theorem inv_newCount {s : St} (h : Inv s []) (b : Bool) :
    let p := (newObj s b).1
    let s1 := (newObj s b).2
    (∃ s2, newCount s1 p false = (some (s.nextC, s2), s1) ∧ Inv s2 [s.nextC] ∧ s2.ptrs = s.ptrs ∧
      s.nextO ≤ s2.nextO ∧ s2.dels = s.dels ∧ (∀ c, c ≠ s.nextC → s2.live c = s.live c) ∧
      s2.live s.nextC = true) ∧
    (newCount s1 p true).1 = none ∧ Inv (newCount s1 p true).2 [] := by
  have hnl : s.live s.nextC = false := by
    rw [← Bool.not_eq_true]
    intro hh
    exact absurd (h.fresh _ hh) (Nat.lt_irrefl _)
  have hne : ∀ c, s.live c = true → c ≠ s.nextC := by
    rintro c hc rfl; rw [hnl] at hc; cases hc
  have hcp : cntPtr s s.nextC = 0 := by
    rw [cntPtr, List.count_eq_zero, List.mem_map]
    rintro ⟨q, hq, e⟩
    exact hne _ (h.pl q hq) e
  have hobjlt : ∀ c o, c < s.nextC → s.objOf c = some o → o < s.nextO := fun c o hc ho => (h.obj c o hc ho).1
  rcases newObj_cases s b with e | e
  · -- null
    rw [e]
    simp only [newCount, Bool.false_eq_true, if_false, if_true]
    refine ⟨⟨_, rfl, ?_, rfl, le_rfl, rfl, ?_, Function.update_self _ _ _⟩, trivial, h⟩
    swap
    · intro c hc; exact Function.update_of_ne hc _ _
    refine ⟨h.nodup, h.ok, ?_, ?_, ?_, ?_, ?_, ?_, ?_, h.del1, h.fob, ?_⟩
    · intro c hc
      by_cases hcc : c = s.nextC
      · subst hcc
        simp only [Function.update_self]
        rw [cntPtr] at hcp ⊢
        simp [hcp]
      · simp only [Function.update_of_ne hcc] at hc ⊢
        rw [List.count_cons_of_ne (Ne.symm hcc)]
        exact h.cnt c hc
    · intro p hp
      have := h.pl p hp
      simp only
      rw [Function.update_of_ne (hne _ this)]; exact this
    · intro c hc
      rw [List.mem_singleton] at hc
      subst hc
      exact Function.update_self _ _ _
    · intro c hc
      by_cases hcc : c = s.nextC
      · subst hcc; exact Nat.lt_succ_self _
      · simp only [Function.update_of_ne hcc] at hc
        exact Nat.lt_succ_of_lt (h.fresh c hc)
    · intro c o hc ho
      by_cases hcc : c = s.nextC
      · subst hcc; simp only [Function.update_self] at ho; cases ho
      · simp only [Function.update_of_ne hcc] at ho ⊢
        exact h.obj c o (lt_of_le_of_ne (Nat.lt_succ_iff.1 hc) hcc) ho
    · intro c c' o hc hc' ho ho'
      have n1 : c ≠ s.nextC := by rintro rfl; simp only [Function.update_self] at ho; cases ho
      have n2 : c' ≠ s.nextC := by rintro rfl; simp only [Function.update_self] at ho'; cases ho'
      simp only [Function.update_of_ne n1] at ho
      simp only [Function.update_of_ne n2] at ho'
      exact h.inj c c' o (lt_of_le_of_ne (Nat.lt_succ_iff.1 hc) n1) (lt_of_le_of_ne (Nat.lt_succ_iff.1 hc') n2) ho ho'
    · intro o ho hd
      obtain ⟨c, hc, hco⟩ := h.own o ho hd
      refine ⟨c, Nat.lt_succ_of_lt hc, ?_⟩
      simp only
      rw [Function.update_of_ne (Nat.ne_of_lt hc)]; exact hco
    · intro p hp
      have := h.loc p hp
      cases hq : p.1 with
      | var n => trivial
      | field o k => rw [hq] at this; exact this
  · rw [e]
    have hd0 : s.dels s.nextO = 0 := h.fob _ le_rfl
    simp only [newCount, Bool.false_eq_true, if_false, if_true]
    refine ⟨⟨_, rfl, ?_, rfl, Nat.le_succ _, rfl, ?_, Function.update_self _ _ _⟩, trivial, ?_⟩
    · refine ⟨h.nodup, h.ok, ?_, ?_, ?_, ?_, ?_, ?_, ?_, h.del1, ?_, ?_⟩
      · intro c hc
        by_cases hcc : c = s.nextC
        · subst hcc
          simp only [Function.update_self]
          rw [cntPtr] at hcp ⊢
          simp [hcp]
        · simp only [Function.update_of_ne hcc] at hc ⊢
          rw [List.count_cons_of_ne (Ne.symm hcc)]
          exact h.cnt c hc
      · intro p hp
        have := h.pl p hp
        simp only
        rw [Function.update_of_ne (hne _ this)]; exact this
      · intro c hc
        rw [List.mem_singleton] at hc
        subst hc
        exact Function.update_self _ _ _
      · intro c hc
        by_cases hcc : c = s.nextC
        · subst hcc; exact Nat.lt_succ_self _
        · simp only [Function.update_of_ne hcc] at hc
          exact Nat.lt_succ_of_lt (h.fresh c hc)
      · intro c o hc ho
        by_cases hcc : c = s.nextC
        · subst hcc
          simp only [Function.update_self] at ho ⊢
          cases ho
          exact ⟨Nat.lt_succ_self _, fun _ => hd0, fun hh => by cases hh⟩
        · simp only [Function.update_of_ne hcc] at ho ⊢
          have := h.obj c o (lt_of_le_of_ne (Nat.lt_succ_iff.1 hc) hcc) ho
          exact ⟨Nat.lt_succ_of_lt this.1, this.2⟩
      · intro c c' o hc hc' ho ho'
        by_cases n1 : c = s.nextC <;> by_cases n2 : c' = s.nextC
        · rw [n1, n2]
        · subst n1
          simp only [Function.update_self] at ho
          cases ho
          simp only [Function.update_of_ne n2] at ho'
          exact absurd (hobjlt c' _ (lt_of_le_of_ne (Nat.lt_succ_iff.1 hc') n2) ho') (Nat.lt_irrefl _)
        · subst n2
          simp only [Function.update_self] at ho'
          cases ho'
          simp only [Function.update_of_ne n1] at ho
          exact absurd (hobjlt c _ (lt_of_le_of_ne (Nat.lt_succ_iff.1 hc) n1) ho) (Nat.lt_irrefl _)
        · simp only [Function.update_of_ne n1] at ho
          simp only [Function.update_of_ne n2] at ho'
          exact h.inj c c' o (lt_of_le_of_ne (Nat.lt_succ_iff.1 hc) n1) (lt_of_le_of_ne (Nat.lt_succ_iff.1 hc') n2)
            ho ho'
      · intro o ho hd
        by_cases hoo : o = s.nextO
        · subst hoo
          exact ⟨s.nextC, Nat.lt_succ_self _, by simp only [Function.update_self]⟩
        · obtain ⟨c, hc, hco⟩ := h.own o (lt_of_le_of_ne (Nat.lt_succ_iff.1 ho) hoo) hd
          refine ⟨c, Nat.lt_succ_of_lt hc, ?_⟩
          simp only
          rw [Function.update_of_ne (Nat.ne_of_lt hc)]; exact hco
      · intro o ho
        exact h.fob o (le_trans (Nat.le_succ _) ho)
      · intro p hp
        have := h.loc p hp
        cases hq : p.1 with
        | var n => trivial
        | field o k => rw [hq] at this; exact ⟨Nat.lt_succ_of_lt this.1, this.2⟩
    · intro c hc; exact Function.update_of_ne hc _ _
    · -- allocation of the block failed: the object is deleted
      refine ⟨h.nodup, h.ok, h.cnt, h.pl, fun c hc => by simp at hc, h.fresh, ?_, h.inj, ?_, ?_, ?_, ?_⟩
      · intro c o hc ho
        obtain ⟨a, b⟩ := h.obj c o hc ho
        refine ⟨Nat.lt_succ_of_lt a, ?_⟩
        simp only
        rw [Function.update_of_ne (Nat.ne_of_lt a)]
        exact b
      · intro o ho hd
        have hoo : o ≠ s.nextO := by
          rintro rfl
          simp only [Function.update_self] at hd
          omega
        simp only [Function.update_of_ne hoo] at hd
        exact h.own o (lt_of_le_of_ne (Nat.lt_succ_iff.1 ho) hoo) hd
      · intro o
        by_cases hoo : o = s.nextO
        · subst hoo
          simp only [Function.update_self]
          omega
        · simp only [Function.update_of_ne hoo]; exact h.del1 o
      · intro o ho
        have hoo : o ≠ s.nextO := by
          rintro rfl
          exact absurd ho (Nat.not_succ_le_self _)
        simp only [Function.update_of_ne hoo]
        exact h.fob o (le_trans (Nat.le_succ _) ho)
      · intro p hp
        have := h.loc p hp
        cases hq : p.1 with
        | var n => trivial
        | field o k =>
          rw [hq] at this
          refine ⟨Nat.lt_succ_of_lt this.1, ?_⟩
          simp only
          rw [Function.update_of_ne (Nat.ne_of_lt this.1)]
          exact this.2

/-- The pending reference is stored in a new pointer. -/
theorem inv_push {s : St} {c : Ctrl} (h : Inv s [c]) {l : Loc} (hl : ∀ p ∈ s.ptrs, p.1 ≠ l) (hv : l.valid s)
    (px : Option Obj) : Inv { s with ptrs := (l, ⟨px, c⟩) :: s.ptrs } [] := by
  refine ⟨?_, h.ok, ?_, ?_, fun c hc => by simp at hc, h.fresh, h.obj, h.inj, h.own, h.del1, h.fob, ?_⟩
  · simp only [List.map_cons, List.nodup_cons]
    refine ⟨?_, h.nodup⟩
    rw [List.mem_map]
    rintro ⟨q, hq, e⟩
    exact hl q hq e
  · intro c' hc
    obtain ⟨e, hp⟩ := h.cnt c' hc
    refine ⟨?_, hp⟩
    simp only [cntPtr, List.map_cons, List.count_cons, List.count_nil] at e ⊢
    rw [e]; push_cast; ring
  · intro p hp
    rcases List.mem_cons.1 hp with rfl | hp
    · exact h.wl c (by simp)
    · exact h.pl p hp
  · intro p hp
    rcases List.mem_cons.1 hp with rfl | hp
    · cases l with
      | var n => trivial
      | field o k => exact hv
    · have := h.loc p hp
      cases hq : p.1 with
      | var n => trivial
      | field o k => rw [hq] at this; exact this

/-- The pending reference replaces the one stored at `l`, which becomes pending. -/
theorem inv_exchange {s : St} {c : Ctrl} (h : Inv s [c]) {l : Loc} {old : Ptr} (hm : (l, old) ∈ s.ptrs)
    (px : Option Obj) : Inv (s.set l ⟨px, c⟩) [old.pn] := by
  have hc := cnt_set h.nodup hm ⟨px, c⟩
  have mm : ∀ x ∈ (s.set l ⟨px, c⟩).ptrs, s.live x.2.pn = true ∧ x.1.valid s := by
    intro x hx
    rcases mem_set hx with rfl | ⟨hx, -⟩
    · exact ⟨h.wl c (by simp), h.loc (l, old) hm⟩
    · exact ⟨h.pl _ hx, h.loc _ hx⟩
  refine ⟨by rw [set_fst]; exact h.nodup, h.ok, ?_, fun x hx => (mm x hx).1, ?_, h.fresh, h.obj, h.inj, h.own, h.del1,
    h.fob, ?_⟩
  · intro c' hl'
    obtain ⟨e, hp⟩ := h.cnt c' hl'
    have := hc c'
    refine ⟨?_, hp⟩
    rw [show (s.set l ⟨px, c⟩).cnt = s.cnt from rfl, e]
    simp only [List.count_cons, List.count_nil, beq_iff_eq] at e ⊢
    simp only at this
    by_cases h1 : old.pn = c' <;> by_cases h2 : c = c' <;> simp only [h1, h2, if_true, if_false] at this ⊢ <;>
      push_cast <;> omega
  · intro c' hc'
    rw [List.mem_singleton] at hc'
    subst hc'
    exact h.pl _ hm
  · intro x hx
    have := (mm x hx).2
    cases hq : x.1 with
    | var n => trivial
    | field o k => rw [hq] at this; exact this

/-- A stored reference becomes pending. -/
theorem inv_remove {s : St} (h : Inv s []) {l : Loc} {q : Ptr} (hm : (l, q) ∈ s.ptrs) :
    Inv { s with ptrs := s.ptrs.filter (fun p => p.1 ≠ l) } [q.pn] := by
  have hcnt : ∀ c, ((s.ptrs.filter (fun p => p.1 ≠ l)).map (fun p => p.2.pn)).count c + (if q.pn = c then 1 else 0) =
      cntPtr s c := by
    intro c
    have key : ∀ L : List (Loc × Ptr), (L.map Prod.fst).Nodup → (l, q) ∈ L →
        ((L.filter (fun p => p.1 ≠ l)).map (fun p => p.2.pn)).count c + (if q.pn = c then 1 else 0) =
        (L.map (fun p => p.2.pn)).count c := by
      intro L
      induction L with
      | nil => intro _ h; cases h
      | cons x xs ih =>
        intro hn hm
        rw [List.map_cons, List.nodup_cons] at hn
        rcases List.mem_cons.1 hm with rfl | hm
        · have : xs.filter (fun p => p.1 ≠ l) = xs := by
            rw [List.filter_eq_self]
            intro p hp
            have : p.1 ≠ l := by
              intro e
              exact hn.1 (List.mem_map.2 ⟨p, hp, e⟩)
            simpa using this
          rw [List.filter_cons_of_neg (by simp), this, List.map_cons, List.count_cons]
          simp only [beq_iff_eq]
        · have hx : x.1 ≠ l := by
            intro e
            exact hn.1 (List.mem_map.2 ⟨_, hm, e.symm⟩)
          rw [List.filter_cons_of_pos (by simpa using hx), List.map_cons, List.map_cons, List.count_cons,
            List.count_cons]
          have := ih hn.2 hm
          omega
    exact key s.ptrs h.nodup hm
  refine ⟨h.nodup.sublist (List.Sublist.map _ List.filter_sublist), h.ok, ?_, ?_, ?_, h.fresh, h.obj, h.inj, h.own,
    h.del1, h.fob, ?_⟩
  · intro c hc
    obtain ⟨e, hp⟩ := h.cnt c hc
    refine ⟨?_, hp⟩
    have := hcnt c
    simp only [List.count_cons, List.count_nil, beq_iff_eq] at e ⊢
    rw [e, ← this]
    rw [cntPtr]
    push_cast; ring
  · intro p hp
    exact h.pl p (List.mem_of_mem_filter hp)
  · intro c hc
    rw [List.mem_singleton] at hc
    subst hc
    exact h.pl _ hm
  · intro p hp
    have := h.loc p (List.mem_of_mem_filter hp)
    cases hq : p.1 with
    | var n => trivial
    | field o k => rw [hq] at this; exact this

/-- Places are only ever removed by `drop`. -/
theorem drop_sub : ∀ (work : List Ctrl) (s : St), (drop work s).ptrs.Sublist s.ptrs := by
  intro work s
  induction work, s using drop.induct with
  | case1 s => rw [drop]
  | case2 s c rest hl ih => rw [drop, if_pos hl]; exact ih
  | case3 s c rest hl n hn o ih =>
    rw [drop, if_neg hl]
    simp only
    rw [if_pos hn]
    exact ih.trans List.filter_sublist
  | case4 s c rest hl n hn ih =>
    rw [drop, if_neg hl]
    simp only
    rw [if_neg hn]
    exact ih

theorem get_ne_none_iff {s : St} {l : Loc} : s.get l ≠ none ↔ ∃ p ∈ s.ptrs, p.1 = l := by
  constructor
  · intro h
    obtain ⟨p, hp⟩ := Option.ne_none_iff_exists'.1 h
    exact ⟨_, get_some hp, rfl⟩
  · rintro ⟨p, hp, e⟩ h
    exact get_none h p hp e

theorem set_set (s : St) (l : Loc) (p q : Ptr) : (s.set l p).set l q = s.set l q := by
  simp only [St.set, List.map_map]
  congr 1
  apply List.map_congr_left
  intro x _
  simp only [Function.comp]
  by_cases h : x.1 = l
  · rw [if_pos h, if_pos rfl, if_pos h]
  · rw [if_neg h, if_neg h]

/-- If the place `l` survives, the order of storing the new value there and of the releases is immaterial. -/
theorem drop_set : ∀ (work : List Ctrl) (s : St) (l : Loc) (p q : Ptr),
    (drop work (s.set l q)).get l ≠ none → drop work (s.set l p) = (drop work (s.set l q)).set l p := by
  intro work s
  induction work, s using drop.induct with
  | case1 s => intro l p q _; rw [drop, drop, set_set]
  | case2 s c rest hl ih =>
    intro l p q h
    have e : ∀ p, drop (c :: rest) (s.set l p) = drop rest ({ s with bad := true }.set l p) := by
      intro p; rw [drop, if_pos (show (s.set l p).live c = false from hl)]; rfl
    rw [e] at h
    rw [e, e]
    exact ih l p q h
  | case3 s c rest hl n hn o ih =>
    intro l p q h
    obtain ⟨s', hs'⟩ : ∃ s' : St, s' = { s with
            ptrs := outside s o
            cnt := Function.update s.cnt c n
            live := Function.update s.live c false
            dels := bump s.dels o } := ⟨_, rfl⟩
    rw [← hs'] at ih
    have hin : l.inObj o = false := by
      by_contra hh
      rw [Bool.not_eq_false] at hh
      apply h
      have : ∀ x ∈ (drop (c :: rest) (s.set l q)).ptrs, x.1 ≠ l := by
        rw [drop, if_neg (show ¬ (s.set l q).live c = false from hl)]
        simp only
        rw [if_pos (show (s.set l q).cnt c - 1 = 0 from hn)]
        intro x hx
        have := (drop_sub _ _).subset hx
        simp only [outside, List.mem_filter] at this
        rintro rfl
        have h2 := this.2
        rw [show (s.set x.1 q).objOf c = o from rfl, hh] at h2
        simp at h2
      cases hg : (drop (c :: rest) (s.set l q)).get l with
      | none => rfl
      | some r => exact absurd rfl (this _ (get_some hg))
    have e : ∀ p, drop (c :: rest) (s.set l p) = drop (inside s o ++ rest) (s'.set l p) := by
      intro p
      rw [drop, if_neg (show ¬ (s.set l p).live c = false from hl)]
      simp only
      rw [if_pos (show (s.set l p).cnt c - 1 = 0 from hn)]
      have i1 : inside (s.set l p) o = inside s o := by
        simp only [inside, St.set, List.filter_map, List.map_map]
        have f1 : ((fun x : Loc × Ptr => x.1.inObj o) ∘ fun x => if x.1 = l then (l, p) else x) = fun x => x.1.inObj o := by
          funext x
          simp only [Function.comp]
          by_cases hx : x.1 = l
          · rw [if_pos hx, hx]
          · rw [if_neg hx]
        rw [f1]
        apply List.map_congr_left
        intro x hx
        rw [List.mem_filter] at hx
        simp only [Function.comp]
        rw [if_neg]
        intro he
        rw [he, hin] at hx
        simp at hx
      have i2 : outside (s.set l p) o = (outside s o).map (fun x => if x.1 = l then (l, p) else x) := by
        simp only [outside, St.set, List.filter_map]
        have f1 : ((fun x : Loc × Ptr => !x.1.inObj o) ∘ fun x => if x.1 = l then (l, p) else x) = fun x => !x.1.inObj o := by
          funext x
          simp only [Function.comp]
          by_cases hx : x.1 = l
          · rw [if_pos hx, hx]
          · rw [if_neg hx]
        rw [f1]
      rw [show (s.set l p).objOf c = o from rfl, i1, i2, hs']
      congr 1
    rw [e] at h
    rw [e, e]
    exact ih l p q h
  | case4 s c rest hl n hn ih =>
    intro l p q h
    have e : ∀ p, drop (c :: rest) (s.set l p) =
        drop rest ({ s with cnt := Function.update s.cnt c n }.set l p) := by
      intro p
      rw [drop, if_neg (show ¬ (s.set l p).live c = false from hl)]
      simp only
      rw [if_neg (show ¬ (s.set l p).cnt c - 1 = 0 from hn)]
      rfl
    rw [e] at h
    rw [e, e]
    exact ih l p q h

theorem addRef_set (s : St) (l : Loc) (p : Ptr) (c : Ctrl) : addRef (s.set l p) c = (addRef s c).set l p := by
  rw [addRef, addRef]
  by_cases h : s.live c = true
  · rw [if_pos (show (s.set l p).live c = true from h), if_pos h]; rfl
  · rw [if_neg (show ¬ (s.set l p).live c = true from h), if_neg h]; rfl

theorem inv_addRef {s : St} (h : Inv s []) {c : Ctrl} (hl : s.live c = true) : Inv (addRef s c) [c] := by
  rw [addRef_live hl]
  refine ⟨h.nodup, h.ok, ?_, h.pl, fun c' hc' => by rw [List.mem_singleton] at hc'; subst hc'; exact hl, h.fresh, h.obj,
    h.inj, h.own, h.del1, h.fob, ?_⟩
  · intro c' hc'
    obtain ⟨e, hp⟩ := h.cnt c' hc'
    by_cases hcc : c' = c
    · subst hcc
      simp only [Function.update_self, List.count_cons_self, List.count_nil]
      refine ⟨?_, by omega⟩
      simp only [List.count_nil, cntPtr] at e ⊢
      rw [e]; push_cast; ring
    · simp only [Function.update_of_ne hcc]
      rw [List.count_cons_of_ne (Ne.symm hcc)]
      exact ⟨e, hp⟩
  · intro p hp
    have := h.loc p hp
    cases hq : p.1 with
    | var n => trivial
    | field o k => rw [hq] at this; exact this

theorem valid_mono {s t : St} {l : Loc} (h : l.valid s) (h1 : s.nextO ≤ t.nextO) (h2 : t.dels = s.dels) : l.valid t := by
  cases l with
  | var n => trivial
  | field o k => exact ⟨lt_of_lt_of_le h.1 h1, by rw [h2]; exact h.2⟩

/-- Stored addresses are those of objects created before. -/
def PxOk (s : St) : Prop := ∀ p ∈ s.ptrs, ∀ o, p.2.px = some o → o < s.nextO

theorem drop_nextO : ∀ (work : List Ctrl) (s : St), (drop work s).nextO = s.nextO ∧ (drop work s).nextC = s.nextC := by
  intro work s
  induction work, s using drop.induct with
  | case1 s => rw [drop]; exact ⟨rfl, rfl⟩
  | case2 s c rest hl ih => rw [drop, if_pos hl]; exact ih
  | case3 s c rest hl n hn o ih =>
    rw [drop, if_neg hl]
    simp only
    rw [if_pos hn]
    exact ih
  | case4 s c rest hl n hn ih =>
    rw [drop, if_neg hl]
    simp only
    rw [if_neg hn]
    exact ih

theorem px_drop {work : List Ctrl} {s : St} (h : PxOk s) : PxOk (drop work s) := by
  intro p hp o ho
  rw [(drop_nextO work s).1]
  exact h p ((drop_sub work s).subset hp) o ho

theorem px_set {s : St} (h : PxOk s) {l : Loc} {q : Ptr} (hq : ∀ o, q.px = some o → o < s.nextO) : PxOk (s.set l q) := by
  intro p hp o ho
  rcases mem_set hp with rfl | ⟨hp, -⟩
  · exact hq o ho
  · exact h p hp o ho

theorem px_new (s : St) (b fails : Bool) (h : PxOk s) :
    PxOk (newObj s b).2 ∧ (∀ o, (newObj s b).1 = some o → o < (newObj s b).2.nextO) ∧
    PxOk (newCount (newObj s b).2 (newObj s b).1 fails).2 ∧
    ∀ c s2, (newCount (newObj s b).2 (newObj s b).1 fails).1 = some (c, s2) →
      PxOk s2 ∧ s2.nextO = (newObj s b).2.nextO := by
  have h1 : PxOk (newObj s b).2 := by
    rcases newObj_cases s b with e | e
    · rw [e]; exact h
    · rw [e]; exact fun p hp o ho => Nat.lt_succ_of_lt (h p hp o ho)
  refine ⟨h1, ?_, ?_, ?_⟩
  · rcases newObj_cases s b with e | e
    · rw [e]; intro o ho; cases ho
    · rw [e]; intro o ho; cases ho; exact Nat.lt_succ_self _
  · generalize newObj s b = x at h1 ⊢
    obtain ⟨p, s'⟩ := x
    cases fails
    · exact h1
    · cases p <;> exact h1
  · intro c s2 he
    generalize newObj s b = x at h1 he ⊢
    obtain ⟨p, s'⟩ := x
    cases fails
    · simp only [newCount, Bool.false_eq_true, if_false, Option.some.injEq, Prod.mk.injEq] at he
      obtain ⟨-, rfl⟩ := he
      exact ⟨h1, rfl⟩
    · simp [newCount] at he

theorem px_addRef {s : St} {c : Ctrl} (h : PxOk s) : PxOk (addRef s c) ∧ (addRef s c).nextO = s.nextO := by
  rw [addRef]
  by_cases hl : s.live c = true
  · rw [if_pos hl]; exact ⟨h, rfl⟩
  · rw [if_neg hl]; exact ⟨h, rfl⟩

theorem step_px {s : St} (h : PxOk s) (op : Op) (hv : Valid s op) : PxOk (step s op) := by
  cases op with
  | construct l b fails =>
    obtain ⟨h1, h2, h3, h4⟩ := px_new s b fails h
    rw [step]
    simp only
    cases hh : newCount (newObj s b).2 (newObj s b).1 fails with
    | mk x y =>
      rw [hh] at h3 h4
      cases x with
      | none => exact h3
      | some cs =>
        obtain ⟨c, s2⟩ := cs
        obtain ⟨a, e⟩ := h4 c s2 rfl
        intro p hp o ho
        rcases List.mem_cons.1 hp with rfl | hp
        · simp only; rw [e]; exact h2 o ho
        · exact a p hp o ho
  | copy l src =>
    obtain ⟨hl, hlv, hs⟩ := hv
    obtain ⟨r, hr⟩ := Option.ne_none_iff_exists'.1 hs
    rw [step, hr]
    obtain ⟨a, e⟩ := px_addRef (c := r.pn) h
    intro p hp o ho
    simp only at hp ⊢
    rcases List.mem_cons.1 hp with rfl | hp
    · rw [e]; exact h _ (get_some hr) o ho
    · exact a p hp o ho
  | aliasOf l src px =>
    obtain ⟨hl, hlv, hs, hpx⟩ := hv
    obtain ⟨r, hr⟩ := Option.ne_none_iff_exists'.1 hs
    rw [step, hr]
    obtain ⟨a, e⟩ := px_addRef (c := r.pn) h
    intro p hp o ho
    simp only at hp ⊢
    rcases List.mem_cons.1 hp with rfl | hp
    · rw [e]; exact hpx o ho
    · exact a p hp o ho
  | assign l src =>
    obtain ⟨p, r, hp, hr, hsafe⟩ := hv
    rw [step, hr, hp]
    simp only
    have a := px_set h (l := l) (q := ⟨r.px, p.pn⟩) (h _ (get_some hr))
    have b := (px_addRef (c := r.pn) a).1
    have d := px_drop (work := [p.pn]) b
    cases hg : (drop [p.pn] (addRef (s.set l ⟨r.px, p.pn⟩) r.pn)).get l with
    | none => exact d
    | some q => exact px_set d (d _ (get_some hg))
  | swap a b =>
    obtain ⟨ha, hb⟩ := hv
    obtain ⟨p, hp⟩ := Option.ne_none_iff_exists'.1 ha
    obtain ⟨q, hq⟩ := Option.ne_none_iff_exists'.1 hb
    rw [step, hp, hq]
    exact px_set (px_set h (h _ (get_some hq))) (h _ (get_some hp))
  | reset l b fails =>
    obtain ⟨q, hq⟩ := Option.ne_none_iff_exists'.1 hv
    obtain ⟨h1, h2, h3, h4⟩ := px_new s b fails h
    rw [step, hq]
    simp only
    by_cases hpx : q.px = (newObj s b).1
    · rw [if_pos hpx]; exact h1
    rw [if_neg hpx]
    cases hh : newCount (newObj s b).2 (newObj s b).1 fails with
    | mk x y =>
      rw [hh] at h3 h4
      cases x with
      | none => exact h3
      | some cs =>
        obtain ⟨c, s2⟩ := cs
        obtain ⟨a, e⟩ := h4 c s2 rfl
        exact px_drop (px_set a (fun o ho => by rw [e]; exact h2 o ho))
  | destroy l =>
    obtain ⟨q, hq⟩ := Option.ne_none_iff_exists'.1 hv
    rw [step, hq]
    apply px_drop
    intro p hp o ho
    exact h p (List.mem_of_mem_filter hp) o ho

/-- Every valid operation preserves the invariant. -/
theorem step_inv {s : St} (h : Inv s []) (hx : PxOk s) (op : Op) (hv : Valid s op) : Inv (step s op) [] := by
  cases op with
  | construct l b fails =>
    obtain ⟨hl, hlv⟩ := hv
    obtain ⟨⟨s2, e, hi, hp, hn, hd, -, -⟩, f1, f2⟩ := inv_newCount h b
    rw [step]
    cases fails with
    | true =>
      cases hh : newCount (newObj s b).2 (newObj s b).1 true with
      | mk a b' =>
        rw [hh] at f1 f2
        simp only at f1 f2
        subst f1
        simp only [hh]
        exact f2
    | false =>
      simp only [e]
      exact inv_push hi (fun p hp' => get_none hl p (hp ▸ hp')) (valid_mono hlv hn hd) _
  | copy l src =>
    obtain ⟨hl, hlv, hs⟩ := hv
    obtain ⟨r, hr⟩ := Option.ne_none_iff_exists'.1 hs
    rw [step, hr]
    exact inv_copy h hl hlv (get_some hr) _
  | aliasOf l src px =>
    obtain ⟨hl, hlv, hs, -⟩ := hv
    obtain ⟨r, hr⟩ := Option.ne_none_iff_exists'.1 hs
    rw [step, hr]
    exact inv_copy h hl hlv (get_some hr) px
  | assign l src =>
    obtain ⟨p, r, hp, hr, hsafe⟩ := hv
    rw [step, hr, hp]
    simp only
    have lr := h.pl _ (get_some hr)
    have h1 := inv_addRef h lr
    have hm : (l, p) ∈ (addRef s r.pn).ptrs := by rw [addRef_live lr]; exact get_some hp
    have h2 := inv_exchange h1 hm r.px
    have h3 := drop_inv _ _ h2
    rw [addRef_set] at hsafe ⊢
    have e := drop_set [p.pn] (addRef s r.pn) l ⟨r.px, p.pn⟩ ⟨r.px, r.pn⟩ hsafe
    rw [e]
    set t := drop [p.pn] ((addRef s r.pn).set l ⟨r.px, r.pn⟩) with ht
    have hg : (t.set l ⟨r.px, p.pn⟩).get l = some ⟨r.px, p.pn⟩ := by
      apply get_of_mem
      · rw [set_fst]; exact h3.nodup
      · obtain ⟨q, hq, hql⟩ := get_ne_none_iff.1 hsafe
        rw [St.set]
        simp only [List.mem_map]
        exact ⟨q, hq, by rw [if_pos hql]⟩
    rw [hg]
    simp only
    rw [set_set]
    have hself : t.set l ⟨r.px, r.pn⟩ = t := by
      have : ∀ q ∈ t.ptrs, q.1 = l → q = (l, ⟨r.px, r.pn⟩) := by
        intro q hq hql
        have := (drop_sub _ _).subset hq
        rcases mem_set this with h | h
        · exact h
        · exact absurd hql h.2
      rw [St.set]
      have e2 : t.ptrs.map (fun q => if q.1 = l then (l, (⟨r.px, r.pn⟩ : Ptr)) else q) = t.ptrs := by
        conv_rhs => rw [← List.map_id t.ptrs]
        apply List.map_congr_left
        intro q hq
        by_cases hql : q.1 = l
        · rw [if_pos hql, this q hq hql]; rfl
        · rw [if_neg hql]; rfl
      rw [e2]
    rw [hself]
    exact h3
  | swap a b =>
    obtain ⟨ha, hb⟩ := hv
    obtain ⟨p, hp⟩ := Option.ne_none_iff_exists'.1 ha
    obtain ⟨q, hq⟩ := Option.ne_none_iff_exists'.1 hb
    rw [step, hp, hq]
    exact inv_swap h hp hq
  | reset l b fails =>
    obtain ⟨q, hq⟩ := Option.ne_none_iff_exists'.1 hv
    have hm := get_some hq
    obtain ⟨⟨s2, e, hi, hp, hn, hd, -, -⟩, f1, f2⟩ := inv_newCount h b
    rw [step, hq]
    simp only
    by_cases hpx : q.px = (newObj s b).1
    · -- only possible if both are null, or if the stored pointer already equals the new object's address
      rw [if_pos hpx]
      rcases newObj_cases s b with e | e
      · rw [e]; exact h
      · rw [e] at hpx
        exact absurd (hx _ hm _ hpx) (Nat.lt_irrefl _)
    rw [if_neg hpx]
    cases fails with
    | true =>
      cases hh : newCount (newObj s b).2 (newObj s b).1 true with
      | mk a b' =>
        rw [hh] at f1 f2
        simp only at f1 f2
        subst f1
        exact f2
    | false =>
      rw [e]
      simp only
      exact drop_inv _ _ (inv_exchange hi (hp ▸ hm) _)
  | destroy l =>
    obtain ⟨q, hq⟩ := Option.ne_none_iff_exists'.1 hv
    rw [step, hq]
    exact drop_inv _ _ (inv_remove h (get_some hq))

theorem reach_inv {s : St} (h : Reach s) : Inv s [] ∧ PxOk s := by
  induction h with
  | init => exact ⟨inv_init, fun p hp => by simp [St.init] at hp⟩
  | step _ hv ih => exact ⟨step_inv ih.1 ih.2 _ hv, step_px ih.2 _ hv⟩

/-! ## C30 -/

/-- A shared_ptr that exists and shares the ownership of object `o`. -/
def Owns (s : St) (p : Loc × Ptr) (o : Obj) : Prop := p ∈ s.ptrs ∧ s.objOf p.2.pn = some o

/-- C30: after any history of operations of a correct caller no deleted control block or pointer was ever accessed; every
created object was deleted at most once; it was deleted exactly when no shared_ptr owning it exists any more. -/
theorem C30_deleted_iff_unowned_partial {s : St} (h : Reach s) : s.bad = false ∧ ∀ o < s.nextO,
    s.dels o ≤ 1 ∧ (s.dels o = 0 ↔ ∃ p, Owns s p o) := by
  obtain ⟨hi, -⟩ := reach_inv h
  refine ⟨hi.ok, fun o ho => ⟨hi.del1 o, ?_, ?_⟩⟩
  · intro hd
    obtain ⟨c, hc, hco⟩ := hi.own o ho hd
    have hl : s.live c = true := by
      by_contra hh
      have := (hi.obj c o hc hco).2.2 (by simpa using hh)
      omega
    obtain ⟨e, hp⟩ := hi.cnt c hl
    simp only [List.count_nil] at e
    have : 0 < cntPtr s c := by omega
    rw [cntPtr, List.count_pos_iff, List.mem_map] at this
    obtain ⟨p, hp, he⟩ := this
    exact ⟨p, hp, by rw [he]; exact hco⟩
  · rintro ⟨p, hp, hpo⟩
    have hl := hi.pl p hp
    exact (hi.obj _ o (hi.fresh _ hl) hpo).2.1 hl

/-- C30: no pointer refers to a deleted control block, and the stored count is the number of pointers sharing it. -/
theorem C30_counts_partial {s : St} (h : Reach s) (p : Loc × Ptr) (hp : p ∈ s.ptrs) :
    s.live p.2.pn = true ∧ s.cnt p.2.pn = ((s.ptrs.map (fun q => q.2.pn)).count p.2.pn : ℕ) := by
  obtain ⟨hi, -⟩ := reach_inv h
  refine ⟨hi.pl p hp, ?_⟩
  have := (hi.cnt _ (hi.pl p hp)).1
  simpa [cntPtr] using this

/-- C30: nothing leaks: once no shared_ptr exists, every object has been deleted exactly once and every control block
has been freed. -/
theorem C30_no_leak_partial {s : St} (h : Reach s) (he : s.ptrs = []) :
    (∀ o < s.nextO, s.dels o = 1) ∧ ∀ c, s.live c = false := by
  obtain ⟨hi, -⟩ := reach_inv h
  constructor
  · intro o ho
    obtain ⟨h1, h2⟩ := (C30_deleted_iff_unowned_partial h).2 o ho
    by_contra hh
    obtain ⟨p, hp, -⟩ := h2.1 (by omega)
    rw [he] at hp
    simp at hp
  · intro c
    rw [← Bool.not_eq_true]
    intro hl
    obtain ⟨e, hp⟩ := hi.cnt c hl
    rw [cntPtr, he] at e
    simp at e
    omega

theorem drop_var : ∀ (work : List Ctrl) (s : St) (n : ℕ), s.get (.var n) ≠ none → (drop work s).get (.var n) ≠ none := by
  intro work s n
  have key : ∀ (work : List Ctrl) (s : St), (∃ p ∈ s.ptrs, p.1 = Loc.var n) → ∃ p ∈ (drop work s).ptrs, p.1 = Loc.var n := by
    intro work s
    induction work, s using drop.induct with
    | case1 s => rw [drop]; exact id
    | case2 s c rest hl ih => rw [drop, if_pos hl]; exact ih
    | case3 s c rest hl m hn o ih =>
      rw [drop, if_neg hl]
      simp only
      rw [if_pos hn]
      rintro ⟨p, hp, e⟩
      apply ih
      refine ⟨p, ?_, e⟩
      simp only [outside, List.mem_filter]
      refine ⟨hp, ?_⟩
      rw [e]; rfl
    | case4 s c rest hl m hn ih =>
      rw [drop, if_neg hl]
      simp only
      rw [if_neg hn]
      exact ih
  rw [get_ne_none_iff, get_ne_none_iff]
  exact key work s

/-- Assignments to variables are always safe, whatever they release. -/
theorem assign_var_valid {s : St} (n : ℕ) (src : Loc) (h1 : s.get (.var n) ≠ none) (h2 : s.get src ≠ none) :
    Valid s (.assign (.var n) src) := by
  obtain ⟨p, hp⟩ := Option.ne_none_iff_exists'.1 h1
  obtain ⟨r, hr⟩ := Option.ne_none_iff_exists'.1 h2
  refine ⟨p, r, hp, hr, ?_⟩
  apply drop_var
  rw [get_ne_none_iff]
  refine ⟨(.var n, ⟨r.px, r.pn⟩), ?_, rfl⟩
  rw [addRef_set]
  simp only [St.set, List.mem_map]
  refine ⟨(.var n, p), ?_, by simp⟩
  rw [addRef]
  by_cases hl : s.live r.pn = true
  · rw [if_pos hl]; exact get_some hp
  · rw [if_neg hl]; exact get_some hp

/-! ### Where the class fails -/

/-- A list node whose only owner is its own member pointer: after `p(new T); p->next = p; p.reset(); q(0)` the statement
`next = q` makes the assignment operator write to the shared_ptr that it has just destroyed. -/
def selfOwned : List Op :=
  [.construct (.var 0) false false, .copy (.field 0 0) (.var 0), .reset (.var 0) true false, .construct (.var 1) true false]

def run (ops : List Op) : St := ops.foldl step St.init

theorem drop_keep {c : Ctrl} {s : St} (h : s.live c = true) (h2 : s.cnt c - 1 ≠ 0) :
    drop [c] s = { s with cnt := Function.update s.cnt c (s.cnt c - 1) } := by
  rw [drop, if_neg (by simp [h])]
  simp only
  rw [if_neg h2, drop]

/-- The state after the first three operations of `selfOwned`. -/
theorem selfOwned_3 : run (selfOwned.take 3) =
    { run (selfOwned.take 2) with
      ptrs := [(.field 0 0, ⟨some 0, 0⟩), (.var 0, ⟨none, 1⟩)]
      cnt := Function.update (Function.update (run (selfOwned.take 2)).cnt 1 1) 0 1
      live := Function.update (run (selfOwned.take 2)).live 1 true
      objOf := Function.update (run (selfOwned.take 2)).objOf 1 none
      nextC := 2 } := by
  show step (run (selfOwned.take 2)) (.reset (.var 0) true false) = _
  set t := run (selfOwned.take 2) with ht
  have hg : t.get (.var 0) = some ⟨some 0, 0⟩ := by decide
  rw [step, hg]
  have hn : newObj t true = (none, t) := rfl
  rw [hn]
  simp only [reduceCtorEq, if_false]
  have hc : newCount t none false = (some (1, { t with
      cnt := Function.update t.cnt 1 1
      live := Function.update t.live 1 true
      objOf := Function.update t.objOf 1 none
      nextC := 2 }), t) := rfl
  rw [hc]
  simp only
  rw [drop_keep (by decide) (by decide)]
  rfl

/-- Refutation of C30 without the restriction on assignments: every state before the assignment is reached by valid
operations and both operands exist, but the assignment writes to a destroyed shared_ptr. -/
theorem C30_refuted_self_owned : Reach (run selfOwned) ∧ (run selfOwned).get (.field 0 0) ≠ none ∧
    (run selfOwned).get (.var 1) ≠ none ∧ (step (run selfOwned) (.assign (.field 0 0) (.var 1))).bad = true := by
  have r1 : Reach (step St.init (.construct (.var 0) false false)) :=
    Reach.step Reach.init ⟨by decide, trivial⟩
  have r2 : Reach (run (selfOwned.take 2)) := Reach.step (op := .copy (.field 0 0) (.var 0)) r1
    ⟨by decide, ⟨by decide, by decide⟩, by decide⟩
  have r3 : Reach (run (selfOwned.take 3)) := Reach.step (op := .reset (.var 0) true false) r2
    (by show _ ≠ none; decide)
  have e4 : run selfOwned = step (run (selfOwned.take 3)) (.construct (.var 1) true false) := rfl
  have r4 : Reach (run selfOwned) := by
    rw [e4]
    refine Reach.step r3 ⟨?_, trivial⟩
    rw [selfOwned_3]; decide
  refine ⟨r4, ?_, ?_, ?_⟩
  · rw [e4, selfOwned_3]; decide
  · rw [e4, selfOwned_3]; decide
  · have g1 : (run selfOwned).get (.field 0 0) = some ⟨some 0, 0⟩ := by rw [e4, selfOwned_3]; decide
    have g2 : (run selfOwned).get (.var 1) = some ⟨none, 2⟩ := by rw [e4, selfOwned_3]; decide
    rw [step, g1, g2]
    simp only
    have hd : (drop [0] (addRef ((run selfOwned).set (.field 0 0) ⟨none, 0⟩) 2)).get (.field 0 0) = none := by
      rw [e4, selfOwned_3]
      rw [drop, if_neg (by decide)]
      simp only
      rw [if_pos (by decide)]
      rw [show ∀ t : St, ∀ w : List Ctrl, w = [0] → t.live 0 = false → drop w t = { t with bad := true } from by
        intro t w hw ht
        subst hw
        rw [drop, if_pos ht, drop]]
      · decide
      · decide
      · decide
    rw [hd]

/-- `reset()` on an aliasing pointer whose stored address is null does nothing: it keeps sharing the ownership, and the
object is not deleted even if this was its only owner (shared_ptr.h:143 compares the stored address, not the owner). -/
theorem C30_refuted_reset_alias (s : St) (l : Loc) (c : Ctrl) (fails : Bool) (h : s.get l = some ⟨none, c⟩) :
    step s (.reset l true fails) = s := by
  rw [step, h]
  rfl

end Verif.SharedPtr
