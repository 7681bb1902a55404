import Verif.Config.ParseProps

/-! Property theorems about ConfigFile (C07, C08). -/
namespace Verif.Config
open Verif.Strings

/-! ### Section headers -/

theorem findIdx_char_some (ch : Char) (s : Str) (i : Nat) (h : s.findIdx? (· == ch) = some i) :
    ∃ k v, s = k ++ ch :: v ∧ ch ∉ k ∧ k.length = i := by
  rcases findIdx?_split (· == ch) s with ⟨h', _⟩ | ⟨j, h', hl, hall, c, r, hd, hc⟩
  · rw [h'] at h; cases h
  · rw [h'] at h; cases h
    have hc' : c = ch := by simpa using hc
    subst hc'
    refine ⟨s.take i, r, ?_, ?_, by simp; omega⟩
    · rw [← hd, List.take_append_drop]
    · intro hm; have := hall _ hm; simp at this

theorem findIdx_char_append (ch : Char) (k v : Str) (h : ch ∉ k) :
    (k ++ ch :: v).findIdx? (· == ch) = some k.length := by
  induction k with
  | nil => simp [List.findIdx?_cons]
  | cons a k ih =>
    simp only [List.mem_cons, not_or] at h
    rw [List.cons_append, List.findIdx?_cons]
    have : (a == ch) = false := by simpa using Ne.symm h.1
    rw [this, if_neg (by simp), ih h.2]
    simp

theorem firstNotBlank_append (b : Str) (c : Char) (r : Str) (hb : AllBlank b) (hc : c ∉ BL) :
    findFirstNotOf BL (b ++ c :: r) = some b.length := by
  unfold findFirstNotOf
  induction b with
  | nil =>
    have : (!BL.contains c) = true := by simpa using hc
    simp [List.findIdx?_cons, hc]
  | cons a b ih =>
    rw [List.cons_append, List.findIdx?_cons]
    have : (!BL.contains a) = false := by simpa using hb a (by simp)
    rw [this, if_neg (by simp), ih (fun x hx => hb x (by simp [hx]))]
    simp

/-- C07. A line is a section header iff its first non-blank character is `[` and a `]` follows; the
name is the text up to the first `]`, trimmed (unless it is all blank). -/
theorem C07_header (l n : Str) : headerName l = some n ↔
    ∃ b nm rest, AllBlank b ∧ l = b ++ '[' :: (nm ++ ']' :: rest) ∧ ']' ∉ nm ∧ n = rstrip (lstrip nm) := by
  constructor
  · intro h
    unfold headerName at h
    split at h
    · rename_i indx indx1 h0 h1
      split at h
      · rename_i hc
        obtain ⟨k, v, hs, hk, hkl⟩ := findIdx_char_some _ _ _ h1
        rcases findIdx?_split (fun c => !BL.contains c) l with ⟨h', _⟩ | ⟨j, h', hl, hall, c, r, hd, hcc⟩
        · unfold findFirstNotOf at h0; rw [h'] at h0; cases h0
        · unfold findFirstNotOf at h0; rw [h'] at h0; cases h0
          have hce : c = '[' := by
            have h2 := hc.1
            have : l[indx]? = (l.drop indx)[0]? := by simp
            rw [this, hd] at h2
            simpa using h2
          subst hce
          have e0 : l = l.take indx ++ '[' :: r := by rw [← hd, List.take_append_drop]
          have hdr : l.drop (indx+1) = r := by
            rw [← List.drop_drop, hd]; rfl
          rw [hdr] at h
          have hr : r = r.take (indx1 - indx - 1) ++ ']' :: v := by
            have h3 : l.drop indx1 = ']' :: v := by rw [hs, ← hkl, List.drop_left]
            have h4 : r.drop (indx1 - indx - 1) = ']' :: v := by
              rw [← h3, ← hdr, List.drop_drop]; congr 1; omega
            rw [← h4, List.take_append_drop]
          refine ⟨l.take indx, r.take (indx1 - indx - 1), v, ?_, ?_, ?_, ?_⟩
          · intro x hx
            have := hall x hx
            simpa using this
          · conv_lhs => rw [e0]
            rw [← hr]
          · intro hm
            apply hk
            have h5 : l.take indx1 = k := by rw [hs, ← hkl]; simp
            rw [← h5]
            rw [← hdr] at hm
            rw [List.take_drop] at hm
            have h6 := List.mem_of_mem_drop hm
            rwa [show indx + 1 + (indx1 - indx - 1) = indx1 by omega] at h6
          · cases h; rfl
      · cases h
    · cases h
  · rintro ⟨b, nm, rest, hb, rfl, hnm, rfl⟩
    unfold headerName
    have hbb : ']' ∉ b := fun h => absurd (hb _ h) (by decide)
    rw [firstNotBlank_append b '[' _ hb (by decide)]
    rw [show b ++ '[' :: (nm ++ ']' :: rest) = (b ++ '[' :: nm) ++ ']' :: rest by simp]
    rw [findIdx_char_append ']' (b ++ '[' :: nm) rest (by simp [hbb, hnm])]
    simp only
    rw [if_pos]
    · congr 3
      rw [show (b ++ '[' :: nm) ++ ']' :: rest = (b ++ ['[']) ++ (nm ++ ']' :: rest) by simp]
      rw [show b.length + 1 = (b ++ ['[']).length by simp, List.drop_left]
      rw [show (b ++ '[' :: nm).length - b.length - 1 = nm.length by simp, List.take_left]
    · refine ⟨?_, by simp⟩
      rw [show (b ++ '[' :: nm) ++ ']' :: rest = b ++ '[' :: (nm ++ ']' :: rest) by simp]
      simp

example : headerName " [ Potential disk ] # x]".toList = some "Potential disk".toList := by decide

/-! ### C07 -/

/-- Specification of how a file is read: the name of the section currently open (`none` before the
first one), the names of the sections in the order in which they were first opened, and the ordinary
lines with the name of the section to which they belong. -/
structure ReadSpec where
  cur : Option Str
  opened : List Str
  body : List (Str × Str)

/-- A name is opened: it is new unless it equals an earlier one up to case. -/
def openName (os : List Str) (n : Str) : List Str := if ∃ o ∈ os, lk o = lk n then os else os ++ [n]

def specLine (st : ReadSpec) (l : Str) : ReadSpec :=
  match headerName l with
  | some n => if n = [] then st else ⟨some n, openName st.opened n, st.body⟩
  | none => ⟨some (st.cur.getD []), openName st.opened (st.cur.getD []), st.body ++ [(st.cur.getD [], l)]⟩

/-- The whole file, line by line. -/
def specRead (content : Str) : ReadSpec := (getlines content).foldl specLine ⟨none, [], []⟩

/-- The ordinary lines that belong to the section `n`. -/
def ReadSpec.linesOf (sp : ReadSpec) (n : Str) : List Str :=
  (sp.body.filter (fun p => decide (lk p.1 = lk n))).map (·.2)

theorem findSecIndex_spec (secs : Sections) (name : Str) :
    (findSecIndex secs name = -1 ∧ ∀ s ∈ secs, lk s.1 ≠ lk name) ∨
    (∃ i s, findSecIndex secs name = (i : Nat) ∧ secs[i]? = some s ∧ lk s.1 = lk name) := by
  unfold findSecIndex
  have key : ∀ n ≤ secs.length,
      ((List.range n).foldl (fun acc i => match secs[i]? with
        | some s => if stringsEqual s.1 name then (i : Int) else acc
        | none => acc) (-1) = -1 ∧ ∀ s ∈ secs.take n, lk s.1 ≠ lk name) ∨
      (∃ (i : Nat) (s : Str × KV), (List.range n).foldl (fun (acc : Int) (i : Nat) => match secs[i]? with
        | some s => if stringsEqual s.1 name then (i : Int) else acc
        | none => acc) (-1 : Int) = (i : Int) ∧ secs[i]? = some s ∧ lk s.1 = lk name) := by
    intro n
    induction n with
    | zero => intro _; left; simp
    | succ n ih =>
      intro hn
      have ih := ih (by omega)
      have hs : secs[n]? = some secs[n] := List.getElem?_eq_getElem (by omega)
      rw [List.range_succ, List.foldl_append]
      simp only [List.foldl_cons, List.foldl_nil]
      rw [hs]
      simp only
      by_cases hm : stringsEqual secs[n].1 name = true
      · right
        exact ⟨n, secs[n], by rw [if_pos hm], hs, (stringsEqual_iff _ _).1 hm⟩
      · rw [if_neg hm]
        rcases ih with ⟨h1, h2⟩ | h
        · left
          refine ⟨h1, ?_⟩
          intro s hsm
          rw [List.take_add_one, hs] at hsm
          rcases List.mem_append.1 hsm with h | h
          · exact h2 s h
          · have : s = secs[n] := by simpa using h
            rw [this]
            intro he
            exact hm ((stringsEqual_iff _ _).2 he)
        · right; exact h
  have := key secs.length le_rfl
  rwa [List.take_length] at this

/-- Invariant of the reading loop. -/
structure RInv (secs : Sections) (idx : Int) (sp : ReadSpec) : Prop where
  names : listSections secs = sp.opened
  uniq : sp.opened.Pairwise (fun a b => lk a ≠ lk b)
  curNone : sp.cur = none → secs = [] ∧ sp.body = []
  curSome : ∀ c, sp.cur = some c → ∃ (i : Nat) (s : Str × KV), idx = i ∧ secs[i]? = some s ∧ lk s.1 = lk c
  items : ∀ s ∈ secs, s.2.modified = false ∧ KV.fromLines (sp.linesOf s.1) = some s.2
  bodyIn : ∀ p ∈ sp.body, ∃ n ∈ sp.opened, lk n = lk p.1

theorem addAll_append (m : KV) (a b : List Str) : addAll m (a ++ b) = (addAll m a).bind (addAll · b) := by
  induction a generalizing m with
  | nil => rfl
  | cons x a ih =>
    simp only [List.cons_append, addAll]
    cases m.add x with
    | none => rfl
    | some m' => simp only [Option.bind_some]; exact ih m'

theorem fromLines_snoc (ls : List Str) (l : Str) (m : KV) (h : KV.fromLines ls = some m) :
    KV.fromLines (ls ++ [l]) = m.add l := by
  unfold KV.fromLines at *
  rw [addAll_append, h]
  simp only [Option.bind_some, addAll]
  cases m.add l <;> rfl

theorem mem_openName (os : List Str) (n : Str) : ∃ o ∈ openName os n, lk o = lk n := by
  unfold openName
  split
  · assumption
  · exact ⟨n, by simp, rfl⟩

theorem openName_sub (os : List Str) (n : Str) : ∀ o ∈ os, o ∈ openName os n := by
  unfold openName; split <;> simp_all

theorem openName_uniq (os : List Str) (n : Str) (h : os.Pairwise (fun a b => lk a ≠ lk b)) :
    (openName os n).Pairwise (fun a b => lk a ≠ lk b) := by
  unfold openName
  split
  · exact h
  · rename_i hn
    rw [List.pairwise_append]
    refine ⟨h, by simp, ?_⟩
    intro a ha b hb he
    have : b = n := by simpa using hb
    exact hn ⟨a, ha, by rw [he, this]⟩

/-- Storing an ordinary line in the current section. -/
theorem rinv_store (secs : Sections) (sp : ReadSpec) (c l : Str) (i : Nat) (s : Str × KV)
    (h : RInv secs i ⟨some c, sp.opened, sp.body⟩) (hi : secs[i]? = some s) (hs : lk s.1 = lk c) :
    (s.2.add l = none ∧ KV.fromLines ((⟨some c, sp.opened, sp.body ++ [(c, l)]⟩ : ReadSpec).linesOf c) = none) ∨
    ∃ kv, s.2.add l = some kv ∧
      RInv (secs.set i (s.1, kv)) i ⟨some c, openName sp.opened c, sp.body ++ [(c, l)]⟩ := by
  obtain ⟨hil, hi'⟩ := List.getElem?_eq_some_iff.1 hi
  have hmem : s ∈ secs := by rw [← hi']; exact List.getElem_mem hil
  have hop : openName sp.opened c = sp.opened := by
    unfold openName
    rw [if_pos]
    refine ⟨s.1, ?_, hs⟩
    have := h.names
    simp only at this
    rw [← this]
    exact List.mem_map.2 ⟨s, hmem, rfl⟩
  have hlines : ∀ n, (⟨some c, sp.opened, sp.body ++ [(c, l)]⟩ : ReadSpec).linesOf n =
      (⟨some c, sp.opened, sp.body⟩ : ReadSpec).linesOf n ++ (if lk c = lk n then [l] else []) := by
    intro n
    unfold ReadSpec.linesOf
    simp only [List.filter_append, List.map_append]
    congr 1
    by_cases hc : lk c = lk n
    · simp [hc]
    · simp [hc]
  have hold := (h.items s hmem).2
  have hsc : (⟨some c, sp.opened, sp.body⟩ : ReadSpec).linesOf s.1 = (⟨some c, sp.opened, sp.body⟩ : ReadSpec).linesOf c := by
    unfold ReadSpec.linesOf; rw [hs]
  rw [hsc] at hold
  have hnew : KV.fromLines ((⟨some c, sp.opened, sp.body ++ [(c, l)]⟩ : ReadSpec).linesOf c) = s.2.add l := by
    rw [hlines c, if_pos rfl]
    exact fromLines_snoc _ _ _ hold
  cases hadd : s.2.add l with
  | none => left; exact ⟨rfl, by rw [hnew, hadd]⟩
  | some kv =>
    right
    refine ⟨kv, rfl, ?_⟩
    rw [hop]
    have hnames : listSections (secs.set i (s.1, kv)) = listSections secs := by
      unfold listSections
      rw [List.map_set]
      simp only
      apply List.ext_getElem?
      intro j
      rw [List.getElem?_set]
      by_cases hij : i = j
      · subst hij; rw [if_pos rfl]; simp [hil, hi']
      · rw [if_neg hij]
    refine ⟨by rw [hnames]; exact h.names, h.uniq, by simp, ?_, ?_, ?_⟩
    · intro c' hc'
      cases hc'
      exact ⟨i, (s.1, kv), rfl, by simp [hil], hs⟩
    · intro t ht
      rw [List.mem_iff_getElem?] at ht
      obtain ⟨j, hj⟩ := ht
      rw [List.getElem?_set] at hj
      by_cases hij : i = j
      · subst hij
        rw [if_pos rfl, if_pos hil] at hj
        cases hj
        simp only
        refine ⟨?_, ?_⟩
        · exact ((C04_preserved _ _ (by rw [hnew, hadd])).2).1
        · have : (⟨some c, sp.opened, sp.body ++ [(c, l)]⟩ : ReadSpec).linesOf s.1 =
            (⟨some c, sp.opened, sp.body ++ [(c, l)]⟩ : ReadSpec).linesOf c := by
            unfold ReadSpec.linesOf; rw [hs]
          rw [this, hnew, hadd]
      · rw [if_neg hij] at hj
        have hm : t ∈ secs := List.mem_iff_getElem?.2 ⟨j, hj⟩
        have hne : lk c ≠ lk t.1 := by
          rw [← hs]
          have hu := h.uniq
          rw [← h.names] at hu
          unfold listSections at hu
          rw [List.pairwise_map, List.pairwise_iff_getElem] at hu
          obtain ⟨hjl, hj'⟩ := List.getElem?_eq_some_iff.1 hj
          rcases Nat.lt_or_gt_of_ne hij with hlt | hlt
          · have := hu i j hil hjl hlt; rwa [hi', hj'] at this
          · have := hu j i hjl hil hlt; rw [hi', hj'] at this; exact Ne.symm this
        rw [hlines, if_neg hne, List.append_nil]
        exact h.items t hm
    · intro p hp
      rcases List.mem_append.1 hp with hp | hp
      · exact h.bodyIn p hp
      · have : p = (c, l) := by simpa using hp
        subst this
        refine ⟨s.1, ?_, hs⟩
        have := h.names
        simp only at this
        rw [← this]
        exact List.mem_map.2 ⟨s, hmem, rfl⟩

/-- One line: either the invariant is preserved, or the exception for a duplicate parameter is thrown,
and then some section has a duplicate. -/
theorem rinv_step (secs : Sections) (idx : Int) (sp : ReadSpec) (l : Str) (h : RInv secs idx sp) :
    (∃ secs' idx', readLine (secs, idx) l = .ok (secs', idx') ∧ RInv secs' idx' (specLine sp l)) ∨
    (readLine (secs, idx) l = .error .duplicate ∧ ∃ n, KV.fromLines ((specLine sp l).linesOf n) = none) := by
  unfold readLine specLine
  simp only
  cases hh : headerName l with
  | some n =>
    left
    simp only
    by_cases hn : n = []
    · subst hn
      simp only [List.isEmpty_nil, if_true]
      exact ⟨secs, idx, rfl, h⟩
    · have : n.isEmpty = false := by cases n with
        | nil => exact absurd rfl hn
        | cons a n => rfl
      rw [this]
      simp only [Bool.false_eq_true, if_false, hn]
      rcases findSecIndex_spec secs n with ⟨h1, h2⟩ | ⟨i, s, h1, h2, h3⟩
      · rw [h1]
        simp only [show (-1 : Int) < 0 by omega, if_true]
        refine ⟨_, _, rfl, ?_⟩
        have hop : openName sp.opened n = sp.opened ++ [n] := by
          unfold openName
          rw [if_neg]
          rintro ⟨o, ho, he⟩
          rw [← h.names] at ho
          obtain ⟨s, hs, rfl⟩ := List.mem_map.1 ho
          exact h2 s hs he
        refine ⟨?_, openName_uniq _ _ h.uniq, by simp, ?_, ?_, ?_⟩
        · simp only [hop]
          rw [← h.names]
          simp [listSections]
        · intro c hc
          cases hc
          exact ⟨secs.length, (n, KV.empty), rfl, by simp, rfl⟩
        · intro s hs
          rcases List.mem_append.1 hs with hs | hs
          · exact h.items s hs
          · have : s = (n, KV.empty) := by simpa using hs
            subst this
            refine ⟨rfl, ?_⟩
            have : sp.linesOf n = [] := by
              unfold ReadSpec.linesOf
              rw [List.map_eq_nil_iff, List.filter_eq_nil_iff]
              intro p hp
              obtain ⟨m, hm, he⟩ := h.bodyIn p hp
              rw [← h.names] at hm
              obtain ⟨s, hs, rfl⟩ := List.mem_map.1 hm
              simp only [decide_eq_true_eq]
              intro hc
              exact h2 s hs (he.trans hc)
            have e : (⟨some n, openName sp.opened n, sp.body⟩ : ReadSpec).linesOf n = sp.linesOf n := rfl
            rw [e, this]
            rfl
        · intro p hp
          obtain ⟨m, hm, he⟩ := h.bodyIn p hp
          exact ⟨m, openName_sub _ _ m hm, he⟩
      · rw [h1]
        have : ¬ ((i : Int) < 0) := by omega
        simp only [this, if_false]
        refine ⟨_, _, rfl, ?_⟩
        have hmem : s ∈ secs := List.mem_iff_getElem?.2 ⟨i, h2⟩
        have hop : openName sp.opened n = sp.opened := by
          unfold openName
          rw [if_pos]
          exact ⟨s.1, by rw [← h.names]; exact List.mem_map.2 ⟨s, hmem, rfl⟩, h3⟩
        rw [hop]
        refine ⟨h.names, h.uniq, by simp, ?_, h.items, h.bodyIn⟩
        intro c hc
        cases hc
        exact ⟨i, s, rfl, h2, h3⟩
  | none =>
    simp only
    cases hcur : sp.cur with
    | none =>
      obtain ⟨hs0, hb0⟩ := h.curNone hcur
      subst hs0
      have hop0 : sp.opened = [] := by rw [← h.names]; rfl
      simp only [List.isEmpty_nil, if_true, Option.getD_none]
      have h' : RInv [([], KV.empty)] ((0 : Nat) : Int) ⟨some [], [[]], []⟩ := by
        refine ⟨rfl, by simp, by simp, ?_, ?_, by simp⟩
        · intro c hc; cases hc; exact ⟨0, ([], KV.empty), rfl, rfl, rfl⟩
        · intro s hs
          have : s = ([], KV.empty) := by simpa using hs
          subst this
          exact ⟨rfl, rfl⟩
      have := rinv_store [([], KV.empty)] ⟨some [], [[]], []⟩ [] l 0 ([], KV.empty) h' rfl rfl
      have hat : atInt [([], KV.empty)] 0 = some (([], KV.empty) : Str × KV) := rfl
      rw [hat, hop0, hb0]
      have e1 : openName [] [] = [[]] := by unfold openName; rw [if_neg]; rfl; simp
      have e2 : openName [[]] [] = [[]] := by unfold openName; rw [if_pos]; simp
      rw [e1]
      rw [e2] at this
      rcases this with ⟨h1, h2⟩ | ⟨kv, h1, h2⟩
      · right
        simp only [h1]
        exact ⟨trivial, [], h2⟩
      · left
        simp only [h1]
        exact ⟨_, _, rfl, h2⟩
    | some c =>
      obtain ⟨i, s, hi, hs, hc⟩ := h.curSome c hcur
      have hne : secs.isEmpty = false := by
        cases secs with
        | nil => simp at hs
        | cons a b => rfl
      simp only [hne, Bool.false_eq_true, if_false, Option.getD_some]
      subst hi
      have hat : atInt secs (i : Int) = some s := by
        unfold atInt
        rw [if_pos (by omega)]
        simpa using hs
      rw [hat]
      simp only
      have h' : RInv secs (i : Int) ⟨some c, sp.opened, sp.body⟩ :=
        ⟨h.names, h.uniq, by simp, by intro c' hc'; cases hc'; exact ⟨i, s, rfl, hs, hc⟩, h.items, h.bodyIn⟩
      rcases rinv_store secs sp c l i s h' hs hc with ⟨h1, h2⟩ | ⟨kv, h1, h2⟩
      · right
        simp only [h1]
        exact ⟨trivial, c, h2⟩
      · left
        simp only [h1]
        exact ⟨_, _, rfl, by simpa using h2⟩

theorem body_mono (sp : ReadSpec) (ls : List Str) (n : Str) :
    ∃ r, (ls.foldl specLine sp).linesOf n = sp.linesOf n ++ r := by
  induction ls generalizing sp with
  | nil => exact ⟨[], by simp⟩
  | cons l ls ih =>
    obtain ⟨r, hr⟩ := ih (specLine sp l)
    have : ∃ r', (specLine sp l).linesOf n = sp.linesOf n ++ r' := by
      unfold specLine
      split
      · split
        · exact ⟨[], by simp⟩
        · exact ⟨[], by simp [ReadSpec.linesOf]⟩
      · unfold ReadSpec.linesOf
        simp only [List.filter_append, List.map_append]
        exact ⟨_, rfl⟩
    obtain ⟨r', hr'⟩ := this
    exact ⟨r' ++ r, by rw [List.foldl_cons, hr, hr', List.append_assoc]⟩

theorem rinv_run (ls : List Str) (secs : Sections) (idx : Int) (sp : ReadSpec) (h : RInv secs idx sp) :
    (∃ secs' idx', readLines (secs, idx) ls = .ok (secs', idx') ∧ RInv secs' idx' (ls.foldl specLine sp)) ∨
    (readLines (secs, idx) ls = .error .duplicate ∧ ∃ n, KV.fromLines ((ls.foldl specLine sp).linesOf n) = none) := by
  induction ls generalizing secs idx sp with
  | nil => left; exact ⟨secs, idx, rfl, h⟩
  | cons l ls ih =>
    unfold readLines
    rcases rinv_step secs idx sp l h with ⟨s', i', h1, h2⟩ | ⟨h1, n, h2⟩
    · rw [h1]
      exact ih s' i' _ h2
    · right
      rw [h1]
      refine ⟨rfl, n, ?_⟩
      obtain ⟨r, hr⟩ := body_mono (specLine sp l) ls n
      rw [List.foldl_cons, hr]
      unfold KV.fromLines at *
      rw [addAll_append, h2]; rfl

theorem rinv_init : RInv [] (-1) ⟨none, [], []⟩ :=
  ⟨rfl, List.Pairwise.nil, fun _ => ⟨rfl, rfl⟩, by simp, by simp, by simp⟩

/-- C07. Reading any file never accesses a section outside the list: the only possible failure is the
exception for a duplicate parameter, raised iff the lines belonging to some section contain one. -/
theorem C07_memory_safe (content : Str) :
    readFile content ≠ .error .badIndex ∧
    (readFile content = .error .duplicate ↔ ∃ n, HasDuplicate ((specRead content).linesOf n)) := by
  unfold readFile specRead
  rcases rinv_run (getlines content) [] (-1) _ rinv_init with ⟨secs, idx, h1, h2⟩ | ⟨h1, n, h2⟩
  · rw [h1]
    refine ⟨by simp [Except.map], by simp [Except.map], ?_⟩
    rintro ⟨n, hn⟩
    exfalso
    rw [← C04_duplicates_rejected] at hn
    by_cases hex : ∃ m ∈ ((getlines content).foldl specLine ⟨none, [], []⟩).opened, lk m = lk n
    · obtain ⟨m, hm, he⟩ := hex
      rw [← h2.names] at hm
      obtain ⟨s, hs, rfl⟩ := List.mem_map.1 hm
      have h3 := (h2.items s hs).2
      have : ((getlines content).foldl specLine ⟨none, [], []⟩).linesOf s.1 =
          ((getlines content).foldl specLine ⟨none, [], []⟩).linesOf n := by
        unfold ReadSpec.linesOf; rw [he]
      rw [this, hn] at h3
      cases h3
    · have : ((getlines content).foldl specLine ⟨none, [], []⟩).linesOf n = [] := by
        unfold ReadSpec.linesOf
        rw [List.map_eq_nil_iff, List.filter_eq_nil_iff]
        intro p hp
        obtain ⟨m, hm, he⟩ := h2.bodyIn p hp
        simp only [decide_eq_true_eq]
        intro hc
        exact hex ⟨m, hm, he.trans hc⟩
      rw [this] at hn
      cases hn
  · rw [h1]
    refine ⟨by simp [Except.map], fun _ => ⟨n, (C04_duplicates_rejected _).1 h2⟩, fun _ => rfl⟩

/-- C07. When reading succeeds: the sections are listed in the order in which their names were first
opened; no two names are equal up to case; every ordinary line is an entry, in order, of the section
that was open at that point and of no other; nothing is flagged as modified. -/
theorem C07_sections (content : Str) (secs : Sections) (h : readFile content = .ok secs) :
    listSections secs = (specRead content).opened ∧
    (listSections secs).Pairwise (fun a b => stringsEqual a b = false) ∧
    (∀ s ∈ secs, s.2.items = ((specRead content).linesOf s.1).map (fun l => entry (parseLine l))) ∧
    (∀ p ∈ (specRead content).body, ∃ s ∈ secs, stringsEqual s.1 p.1 = true) ∧
    (∀ s ∈ secs, s.2.modified = false) := by
  unfold readFile at h
  rcases rinv_run (getlines content) [] (-1) _ rinv_init with ⟨secs', idx, h1, h2⟩ | ⟨h1, n, h2⟩
  · rw [h1] at h
    simp only [Except.map, Except.ok.injEq] at h
    subst h
    refine ⟨h2.names, ?_, ?_, ?_, fun s hs => (h2.items s hs).1⟩
    · rw [h2.names]
      refine h2.uniq.imp ?_
      intro a b hab
      rw [Bool.eq_false_iff, ne_eq, stringsEqual_iff]
      exact hab
    · intro s hs
      exact (C04_preserved _ _ (h2.items s hs).2).1
    · intro p hp
      obtain ⟨m, hm, he⟩ := h2.bodyIn p hp
      rw [← h2.names] at hm
      obtain ⟨s, hs, rfl⟩ := List.mem_map.1 hm
      exact ⟨s, hs, (stringsEqual_iff _ _).2 he⟩
  · rw [h1] at h
    cases h

example : readFile "a=1\n[X]\nb=2\n[y]\n[x]\nc=3\n".toList =
    .ok [([], ⟨[("a".toList, "1".toList)], false⟩),
      ("X".toList, ⟨[("b".toList, "2".toList), ("c".toList, "3".toList)], false⟩),
      ("y".toList, ⟨[], false⟩)] := by decide +kernel

example : readFile "a=1\nA=2".toList = .error .duplicate := by decide +kernel

/-- C07. The lines seen by the reader are the lines of the file: text terminated by newlines, plus a last line without
newline if there is one. -/
theorem C07_lines (ls : List Str) (last : Str) (h : ∀ l ∈ ls, '\n' ∉ l) (hl : '\n' ∉ last) :
    getlines (ls.flatMap (fun l => l ++ ['\n']) ++ last) = ls ++ (if last = [] then [] else [last]) := by
  have one : ∀ (l cur rest : Str), '\n' ∉ l → getlinesAux cur (l ++ '\n' :: rest) = (cur ++ l) :: getlinesAux [] rest := by
    intro l
    induction l with
    | nil => intro cur rest _; simp [getlinesAux]
    | cons c l ih =>
      intro cur rest h
      simp only [List.mem_cons, not_or] at h
      rw [List.cons_append, getlinesAux, if_neg (Ne.symm h.1), ih _ _ h.2]
      simp
  have fin : ∀ (l cur : Str), '\n' ∉ l → getlinesAux cur l = if cur ++ l = [] then [] else [cur ++ l] := by
    intro l
    induction l with
    | nil => intro cur _; cases cur <;> simp [getlinesAux]
    | cons c l ih =>
      intro cur h
      simp only [List.mem_cons, not_or] at h
      rw [getlinesAux, if_neg (Ne.symm h.1), ih _ h.2]
      simp
  unfold getlines
  induction ls with
  | nil => simpa using fin last [] hl
  | cons l ls ih =>
    rw [List.flatMap_cons, List.append_assoc, List.append_assoc, List.singleton_append, one l [] _ (h l (by simp)),
      ih (fun x hx => h x (by simp [hx]))]
    simp

example : getlines "[a]\nx=1\n\ny=2".toList = ["[a]".toList, "x=1".toList, [], "y=2".toList] := by decide

end Verif.Config
