import Verif.Config.FileProps

/-! Property theorems about saving a ConfigFile and reading it back (C08). -/
namespace Verif.Config
open Verif.Strings

/-- A section name that survives a round trip: it fits between brackets on one line, not surrounded
by blanks (unless it is blank altogether). -/
structure GoodName (n : Str) : Prop where
  noBracket : ']' ∉ n
  noEol : '\n' ∉ n
  trimmed : AllBlank n ∨ (HeadOK n ∧ LastOK n)

/-- A dumped line that is a single line of the file and is not mistaken for a section header. -/
def GoodLine (l : Str) : Prop := '\n' ∉ l ∧ headerName l = none

/-- Invariant of the sections of a ConfigFile. -/
structure FInv (secs : Sections) : Prop where
  uniq : secs.Pairwise (fun a b => lk a.1 ≠ lk b.1)
  names : ∀ s ∈ secs, GoodName s.1
  unnamed : ∀ i s, secs[i]? = some s → s.1 = [] → i = 0
  keys : ∀ s ∈ secs, Uniq s.2.items
  good : ∀ s ∈ secs, ∀ it ∈ s.2.items, GoodItem it ∧ GoodLine (dumpItem it)

/-! #### lines of the file -/

def joinLines (ls : List Str) : Str := ls.flatMap (fun l => l ++ ['\n'])

theorem getlinesAux_line (cur l rest : Str) (h : '\n' ∉ l) :
    getlinesAux cur (l ++ '\n' :: rest) = (cur ++ l) :: getlinesAux [] rest := by
  induction l generalizing cur with
  | nil => simp [getlinesAux]
  | cons c l ih =>
    simp only [List.mem_cons, not_or] at h
    rw [List.cons_append, getlinesAux, if_neg (Ne.symm h.1), ih _ h.2]
    simp

theorem getlines_join (ls : List Str) (h : ∀ l ∈ ls, '\n' ∉ l) : getlines (joinLines ls) = ls := by
  unfold getlines
  induction ls with
  | nil => rfl
  | cons l ls ih =>
    have : joinLines (l :: ls) = l ++ '\n' :: joinLines ls := by simp [joinLines]
    rw [this, getlinesAux_line [] l _ (h l (by simp)), ih (fun x hx => h x (by simp [hx]))]
    simp

theorem getlinesAux_noEol (cur s : Str) (hc : '\n' ∉ cur) : ∀ l ∈ getlinesAux cur s, '\n' ∉ l := by
  induction s generalizing cur with
  | nil =>
    intro l hl
    unfold getlinesAux at hl
    split at hl
    · simp at hl
    · have : l = cur := by simpa using hl
      rw [this]; exact hc
  | cons c s ih =>
    intro l hl
    unfold getlinesAux at hl
    split at hl
    · rcases List.mem_cons.1 hl with rfl | hl
      · exact hc
      · exact ih [] (by simp) l hl
    · rename_i hne
      exact ih (cur ++ [c]) (by simp [hc, Ne.symm hne]) l hl

/-- the lines written for one section -/
def secLines (isLast : Bool) (s : Str × KV) : List Str :=
  match s.2.dumpLines.getLast? with
  | none => []
  | some last => (if s.1.isEmpty then [] else ['[' :: s.1 ++ [']']]) ++ s.2.dumpLines ++
      (if !last.isEmpty && !isLast then [[]] else [])

def fileLines : Sections → List Str
  | [] => []
  | [s] => secLines true s
  | s :: t :: rest => secLines false s ++ fileLines (t :: rest)

theorem joinLines_append (a b : List Str) : joinLines (a ++ b) = joinLines a ++ joinLines b := by
  simp [joinLines]

theorem writeSection_eq (b : Bool) (s : Str × KV) : writeSection b s = joinLines (secLines b s) := by
  unfold writeSection secLines
  simp only
  cases s.2.dumpLines.getLast? with
  | none => rfl
  | some last =>
    simp only
    rw [joinLines_append, joinLines_append]
    congr 1
    · congr 1
      split
      · rfl
      · simp [joinLines]
    · split <;> rfl

theorem writeSections_eq (secs : Sections) : writeSections secs = joinLines (fileLines secs) := by
  induction secs with
  | nil => rfl
  | cons s rest ih =>
    cases rest with
    | nil => exact writeSection_eq true s
    | cons t rest =>
      unfold writeSections fileLines
      rw [ih, writeSection_eq, joinLines_append]

/-! #### what is read back -/

/-- The section as it is after saving and reloading: an empty section disappears, and a blank line is
appended to a section that is not the last one and does not end with a blank line. -/
def reload1 (isLast : Bool) (s : Str × KV) : Sections :=
  match s.2.dumpLines.getLast? with
  | none => []
  | some last => [(s.1, ⟨s.2.items ++ (if !last.isEmpty && !isLast then [([], [])] else []), false⟩)]

def reload : Sections → Sections
  | [] => []
  | [s] => reload1 true s
  | s :: t :: rest => reload1 false s ++ reload (t :: rest)

theorem readLines_append (st : Sections × Int) (a b : List Str) (st' : Sections × Int)
    (h : readLines st a = .ok st') : readLines st (a ++ b) = readLines st' b := by
  induction a generalizing st with
  | nil => simp only [readLines, Except.ok.injEq] at h; rw [h]; rfl
  | cons x a ih =>
    simp only [List.cons_append]
    rw [readLines] at h ⊢
    cases hr : readLine st x with
    | error e => rw [hr] at h; cases h
    | ok st1 => rw [hr] at h; exact ih st1 h

theorem readLines_body (pre : Sections) (n : Str) (kv kv' : KV) (ls : List Str)
    (hl : ∀ l ∈ ls, headerName l = none) (ha : addAll kv ls = some kv') :
    readLines (pre ++ [(n, kv)], (pre.length : Int)) ls = .ok (pre ++ [(n, kv')], (pre.length : Int)) := by
  induction ls generalizing kv with
  | nil => simp only [addAll, Option.some.injEq] at ha; rw [ha]; rfl
  | cons l ls ih =>
    unfold addAll at ha
    cases hadd : kv.add l with
    | none => rw [hadd] at ha; cases ha
    | some kv1 =>
      rw [hadd] at ha
      unfold readLines
      have : readLine (pre ++ [(n, kv)], (pre.length : Int)) l =
          .ok (pre ++ [(n, kv1)], (pre.length : Int)) := by
        unfold readLine
        simp only [hl l (by simp)]
        have hne : (pre ++ [(n, kv)]).isEmpty = false := by cases pre <;> rfl
        simp only [hne, Bool.false_eq_true, if_false]
        have hat : atInt (pre ++ [(n, kv)]) (pre.length : Int) = some (n, kv) := by
          unfold atInt; rw [if_pos (by omega)]; simp
        rw [hat]
        simp only [hadd]
        congr 2
        simp
      rw [this]
      exact ih kv1 (fun x hx => hl x (by simp [hx])) ha

theorem header_line (n : Str) (hn : GoodName n) : headerName ('[' :: n ++ [']']) = some n := by
  rw [C07_header]
  refine ⟨[], n, [], by simp [AllBlank], by simp, hn.noBracket, ?_⟩
  rw [lstrip_id n (hn.trimmed.imp id And.left), rstrip_id n (hn.trimmed.imp id And.right)]

theorem readLine_header (pre : Sections) (idx : Int) (n : Str) (hn : GoodName n) (hne : n ≠ [])
    (hnew : ∀ s ∈ pre, lk s.1 ≠ lk n) :
    readLine (pre, idx) ('[' :: n ++ [']']) = .ok (pre ++ [(n, KV.empty)], (pre.length : Int)) := by
  unfold readLine
  simp only [header_line n hn]
  have : n.isEmpty = false := by cases n with
    | nil => exact absurd rfl hne
    | cons a b => rfl
  rw [this]
  simp only [Bool.false_eq_true, if_false]
  rcases findSecIndex_spec pre n with ⟨h, _⟩ | ⟨i, s, _, h2, h3⟩
  · rw [h]; rfl
  · exact absurd h3 (hnew s (List.mem_iff_getElem?.2 ⟨i, h2⟩))

theorem dump_blank_add (kv : KV) : kv.add [] = some { kv with items := kv.items ++ [([], [])] } := rfl

theorem headerName_nil : headerName [] = none := rfl

theorem addAll_dump (m : KV) (hu : Uniq m.items) (hg : ∀ it ∈ m.items, GoodItem it) (b : Bool) :
    addAll KV.empty (m.dumpLines ++ (if b then [[]] else [])) =
      some ⟨m.items ++ (if b then [([], [])] else []), false⟩ := by
  rw [addAll_append]
  have := fromLines_dump m hu hg
  unfold KV.fromLines at this
  rw [this]
  cases b
  · simp [addAll]
  · simp [addAll, dump_blank_add]

theorem read_secLines (pre : Sections) (idx : Int) (b : Bool) (s : Str × KV) (hn : GoodName s.1)
    (hnew : ∀ t ∈ pre, lk t.1 ≠ lk s.1) (hun : s.1 = [] → pre = []) (hk : Uniq s.2.items)
    (hg : ∀ it ∈ s.2.items, GoodItem it ∧ GoodLine (dumpItem it)) :
    ∃ idx', readLines (pre, idx) (secLines b s) = .ok (pre ++ reload1 b s, idx') := by
  unfold secLines reload1
  cases hlast : s.2.dumpLines.getLast? with
  | none => exact ⟨idx, by simp [readLines]⟩
  | some last =>
    simp only
    have hadd := addAll_dump s.2 hk (fun it hit => (hg it hit).1) (!last.isEmpty && !b)
    have hhead : ∀ l ∈ s.2.dumpLines ++ (if (!last.isEmpty && !b) = true then [[]] else []), headerName l = none := by
      intro l hl
      rcases List.mem_append.1 hl with hl | hl
      · obtain ⟨it, hit, rfl⟩ := List.mem_map.1 hl
        exact (hg it hit).2.2
      · split at hl
        · have : l = [] := by simpa using hl
          rw [this]; exact headerName_nil
        · simp at hl
    by_cases he : s.1 = []
    · have hp := hun he
      subst hp
      have : s.1.isEmpty = true := by rw [he]; rfl
      rw [this, he]
      simp only [if_true, List.nil_append]
      generalize hL : s.2.dumpLines ++ (if (!last.isEmpty && !b) = true then [[]] else []) = L at *
      generalize hK : (⟨s.2.items ++ (if (!last.isEmpty && !b) = true then [([], [])] else []), false⟩ : KV) = K at *
      cases L with
      | nil =>
        exfalso
        rw [List.append_eq_nil_iff] at hL
        rw [hL.1] at hlast
        cases hlast
      | cons l L =>
        refine ⟨0, ?_⟩
        have h1 : readLines ([], idx) (l :: L) = readLines ([([], KV.empty)], 0) (l :: L) := by
          unfold readLines readLine
          simp only [hhead l (by simp)]
          rfl
        rw [h1]
        exact readLines_body [] [] KV.empty K (l :: L) hhead hadd
    · have : s.1.isEmpty = false := by
        cases hs : s.1 with
        | nil => exact absurd hs he
        | cons a b => rfl
      rw [this]
      simp only [Bool.false_eq_true, if_false]
      refine ⟨(pre.length : Int), ?_⟩
      rw [List.append_assoc]
      rw [readLines_append (pre, idx) ['[' :: s.1 ++ [']']] _ (pre ++ [(s.1, KV.empty)], (pre.length : Int))]
      · exact readLines_body pre s.1 KV.empty _ _ hhead hadd
      · unfold readLines
        rw [readLine_header pre idx s.1 hn he hnew]
        rfl

theorem reload1_names (b : Bool) (s : Str × KV) : ∀ t ∈ reload1 b s, t.1 = s.1 := by
  intro t ht
  unfold reload1 at ht
  split at ht
  · simp at ht
  · rw [List.mem_singleton] at ht
    rw [ht]

theorem read_fileLines (secs : Sections) (pre : Sections) (idx : Int)
    (hu : secs.Pairwise (fun a b => lk a.1 ≠ lk b.1)) (hn : ∀ s ∈ secs, GoodName s.1)
    (hnew : ∀ t ∈ pre, ∀ s ∈ secs, lk t.1 ≠ lk s.1)
    (hun : ∀ i s, secs[i]? = some s → s.1 = [] → i = 0 ∧ pre = [])
    (hk : ∀ s ∈ secs, Uniq s.2.items)
    (hg : ∀ s ∈ secs, ∀ it ∈ s.2.items, GoodItem it ∧ GoodLine (dumpItem it)) :
    ∃ idx', readLines (pre, idx) (fileLines secs) = .ok (pre ++ reload secs, idx') := by
  induction secs generalizing pre idx with
  | nil => exact ⟨idx, by simp [fileLines, readLines, reload]⟩
  | cons s rest ih =>
    rw [List.pairwise_cons] at hu
    have h1 : ∀ b, ∃ idx', readLines (pre, idx) (secLines b s) = .ok (pre ++ reload1 b s, idx') := fun b =>
      read_secLines pre idx b s (hn s (by simp)) (fun t ht => hnew t ht s (by simp))
        (fun h => (hun 0 s rfl h).2) (hk s (by simp)) (hg s (by simp))
    cases rest with
    | nil => exact h1 true
    | cons t rest =>
      obtain ⟨i1, h2⟩ := h1 false
      unfold fileLines reload
      rw [readLines_append _ _ _ _ h2]
      obtain ⟨i2, h3⟩ := ih (pre ++ reload1 false s) i1 hu.2 (fun x hx => hn x (by simp [hx])) (by
          intro x hx y hy
          rcases List.mem_append.1 hx with hx | hx
          · exact hnew x hx y (by simp [hy])
          · rw [reload1_names _ _ x hx]; exact hu.1 y hy) (by
          intro i x hi he
          have := (hun (i+1) x (by simpa using hi) he).1
          omega) (fun x hx => hk x (by simp [hx])) (fun x hx => hg x (by simp [hx]))
      exact ⟨i2, by rw [h3, List.append_assoc]⟩

theorem mem_secLines (b : Bool) (s : Str × KV) (l : Str) (h : l ∈ secLines b s) :
    l = [] ∨ l = '[' :: s.1 ++ [']'] ∨ ∃ it ∈ s.2.items, l = dumpItem it := by
  unfold secLines at h
  split at h
  · simp at h
  · rcases List.mem_append.1 h with h | h
    · rcases List.mem_append.1 h with h | h
      · split at h
        · simp at h
        · right; left; simpa using h
      · right; right
        obtain ⟨it, hit, rfl⟩ := List.mem_map.1 h
        exact ⟨it, hit, rfl⟩
    · split at h
      · left; simpa using h
      · simp at h

theorem mem_fileLines (secs : Sections) (l : Str) (h : l ∈ fileLines secs) :
    ∃ s ∈ secs, ∃ b, l ∈ secLines b s := by
  induction secs with
  | nil => simp [fileLines] at h
  | cons s rest ih =>
    cases rest with
    | nil => exact ⟨s, by simp, true, h⟩
    | cons t rest =>
      unfold fileLines at h
      rcases List.mem_append.1 h with h | h
      · exact ⟨s, by simp, false, h⟩
      · obtain ⟨x, hx, b, hb⟩ := ih h
        exact ⟨x, by simp [hx], b, hb⟩

theorem read_write (secs : Sections) (h : FInv secs) : readFile (writeSections secs) = .ok (reload secs) := by
  unfold readFile
  rw [writeSections_eq, getlines_join]
  · obtain ⟨i, hi⟩ := read_fileLines secs [] (-1) h.uniq h.names (by simp)
      (fun i s hi hs => ⟨h.unnamed i s hi hs, rfl⟩) h.keys h.good
    rw [hi]
    simp [Except.map]
  · intro l hl
    obtain ⟨s, hs, b, hb⟩ := mem_fileLines secs l hl
    rcases mem_secLines b s l hb with rfl | rfl | ⟨it, hit, rfl⟩
    · simp
    · have := (h.names s hs).noEol
      simp [this]
    · exact (h.good s hs it hit).2.1

/-! ### Reachable states of a ConfigFile -/

/-- Replace the `i`-th section's map. -/
def updSec (secs : Sections) (i : Nat) (f : KV → KV) : Sections :=
  match secs[i]? with
  | some s => secs.set i (s.1, f s.2)
  | none => secs

/-- The states of a ConfigFile a program can produce: starting from a new (non-existing) file or from
a file with any content; `findSection` creating named sections (the nameless one only in an empty file),
`set` of keys and values that fit on a line, and `unset`. -/
inductive FReach : Sections → Prop
  | new : FReach []
  | read (content : Str) (secs : Sections) (h : readFile content = .ok secs) : FReach secs
  | find (secs : Sections) (n : Str) (h : FReach secs) (hn : GoodName n) (h0 : n = [] → secs = []) :
      FReach (findSection secs n).1
  | set (secs : Sections) (i : Nat) (k v : Str) (h : FReach secs) (hk : GoodKey k) (hv : GoodValue v)
      (hkn : '\n' ∉ k) (hvn : '\n' ∉ v) (hl : k.head? ≠ some '[') : FReach (updSec secs i (·.set k v))
  | unset (secs : Sections) (i : Nat) (k : Str) (h : FReach secs) : FReach (updSec secs i (fun m => (m.unset k).1))

/-- a line is not a header if it does not begin with `[` or has no `]`. -/
theorem headerName_none_iff (l : Str) :
    headerName l = none ↔ ¬ ((lstrip l).head? = some '[' ∧ ']' ∈ l) := by
  constructor
  · rintro h ⟨h1, h2⟩
    have h3 : ∃ b r, AllBlank b ∧ l = b ++ '[' :: r := by
      rcases lstrip_spec l with ⟨ha, he⟩ | ⟨⟨c, r, hc, _⟩, b, hb, he⟩
      · rw [he] at h1
        cases l with
        | nil => simp at h1
        | cons x l =>
          simp only [List.head?_cons, Option.some.injEq] at h1
          exact absurd (ha x (by simp)) (by rw [h1]; decide)
      · rw [hc] at h1 he
        simp only [List.head?_cons, Option.some.injEq] at h1
        exact ⟨b, r, hb, by rw [← h1]; exact he⟩
    obtain ⟨b, r, hb, he⟩ := h3
    have hr : ']' ∈ r := by
      rw [he] at h2
      rcases List.mem_append.1 h2 with h2 | h2
      · exact absurd (hb _ h2) (by decide)
      · simpa using h2
    cases hf : r.findIdx? (· == ']') with
    | none =>
      rw [List.findIdx?_eq_none_iff] at hf
      have := hf _ hr
      simp at this
    | some i =>
      obtain ⟨nm, rest, hs, hnm, _⟩ := findIdx_char_some _ _ _ hf
      have : headerName l = some (rstrip (lstrip nm)) :=
        (C07_header l _).2 ⟨b, nm, rest, hb, by rw [he, hs], hnm, rfl⟩
      rw [h] at this
      cases this
  · intro h
    cases hh : headerName l with
    | none => rfl
    | some n =>
      obtain ⟨b, nm, rest, hb, he, _, _⟩ := (C07_header l n).1 hh
      exfalso
      apply h
      rw [he]
      rw [lstrip_append b _ hb ⟨'[', _, rfl, by decide⟩]
      simp

theorem parse_shape (l : Str) :
    (∀ k v, parseLine l = .pair k v → ∃ x y, lstrip (cstr l) = x ++ '=' :: y ∧ k = rstrip x ∧ v = rstrip (lstrip y)) ∧
    (∀ t, parseLine l = .comment t → ∃ r, lstrip (cstr l) = t ++ r) := by
  have hcom : ∀ b t, commentOf b = .comment t → ∃ r, b = t ++ r := by
    intro b t h
    unfold commentOf at h
    simp only [Line.comment.injEq] at h
    split at h
    · exact ⟨[], by rw [h]; simp⟩
    · rename_i i _
      exact ⟨b.drop i, by rw [← h, List.take_append_drop]⟩
  unfold parseLine
  simp only
  generalize lstrip (cstr l) = b
  split
  · rename_i indx c r h1
    obtain ⟨x, y, hs, _, hkl⟩ := findIdx_eq_some _ _ h1
    split
    · refine ⟨?_, by simp⟩
      intro k v h
      simp only [Line.pair.injEq] at h
      refine ⟨x, y, hs, ?_, ?_⟩
      · rw [← h.1, hs, ← hkl]; simp
      · rw [← h.2, hs, ← hkl]
        congr 2
        rw [← List.drop_drop, List.drop_left]; rfl
    · exact ⟨by simp [commentOf], fun t h => hcom _ t h⟩
  · exact ⟨by simp [commentOf], fun t h => hcom _ t h⟩

theorem goodLine_parse (l : Str) (h : GoodLine l) : GoodLine (dumpItem (entry (parseLine l))) := by
  obtain ⟨hn, hh⟩ := h
  rw [headerName_none_iff] at hh
  have hB : ∀ c ∈ lstrip (cstr l), c ∈ l := fun c hc => List.takeWhile_subset _ (lstrip_sub _ c hc)
  have hBh : (lstrip (cstr l)).head? = some '[' → (lstrip l).head? = some '[' := by
    intro h
    rcases lstrip_spec (cstr l) with ⟨ha, he⟩ | ⟨⟨c, r, hc, hcb⟩, b, hb, he⟩
    · rw [he] at h
      cases hl : cstr l with
      | nil => rw [hl] at h; simp at h
      | cons x y =>
        rw [hl] at h ha
        simp only [List.head?_cons, Option.some.injEq] at h
        exact absurd (ha x (by simp)) (by rw [h]; decide)
    · have hl : l = b ++ (lstrip (cstr l) ++ l.dropWhile (· ≠ '\x00')) := by
        rw [← List.append_assoc, ← he]
        exact (List.takeWhile_append_dropWhile (p := (· ≠ '\x00')) (l := l)).symm
      rw [hl, lstrip_append b _ hb ⟨c, r ++ l.dropWhile (· ≠ '\x00'), by rw [hc]; rfl, hcb⟩]
      rw [hc] at h ⊢
      simpa using h
  have hgood := goodItem_entry l
  have key : (∀ c ∈ dumpItem (entry (parseLine l)), c ∈ lstrip (cstr l)) ∧
      ((dumpItem (entry (parseLine l))).head? = some '[' → (lstrip (cstr l)).head? = some '[') ∧
      lstrip (dumpItem (entry (parseLine l))) = dumpItem (entry (parseLine l)) := by
    cases hp : parseLine l with
    | comment t =>
      obtain ⟨r, hr⟩ := (parse_shape l).2 t hp
      have e : dumpItem (entry (.comment t)) = t := rfl
      rw [e, hr]
      refine ⟨fun c hc => by simp [hc], ?_, ?_⟩
      · intro h
        cases t with
        | nil => simp at h
        | cons a t => simpa using h
      · rw [hp] at hgood
        rcases hgood with hgd | hgd
        · exact lstrip_id _ hgd.2.trimmed
        · exact absurd rfl (goodKey_ne _ hgd.1)
    | pair k v =>
      obtain ⟨x, y, hr, hk, hv⟩ := (parse_shape l).1 k v hp
      have hne := parse_key_ne l k v hp
      have e : dumpItem (entry (.pair k v)) = k ++ '=' :: v := by
        unfold dumpItem entry
        cases k with
        | nil => exact absurd rfl hne
        | cons a k => rfl
      rw [e, hr]
      refine ⟨?_, ?_, ?_⟩
      · intro c hc
        rcases List.mem_append.1 hc with hc | hc
        · rw [hk] at hc; simp [rstrip_sub _ _ hc]
        · rcases List.mem_cons.1 hc with rfl | hc
          · simp
          · rw [hv] at hc; simp [lstrip_sub _ _ (rstrip_sub _ _ hc)]
      · have hx : ∃ b, x = k ++ b := by
          rcases rstrip_spec x with ⟨_, h⟩ | ⟨_, b, _, h⟩
          · exact ⟨[], by rw [hk, h]; simp⟩
          · exact ⟨b, by rw [hk]; exact h⟩
        obtain ⟨b, hx⟩ := hx
        rw [hx]
        cases k with
        | nil => exact absurd rfl hne
        | cons a k => intro h; simpa using h
      · rw [hp] at hgood
        rcases hgood with hgd | hgd
        · exact absurd hgd.1 hne
        · obtain ⟨c, r, hc, hcb⟩ := hgd.1.head
          simp only [entry] at hc
          exact lstrip_id _ (Or.inr ⟨c, r ++ '=' :: v, by rw [hc]; rfl, hcb⟩)
  obtain ⟨k1, k2, k3⟩ := key
  refine ⟨fun hc => hn (hB _ (k1 _ hc)), (headerName_none_iff _).2 ?_⟩
  rintro ⟨h1, h2⟩
  rw [k3] at h1
  exact hh ⟨hBh (k2 h1), hB _ (k1 _ h2)⟩

theorem body_goodLine (ls : List Str) (sp : ReadSpec) (h : ∀ l ∈ ls, '\n' ∉ l)
    (hb : ∀ p ∈ sp.body, GoodLine p.2) : ∀ p ∈ (ls.foldl specLine sp).body, GoodLine p.2 := by
  induction ls generalizing sp with
  | nil => exact hb
  | cons l ls ih =>
    apply ih
    · exact fun x hx => h x (by simp [hx])
    · unfold specLine
      cases hh : headerName l with
      | some n => simp only; split <;> exact hb
      | none =>
        intro p hp
        rcases List.mem_append.1 hp with hp | hp
        · exact hb p hp
        · have : p = (sp.cur.getD [], l) := by simpa using hp
          rw [this]; exact ⟨h l (by simp), hh⟩

/-- opened names are good, and only the first one may be empty -/
theorem opened_good (ls : List Str) (sp : ReadSpec) (h : ∀ l ∈ ls, '\n' ∉ l)
    (h1 : ∀ n ∈ sp.opened, GoodName n) (h2 : ∀ i : Nat, sp.opened[i]? = some [] → i = 0)
    (h3 : ∀ c, sp.cur = some c → GoodName c ∧ (c = [] → [] ∈ sp.opened)) (h4 : sp.cur = none → sp.opened = []) :
    (∀ n ∈ (ls.foldl specLine sp).opened, GoodName n) ∧
    (∀ i : Nat, (ls.foldl specLine sp).opened[i]? = some [] → i = 0) := by
  induction ls generalizing sp with
  | nil => exact ⟨h1, h2⟩
  | cons l ls ih =>
    have hop : ∀ n, GoodName n → (n = [] → [] ∈ sp.opened ∨ sp.opened = []) →
        (∀ m ∈ openName sp.opened n, GoodName m) ∧ (∀ i : Nat, (openName sp.opened n)[i]? = some [] → i = 0) ∧
        (n = [] → [] ∈ openName sp.opened n) := by
      intro n hn h0
      unfold openName
      split
      · rename_i hex
        refine ⟨h1, h2, ?_⟩
        intro hn0
        obtain ⟨o, ho, he⟩ := hex
        subst hn0
        have : o = [] := (lk_nil_iff o).1 he
        rw [← this]; exact ho
      · rename_i hex
        refine ⟨?_, ?_, ?_⟩
        · intro m hm
          rcases List.mem_append.1 hm with hm | hm
          · exact h1 m hm
          · have : m = n := by simpa using hm
            rw [this]; exact hn
        · intro i hi
          rw [List.getElem?_append] at hi
          split at hi
          · exact h2 i hi
          · rename_i hl
            have hi0 : i - sp.opened.length = 0 := by
              by_contra hne
              rw [List.getElem?_eq_none (by simp; omega)] at hi
              cases hi
            rw [hi0] at hi
            simp only [List.getElem?_cons_zero, Option.some.injEq] at hi
            rcases h0 hi with h | h
            · exact absurd ⟨[], h, by rw [hi]⟩ hex
            · rw [h] at hi0; simpa using hi0
        · intro h; simp [h]
    rw [List.foldl_cons]
    have hl := h l (by simp)
    have hrest : ∀ x ∈ ls, '\n' ∉ x := fun x hx => h x (by simp [hx])
    cases hh : headerName l with
    | some n =>
      by_cases hn : n = []
      · have : specLine sp l = sp := by simp [specLine, hh, hn]
        rw [this]
        exact ih sp hrest h1 h2 h3 h4
      · have e : specLine sp l = ⟨some n, openName sp.opened n, sp.body⟩ := by simp [specLine, hh, hn]
        have hgn : GoodName n := by
          obtain ⟨b, nm, rest, hb, he, hnm, hne⟩ := (C07_header l n).1 hh
          have hsub : ∀ c ∈ n, c ∈ nm := by
            intro c hc; rw [hne] at hc; exact lstrip_sub _ _ (rstrip_sub _ _ hc)
          refine ⟨fun hc => hnm (hsub _ hc), fun hc => hl (by rw [he]; simp [hsub _ hc]), ?_⟩
          rw [hne]
          rcases lstrip_spec nm with ⟨h, he⟩ | ⟨h, _⟩
          · left; rw [he, rstrip_id _ (Or.inl h)]; exact h
          · right
            refine ⟨rstrip_headOK _ h, ?_⟩
            rcases rstrip_spec (lstrip nm) with ⟨h', _⟩ | ⟨h', _⟩
            · exact absurd h' (headOK_not_allBlank _ h)
            · exact h'
        obtain ⟨a1, a2, a3⟩ := hop n hgn (fun h => absurd h hn)
        rw [e]
        refine ih _ hrest a1 a2 ?_ (by simp)
        intro c hc
        cases hc
        exact ⟨hgn, fun h => absurd h hn⟩
    | none =>
      have e : specLine sp l = ⟨some (sp.cur.getD []), openName sp.opened (sp.cur.getD []),
        sp.body ++ [(sp.cur.getD [], l)]⟩ := by simp [specLine, hh]
      rw [e]
      have hg : GoodName (sp.cur.getD []) ∧ (sp.cur.getD [] = [] → [] ∈ sp.opened ∨ sp.opened = []) := by
        cases hc : sp.cur with
        | none =>
          exact ⟨⟨by simp, by simp, Or.inl (by simp [AllBlank])⟩, fun _ => Or.inr (h4 hc)⟩
        | some c => exact ⟨(h3 c hc).1, fun h => Or.inl ((h3 c hc).2 h)⟩
      obtain ⟨a1, a2, a3⟩ := hop _ hg.1 hg.2
      refine ih _ hrest a1 a2 ?_ (by simp)
      intro c hc
      cases hc
      exact ⟨hg.1, a3⟩

theorem finv_read (content : Str) (secs : Sections) (h : readFile content = .ok secs) : FInv secs := by
  have hnl : ∀ l ∈ getlines content, '\n' ∉ l := getlinesAux_noEol [] content (by simp)
  obtain ⟨c1, c2, c3, c4, c5⟩ := C07_sections content secs h
  have hop := opened_good (getlines content) ⟨none, [], []⟩ hnl (by simp) (by simp) (by simp) (by simp)
  have hbody := body_goodLine (getlines content) ⟨none, [], []⟩ hnl (by simp)
  have hlines : ∀ n, ∀ l ∈ (specRead content).linesOf n, GoodLine l := by
    intro n l hl
    obtain ⟨p, hp, rfl⟩ := List.mem_map.1 hl
    exact hbody p (List.mem_filter.1 hp).1
  refine ⟨?_, ?_, ?_, ?_, ?_⟩
  · unfold listSections at c2
    rw [List.pairwise_map] at c2
    refine c2.imp ?_
    intro a b hab he
    rw [Bool.eq_false_iff, ne_eq, stringsEqual_iff] at hab
    exact hab he
  · intro s hs
    apply hop.1
    show s.1 ∈ (specRead content).opened
    rw [← c1]
    exact List.mem_map.2 ⟨s, hs, rfl⟩
  · intro i s hi hs
    apply hop.2 i
    show (specRead content).opened[i]? = some []
    rw [← c1]
    unfold listSections
    rw [List.getElem?_map, hi, ← hs]; rfl
  · intro s hs
    rw [c3 s hs, uniq_iff]
    intro hd
    have := (C07_memory_safe content).2.2 ⟨_, hd⟩
    rw [h] at this
    cases this
  · intro s hs it hit
    rw [c3 s hs] at hit
    obtain ⟨l, hl, rfl⟩ := List.mem_map.1 hit
    exact ⟨goodItem_entry l, goodLine_parse l (hlines _ l hl)⟩

theorem finv_updSec (secs : Sections) (i : Nat) (f : KV → KV) (h : FInv secs)
    (hf : ∀ m : KV, Uniq m.items → (∀ it ∈ m.items, GoodItem it ∧ GoodLine (dumpItem it)) →
      Uniq (f m).items ∧ ∀ it ∈ (f m).items, GoodItem it ∧ GoodLine (dumpItem it)) : FInv (updSec secs i f) := by
  unfold updSec
  cases hi : secs[i]? with
  | none => exact h
  | some s =>
    simp only
    obtain ⟨hil, hi'⟩ := List.getElem?_eq_some_iff.1 hi
    have hmem : s ∈ secs := List.mem_iff_getElem?.2 ⟨i, hi⟩
    have hnames : (secs.set i (s.1, f s.2)).map (·.1) = secs.map (·.1) := by
      rw [List.map_set]
      apply List.ext_getElem?
      intro j
      rw [List.getElem?_set]
      by_cases hij : i = j
      · subst hij; rw [if_pos rfl]; simp [hil, hi']
      · rw [if_neg hij]
    have hm := hf s.2 (h.keys s hmem) (h.good s hmem)
    have hcase : ∀ t ∈ secs.set i (s.1, f s.2), t ∈ secs ∨ t = (s.1, f s.2) := fun t ht => List.mem_or_eq_of_mem_set ht
    refine ⟨?_, ?_, ?_, ?_, ?_⟩
    · have := h.uniq
      have e : ∀ l : Sections, l.Pairwise (fun a b => lk a.1 ≠ lk b.1) ↔ (l.map (·.1)).Pairwise (fun a b => lk a ≠ lk b) := by
        intro l; rw [List.pairwise_map]
      rw [e] at this ⊢
      rw [hnames]; exact this
    · intro t ht
      rcases hcase t ht with ht | rfl
      · exact h.names t ht
      · exact h.names s hmem
    · intro j t hj he
      rw [List.getElem?_set] at hj
      by_cases hij : i = j
      · subst hij
        rw [if_pos rfl, if_pos hil] at hj
        cases hj
        exact h.unnamed i s hi he
      · rw [if_neg hij] at hj
        exact h.unnamed j t hj he
    · intro t ht
      rcases hcase t ht with ht | rfl
      · exact h.keys t ht
      · exact hm.1
    · intro t ht
      rcases hcase t ht with ht | rfl
      · exact h.good t ht
      · exact hm.2

theorem mem_setItems_val (k v : Str) (items : List (Str × Str)) (x : Str × Str) (hx : x ∈ setItems k v items) :
    x ∈ items ∨ x = (k, v) ∨ ∃ y ∈ items, y.1 = x.1 ∧ x.2 = v ∧ y.1 ≠ [] ∧ lk y.1 = lk k := by
  induction items with
  | nil => right; left; simpa [setItems] using hx
  | cons it rest ih =>
    unfold setItems at hx
    split at hx
    · rename_i hm
      rcases List.mem_cons.1 hx with rfl | hx
      · right; right; exact ⟨it, by simp, rfl, rfl, (matches_iff _ _).1 hm⟩
      · left; simp [hx]
    · rcases List.mem_cons.1 hx with rfl | hx
      · left; simp
      · rcases ih hx with h | h | ⟨y, hy, he⟩
        · left; simp [h]
        · right; left; exact h
        · right; right; exact ⟨y, by simp [hy], he⟩

theorem lower_bracket (c : Char) (h : lower c = '[') : c = '[' := by
  unfold lower Char.toLower at h
  split at h
  · rename_i hc
    exfalso
    have h1 : c.val.toNat ≥ 65 := hc.1
    have h2 : c.val.toNat ≤ 90 := hc.2
    have h3 := congrArg (fun x : Char => x.val.toNat) h
    simp only [UInt32.toNat_add] at h3
    have e2 : ('[' : Char).val.toNat = 91 := rfl
    have e3 : ('a'.val - 'A'.val).toNat = 32 := rfl
    rw [e2, e3] at h3
    omega
  · exact h

theorem goodLine_pair (k v : Str) (hk : HeadOK k) (hkn : '\n' ∉ k) (hvn : '\n' ∉ v) (hh : k.head? ≠ some '[') :
    GoodLine (k ++ '=' :: v) := by
  refine ⟨by simp [hkn, hvn], (headerName_none_iff _).2 ?_⟩
  rintro ⟨h, _⟩
  obtain ⟨c, r, hc, hcb⟩ := hk
  rw [lstrip_id _ (Or.inr ⟨c, r ++ '=' :: v, by rw [hc]; rfl, hcb⟩)] at h
  apply hh
  rw [hc] at h ⊢
  simpa using h

theorem dumpItem_pair (k v : Str) (h : k ≠ []) : dumpItem (k, v) = k ++ '=' :: v := by
  unfold dumpItem
  cases k with
  | nil => exact absurd rfl h
  | cons a k => rfl

/-- Every reachable state satisfies the invariant. -/
theorem freach_inv (secs : Sections) (h : FReach secs) : FInv secs := by
  induction h with
  | new => exact ⟨List.Pairwise.nil, by simp, by simp, by simp, by simp⟩
  | read content secs h => exact finv_read content secs h
  | find secs n h hn h0 ih =>
    unfold findSection
    cases hf : secs.findIdx? (fun s => stringsEqual s.1 n) with
    | some i => exact ih
    | none =>
      simp only
      rw [List.findIdx?_eq_none_iff] at hf
      refine ⟨?_, ?_, ?_, ?_, ?_⟩
      · rw [List.pairwise_append]
        refine ⟨ih.uniq, by simp, ?_⟩
        intro a ha b hb he
        have : b = (n, KV.empty) := by simpa using hb
        subst this
        have h1 := hf a ha
        rw [Bool.eq_false_iff, ne_eq, stringsEqual_iff] at h1
        exact h1 he
      · intro s hs
        rcases List.mem_append.1 hs with hs | hs
        · exact ih.names s hs
        · have : s = (n, KV.empty) := by simpa using hs
          rw [this]; exact hn
      · intro i s hi hs
        rw [List.getElem?_append] at hi
        split at hi
        · exact ih.unnamed i s hi hs
        · rename_i hl
          have hi0 : i - secs.length = 0 := by
            by_contra hne
            rw [List.getElem?_eq_none (by simp; omega)] at hi
            cases hi
          rw [hi0] at hi
          simp only [List.getElem?_cons_zero, Option.some.injEq] at hi
          have := h0 (by rw [← hs, ← hi])
          rw [this] at hi0; simpa using hi0
      · intro s hs
        rcases List.mem_append.1 hs with hs | hs
        · exact ih.keys s hs
        · have : s = (n, KV.empty) := by simpa using hs
          rw [this]; exact List.Pairwise.nil
      · intro s hs
        rcases List.mem_append.1 hs with hs | hs
        · exact ih.good s hs
        · have : s = (n, KV.empty) := by simpa using hs
          rw [this]; intro it hit; simp [KV.empty] at hit
  | set secs i k v h hk hv hkn hvn hl ih =>
    apply finv_updSec _ _ _ ih
    intro m hu hg
    refine ⟨uniq_set k v _ hu, ?_⟩
    intro it hit
    refine ⟨set_good k v hk hv _ (fun x hx => (hg x hx).1) it hit, ?_⟩
    rcases mem_setItems_val k v _ it hit with h1 | h1 | ⟨y, hy, he, hv', hne, hlk⟩
    · exact (hg it h1).2
    · rw [h1, dumpItem_pair k v (goodKey_ne k hk)]
      exact goodLine_pair k v hk.head hkn hvn hl
    · have e : it = (y.1, v) := by rw [he, ← hv']
      have hgy := hg y hy
      have hgk : GoodKey y.1 := by
        rcases hgy.1 with h | h
        · exact absurd h.1 hne
        · exact h.1
      rw [e, dumpItem_pair _ _ hne]
      refine goodLine_pair _ v hgk.head ?_ hvn ?_
      · have h2 := hgy.2.1
        have : dumpItem y = y.1 ++ '=' :: y.2 := dumpItem_pair y.1 y.2 hne
        rw [this] at h2
        intro hc; apply h2; simp [hc]
      · intro hb
        apply hl
        cases hy1 : y.1 with
        | nil => exact absurd hy1 hne
        | cons a r =>
          rw [hy1] at hb hlk
          simp only [List.head?_cons, Option.some.injEq] at hb
          subst hb
          cases k with
          | nil => simp [lk] at hlk
          | cons a' k =>
            simp only [lk, List.map_cons, List.cons.injEq] at hlk
            have : lower a' = '[' := by rw [← hlk.1]; decide
            rw [lower_bracket _ this]; rfl
  | unset secs i k h ih =>
    apply finv_updSec _ _ _ ih
    intro m hu hg
    rw [unset_eq]
    exact ⟨hu.sublist (unset_sublist _ _), fun it hit => hg it ((unset_sublist _ _).mem hit)⟩

/-! ### C08 -/

/-- C08. The file is written iff some section is flagged as modified (and the file has a name). -/
theorem C08_written_iff (fileName : Str) (secs : Sections) :
    (destroy fileName secs).isSome = true ↔ fileName ≠ [] ∧ ∃ s ∈ secs, s.2.modified = true := by
  unfold destroy
  constructor
  · intro h
    split at h
    · rename_i hc
      refine ⟨hc.2.1, ?_⟩
      have := hc.1
      rw [List.any_eq_true] at this
      exact this
    · simp at h
  · rintro ⟨h1, s, hs, hm⟩
    rw [if_pos]
    · rfl
    · refine ⟨List.any_eq_true.2 ⟨s, hs, hm⟩, h1, List.length_pos_of_mem hs⟩

/-- C08. A file that was only read (and looked up) is not rewritten. -/
theorem C08_untouched (fileName content : Str) (secs : Sections) (h : readFile content = .ok secs)
    (lookups : List Str) :
    destroy fileName (lookups.foldl (fun s n => (findSection s n).1) secs) = none := by
  have key : ∀ (ns : List Str) (secs : Sections), (∀ s ∈ secs, s.2.modified = false) →
      ∀ s ∈ ns.foldl (fun s n => (findSection s n).1) secs, s.2.modified = false := by
    intro ns
    induction ns with
    | nil => intro secs h; exact h
    | cons n ns ih =>
      intro secs h
      apply ih
      show ∀ s ∈ (findSection secs n).1, s.2.modified = false
      unfold findSection
      split
      · exact h
      · intro s hs
        rcases List.mem_append.1 hs with hs | hs
        · exact h s hs
        · have : s = (n, KV.empty) := by simpa using hs
          rw [this]; rfl
  have hm := key lookups secs (C07_sections content secs h).2.2.2.2
  cases hd : destroy fileName (lookups.foldl (fun s n => (findSection s n).1) secs) with
  | none => rfl
  | some c =>
    have : (destroy fileName (lookups.foldl (fun s n => (findSection s n).1) secs)).isSome = true := by rw [hd]; rfl
    rw [C08_written_iff] at this
    obtain ⟨_, s, hs, h1⟩ := this
    rw [hm s hs] at h1
    cases h1

/-- C08. `set` always flags the map, `unset` flags it iff the key was present. -/
theorem C08_flagging (m : KV) (k v : Str) :
    (m.set k v).modified = true ∧ ((m.unset k).1.modified = true ↔ (m.modified = true ∨ m.contains k = true)) := by
  refine ⟨rfl, ?_⟩
  unfold KV.unset
  cases hc : m.contains k <;> simp

theorem reload_spec (secs : Sections) :
    (reload secs).map (fun s => (s.1, s.2.items.filter (fun it => !it.1.isEmpty))) =
      (secs.filter (fun s => !s.2.items.isEmpty)).map (fun s => (s.1, s.2.items.filter (fun it => !it.1.isEmpty))) := by
  have h1 : ∀ b s, (reload1 b s).map (fun s => (s.1, s.2.items.filter (fun it => !it.1.isEmpty))) =
      ([s].filter (fun s => !s.2.items.isEmpty)).map (fun s => (s.1, s.2.items.filter (fun it => !it.1.isEmpty))) := by
    intro b s
    unfold reload1
    cases hl : s.2.dumpLines.getLast? with
    | none =>
      rw [List.getLast?_eq_none_iff] at hl
      have : s.2.items = [] := by
        unfold KV.dumpLines at hl
        simpa using hl
      simp [this]
    | some last =>
      have : s.2.items ≠ [] := by
        intro h; unfold KV.dumpLines at hl; rw [h] at hl; simp at hl
      simp only
      have hf : ((!s.2.items.isEmpty) = true) := by
        cases hi : s.2.items with
        | nil => exact absurd hi this
        | cons a b => rfl
      rw [List.filter_cons, if_pos hf]
      simp only [List.map_cons, List.filter_append]
      split <;> simp
  induction secs with
  | nil => rfl
  | cons s rest ih =>
    cases rest with
    | nil => exact h1 true s
    | cons t rest =>
      unfold reload
      rw [List.map_append, h1, ih]
      conv_rhs => rw [show s :: t :: rest = [s] ++ (t :: rest) from rfl, List.filter_append, List.map_append]

/-- C08. Round trip: for any reachable state, the written file reads back successfully; the result
has the same non-empty sections in the same order, each with the same key/value pairs in the same
order (only blank lines may be added). -/
theorem C08_round_trip_partial (secs : Sections) (h : FReach secs) :
    ∃ secs', readFile (writeSections secs) = .ok secs' ∧
      secs'.map (fun s => (s.1, s.2.items.filter (fun it => !it.1.isEmpty))) =
        (secs.filter (fun s => !s.2.items.isEmpty)).map (fun s => (s.1, s.2.items.filter (fun it => !it.1.isEmpty))) :=
  ⟨reload secs, read_write secs (freach_inv secs h), reload_spec secs⟩

theorem getString_filter (m m' : KV) (h : m'.items.filter (fun it => !it.1.isEmpty) = m.items.filter (fun it => !it.1.isEmpty))
    (key dflt : Str) : m'.getString key dflt = m.getString key dflt := by
  have : ∀ items : List (Str × Str), items.find? (matches' key) = (items.filter (fun it => !it.1.isEmpty)).find? (matches' key) := by
    intro items
    rw [List.find?_filter]
    congr 1
    funext it
    unfold matches'
    cases it.1.isEmpty <;> simp
  unfold KV.getString
  rw [this, h, ← this]

/-- C08, observable form: after the round trip every parameter of every section that had any content
has the value it had before. -/
theorem C08_values_preserved_partial (secs : Sections) (h : FReach secs) (s : Str × KV) (hs : s ∈ secs)
    (hne : s.2.items ≠ []) :
    ∃ secs' kv, readFile (writeSections secs) = .ok secs' ∧ findSectionConst secs' s.1 = some kv ∧
      ∀ key dflt, kv.getString key dflt = s.2.getString key dflt := by
  obtain ⟨secs', h1, h2⟩ := C08_round_trip_partial secs h
  refine ⟨secs', ?_⟩
  have hinv := freach_inv secs h
  have hmem : (s.1, s.2.items.filter (fun it => !it.1.isEmpty)) ∈
      secs'.map (fun s => (s.1, s.2.items.filter (fun it => !it.1.isEmpty))) := by
    rw [h2]
    refine List.mem_map.2 ⟨s, List.mem_filter.2 ⟨hs, ?_⟩, rfl⟩
    cases hi : s.2.items with
    | nil => exact absurd hi hne
    | cons a b => rfl
  obtain ⟨t, ht, he⟩ := List.mem_map.1 hmem
  simp only [Prod.mk.injEq] at he
  have hu : secs'.Pairwise (fun a b => lk a.1 ≠ lk b.1) := (finv_read _ _ h1).uniq
  cases hf : secs'.find? (fun x => stringsEqual x.1 s.1) with
  | none =>
    exfalso
    rw [List.find?_eq_none] at hf
    exact hf t ht ((stringsEqual_iff _ _).2 (by rw [he.1]))
  | some u =>
    have hu' := List.find?_some hf
    have hum := List.mem_of_find?_eq_some hf
    have hut : u = t := by
      by_contra hne'
      have h3 : lk u.1 = lk t.1 := by rw [he.1]; exact (stringsEqual_iff _ _).1 hu'
      rw [List.pairwise_iff_getElem] at hu
      obtain ⟨i, hi, hi'⟩ := List.mem_iff_getElem.1 hum
      obtain ⟨j, hj, hj'⟩ := List.mem_iff_getElem.1 ht
      rcases Nat.lt_trichotomy i j with hlt | heq | hlt
      · have := hu i j hi hj hlt; rw [hi', hj'] at this; exact this h3
      · subst heq; exact hne' (hi'.symm.trans hj')
      · have := hu j i hj hi hlt; rw [hi', hj'] at this; exact this h3.symm
    subst hut
    exact ⟨u.2, h1, by unfold findSectionConst; rw [hf]; rfl, fun key dflt => getString_filter _ _ he.2 key dflt⟩

/-- the text written for the reloaded sections is the text written originally -/
theorem C08_second_save_identical (secs : Sections) : writeSections (reload secs) = writeSections secs := by
  have hd : ∀ (m : KV), m.items ≠ [] → ∃ last, m.dumpLines.getLast? = some last := by
    intro m hm
    cases hl : m.dumpLines.getLast? with
    | some last => exact ⟨last, rfl⟩
    | none =>
      rw [List.getLast?_eq_none_iff] at hl
      unfold KV.dumpLines at hl
      exact absurd (by simpa using hl) hm
  -- every reloaded section that is not last, or whose original was not last, ends with a blank line
  have hne : ∀ secs : Sections, reload secs = [] → writeSections secs = [] := by
    intro secs
    induction secs with
    | nil => intro _; rfl
    | cons s rest ih =>
      intro h
      have hz : ∀ b, reload1 b s = [] → writeSection b s = [] := by
        intro b hb
        unfold reload1 at hb
        unfold writeSection
        simp only
        split at hb
        · rename_i hl; rw [hl]
        · simp at hb
      cases rest with
      | nil => exact hz true h
      | cons t rest =>
        unfold reload at h
        rw [List.append_eq_nil_iff] at h
        unfold writeSections
        rw [hz false h.1, ih h.2]; rfl
  have hfalse : ∀ s b, (reload1 false s).flatMap (writeSection b) = writeSection false s := by
    intro s b
    unfold reload1 writeSection
    simp only
    cases hl : s.2.dumpLines.getLast? with
    | none => rfl
    | some last =>
      simp only [List.flatMap_cons, List.flatMap_nil, List.append_nil, KV.dumpLines, List.map_append]
      cases hb : last.isEmpty with
      | true =>
        have : (!true && !false) = false := rfl
        simp only [this, Bool.false_eq_true, if_false, List.append_nil, List.map_nil]
        unfold KV.dumpLines at hl
        rw [hl]
        simp [hb]
      | false =>
        have : (!false && !false) = true := rfl
        simp only [this, if_true]
        simp [dumpItem]
  have htrue : ∀ s, (reload1 true s).flatMap (writeSection true) = writeSection true s := by
    intro s
    unfold reload1 writeSection
    simp only
    cases hl : s.2.dumpLines.getLast? with
    | none => rfl
    | some last =>
      simp only [List.flatMap_cons, List.flatMap_nil, List.append_nil, KV.dumpLines]
      simp only [Bool.not_true, Bool.and_false, Bool.false_eq_true, if_false, List.append_nil]
      unfold KV.dumpLines at hl
      rw [hl]
  induction secs with
  | nil => rfl
  | cons s rest ih =>
    have hcases : ∀ b, reload1 b s = [] ∨ ∃ t, reload1 b s = [t] := by
      intro b; unfold reload1; split
      · left; rfl
      · right; exact ⟨_, rfl⟩
    cases rest with
    | nil =>
      have := htrue s
      rcases hcases true with h | ⟨t, h⟩
      · rw [h] at this
        unfold reload writeSections
        rw [h, ← this]; rfl
      · rw [h] at this
        unfold reload
        rw [h]
        simpa [writeSections] using this
    | cons u rest =>
      unfold reload
      rw [show writeSections (s :: u :: rest) = writeSection false s ++ writeSections (u :: rest) from rfl]
      rcases hcases false with h | ⟨t, h⟩
      · rw [h, List.nil_append, ih]
        have := hfalse s true
        rw [h] at this
        rw [← this]; rfl
      · rw [h]
        have hb : ∀ b, writeSection b t = writeSection false s := by
          intro b
          have := hfalse s b
          rw [h] at this
          simpa using this
        cases hr : reload (u :: rest) with
        | nil =>
          rw [hne _ hr]
          simp [writeSections, hb]
        | cons x y =>
          rw [hr] at ih
          rw [← ih]
          simp only [List.cons_append, List.nil_append]
          rw [show writeSections (t :: x :: y) = writeSection false t ++ writeSections (x :: y) from rfl, hb]

example : FReach (updSec (findSection [] "A".toList).1 0 (·.set "k".toList "v".toList)) :=
  FReach.set _ _ _ _ (FReach.find _ _ FReach.new
    ⟨by decide, by decide, Or.inr ⟨⟨'A', [], rfl, by decide⟩, ⟨'A', [], rfl, by decide⟩⟩⟩ (by decide))
    ⟨⟨'k', [], rfl, by decide⟩, ⟨'k', [], rfl, by decide⟩, by decide, by decide, by intro c r h; cases h; decide⟩
    ⟨by decide, Or.inr ⟨⟨'v', [], rfl, by decide⟩, ⟨'v', [], rfl, by decide⟩⟩⟩ (by decide) (by decide) (by decide)

/-- C08, refutation in the general case (why `FReach.find` excludes it): asking for the nameless
section in a file that already has sections, and setting a parameter there, moves the parameter into
the preceding section when the file is saved and reloaded. -/
theorem C08_refuted_nameless :
    let secs := (findSection (updSec (findSection [] "A".toList).1 0 (·.set "k".toList "v".toList)) []).1
    let secs := updSec secs 1 (·.set "x".toList "1".toList)
    (findSectionConst secs "A".toList).map (·.getString "x".toList []) = some [] ∧
    (match readFile (writeSections secs) with
      | .ok s => (findSectionConst s "A".toList).map (·.getString "x".toList [])
      | .error _ => none) = some "1".toList := by decide +kernel

/-- C08: an empty section is not saved. -/
theorem C08_empty_section_lost :
    readFile (writeSections (updSec [("A".toList, KV.empty), ("B".toList, KV.empty)] 0 (·.set "k".toList "v".toList))) =
      .ok [("A".toList, ⟨[("k".toList, "v".toList), ([], [])], false⟩)] := by decide +kernel

end Verif.Config
