import Verif.Config.MapProps

/-! Property theorems about parsing and dumping a KeyValueMap (C04, C06). -/
namespace Verif.Config
open Verif.Strings

/-- A string made of blanks only. -/
def AllBlank (s : Str) : Prop := ∀ c ∈ s, c ∈ BL
/-- First character exists and is not blank. -/
def HeadOK (s : Str) : Prop := ∃ c r, s = c :: r ∧ c ∉ BL
/-- Last character exists and is not blank. -/
def LastOK (s : Str) : Prop := ∃ c r, s = r ++ [c] ∧ c ∉ BL

theorem lstrip_spec (s : Str) :
    (AllBlank s ∧ lstrip s = s) ∨ (HeadOK (lstrip s) ∧ ∃ b, AllBlank b ∧ s = b ++ lstrip s) := by
  unfold lstrip findFirstNotOf
  rcases findIdx?_split (fun c => !BL.contains c) s with ⟨h, hall⟩ | ⟨i, h, hl, hall, c, r, hd, hc⟩
  · left
    rw [h]
    refine ⟨?_, rfl⟩
    intro c hc
    have := hall c hc
    simpa using this
  · right
    rw [h]
    refine ⟨⟨c, r, hd, by simpa using hc⟩, s.take i, ?_, (List.take_append_drop i s).symm⟩
    intro c hc
    have := hall c hc
    simpa using this

theorem lstrip_id (s : Str) (h : AllBlank s ∨ HeadOK s) : lstrip s = s := by
  rcases lstrip_spec s with ⟨_, h1⟩ | ⟨⟨c, r, h1, h2⟩, b, hb, he⟩
  · exact h1
  · rcases h with h | ⟨c', r', h3, h4⟩
    · exfalso
      apply h2
      apply h
      rw [he, h1]; simp
    · cases b with
      | nil => simpa using he.symm
      | cons x b =>
        exfalso
        rw [h3] at he
        simp only [List.cons_append, List.cons.injEq] at he
        apply h4
        rw [he.1]
        exact hb x (by simp)

theorem rstrip_eq (s : Str) : rstrip s = (lstrip s.reverse).reverse := by
  unfold rstrip lstrip findLastNotOf findFirstNotOf
  rcases findIdx?_split (fun c => !BL.contains c) s.reverse with ⟨h, hall⟩ | ⟨i, h, hl, hall, c, r, hd, hc⟩
  · rw [h]; simp
  · rw [h]
    rw [List.length_reverse] at hl
    have e : (s.reverse.drop i).reverse = s.take (s.length - i) := by
      rw [List.drop_reverse, List.reverse_reverse]
    simp only [Option.map_some]
    rw [e]
    by_cases h0 : s.length - 1 - i + 1 < s.length
    · rw [if_pos h0]; congr 1; omega
    · rw [if_neg h0, List.take_of_length_le]; omega

theorem allBlank_reverse (s : Str) : AllBlank s.reverse ↔ AllBlank s := by simp [AllBlank]

theorem headOK_reverse (s : Str) : HeadOK s.reverse ↔ LastOK s := by
  unfold HeadOK LastOK
  constructor
  · rintro ⟨c, r, h, hc⟩
    exact ⟨c, r.reverse, by have := congrArg List.reverse h; simpa using this, hc⟩
  · rintro ⟨c, r, h, hc⟩
    exact ⟨c, r.reverse, by rw [h]; simp, hc⟩

theorem rstrip_spec (s : Str) :
    (AllBlank s ∧ rstrip s = s) ∨ (LastOK (rstrip s) ∧ ∃ b, AllBlank b ∧ s = rstrip s ++ b) := by
  rcases lstrip_spec s.reverse with ⟨h, h1⟩ | ⟨h, b, hb, he⟩
  · left
    rw [rstrip_eq, h1]
    exact ⟨(allBlank_reverse s).1 h, by simp⟩
  · right
    rw [rstrip_eq]
    refine ⟨(headOK_reverse _).1 (by simpa using h), b.reverse, (allBlank_reverse _).2 hb, ?_⟩
    have := congrArg List.reverse he
    simpa using this

theorem rstrip_id (s : Str) (h : AllBlank s ∨ LastOK s) : rstrip s = s := by
  rw [rstrip_eq, lstrip_id, List.reverse_reverse]
  rw [allBlank_reverse, headOK_reverse]; exact h

theorem headOK_not_allBlank (s : Str) (h : HeadOK s) : ¬ AllBlank s := by
  obtain ⟨c, r, rfl, hc⟩ := h
  intro ha; exact hc (ha c (by simp))

/-- Stripping the right end of a string whose head is not blank keeps the head. -/
theorem rstrip_headOK (s : Str) (h : HeadOK s) : HeadOK (rstrip s) := by
  rcases rstrip_spec s with ⟨h1, _⟩ | ⟨⟨c, r, h1, h2⟩, b, hb, he⟩
  · exact absurd h1 (headOK_not_allBlank s h)
  · obtain ⟨c', r', h3, h4⟩ := h
    rw [h1] at he ⊢
    cases r with
    | nil =>
      simp only [List.nil_append] at he ⊢
      exact ⟨c, [], rfl, h2⟩
    | cons x r =>
      rw [h3] at he
      simp only [List.cons_append, List.cons.injEq] at he
      refine ⟨x, r ++ [c], rfl, ?_⟩
      rw [← he.1]; exact h4

theorem lstrip_sub (s : Str) : ∀ c ∈ lstrip s, c ∈ s := by
  intro c hc
  unfold lstrip at hc
  split at hc
  · exact List.mem_of_mem_drop hc
  · exact hc

theorem lstrip_append (b t : Str) (hb : AllBlank b) (ht : HeadOK t) : lstrip (b ++ t) = t := by
  obtain ⟨c, r, htc, hc⟩ := ht
  rcases lstrip_spec (b ++ t) with ⟨h, _⟩ | ⟨⟨c', r', h1, h2⟩, b', hb', he⟩
  · exact absurd (h c (by rw [htc]; simp)) hc
  · have key : ∀ (b b' x y : Str), AllBlank b → AllBlank b' → HeadOK x → HeadOK y → b ++ x = b' ++ y → x = y := by
      intro b
      induction b with
      | nil =>
        intro b' x y _ hb' hx hy h
        cases b' with
        | nil => simpa using h
        | cons a b' =>
          obtain ⟨p, q, rfl, hp⟩ := hx
          simp only [List.nil_append, List.cons_append, List.cons.injEq] at h
          exact absurd (hb' a (by simp)) (h.1 ▸ hp)
      | cons z b ih =>
        intro b' x y hb hb' hx hy h
        cases b' with
        | nil =>
          obtain ⟨p, q, rfl, hp⟩ := hy
          simp only [List.nil_append, List.cons_append, List.cons.injEq] at h
          exact absurd (hb z (by simp)) (h.1 ▸ hp)
        | cons a b' =>
          simp only [List.cons_append, List.cons.injEq] at h
          exact ih b' x y (fun c hc => hb c (by simp [hc])) (fun c hc => hb' c (by simp [hc])) hx hy h.2
    exact (key b b' t (lstrip (b ++ t)) hb hb' ⟨c, r, htc, hc⟩ ⟨c', r', h1, h2⟩ he).symm

theorem rstrip_append (t b : Str) (ht : LastOK t) (hb : AllBlank b) : rstrip (t ++ b) = t := by
  rw [rstrip_eq, List.reverse_append, lstrip_append _ _ ((allBlank_reverse b).2 hb) ((headOK_reverse t).2 ht),
    List.reverse_reverse]

theorem repr_comment_uniq (m : KV) (t : Str) (hu : Uniq m.items) : Uniq (m.items ++ [([], t)]) := by
  unfold Uniq
  rw [List.pairwise_append]
  refine ⟨hu, by simp, ?_⟩
  intro a ha b hb h1 h2
  have hb' : b = ([], t) := by simpa using hb
  subst hb'
  exact absurd rfl h2

theorem rstrip_sub (s : Str) : ∀ c ∈ rstrip s, c ∈ s := by
  intro c hc
  rw [rstrip_eq] at hc
  have := lstrip_sub _ c (List.mem_reverse.1 hc)
  exact List.mem_reverse.1 this

theorem cstr_id (s : Str) (h : '\x00' ∉ s) : cstr s = s := by
  unfold cstr
  induction s with
  | nil => rfl
  | cons a s ih =>
    simp only [List.mem_cons, not_or] at h
    rw [List.takeWhile_cons, if_pos (by simpa using Ne.symm h.1), ih h.2]

theorem cstr_noNul (s : Str) : '\x00' ∉ cstr s := by
  unfold cstr
  induction s with
  | nil => simp
  | cons a s ih =>
    rw [List.takeWhile_cons]
    split
    · rename_i h
      simp only [List.mem_cons, not_or]
      exact ⟨fun e => by subst e; simp at h, ih⟩
    · simp

/-! ### Well-formedness: the specification of which texts survive a round trip -/

/-- A key that can be written to and read back from a `key=value` line: it starts and ends with a
non-blank character, does not start with a comment character, and contains neither `=` nor NUL. -/
structure GoodKey (k : Str) : Prop where
  head : HeadOK k
  last : LastOK k
  noEq : '=' ∉ k
  noNul : '\x00' ∉ k
  noComment : ∀ c r, k = c :: r → isComment c = false

/-- A value that can be written and read back: not surrounded by blanks (or entirely blank), no NUL. -/
structure GoodValue (v : Str) : Prop where
  noNul : '\x00' ∉ v
  trimmed : AllBlank v ∨ (HeadOK v ∧ LastOK v)

/-- A line of text that is not a `key=value` pair. -/
structure GoodComment (t : Str) : Prop where
  noNul : '\x00' ∉ t
  noEol : '\n' ∉ t ∧ '\r' ∉ t
  trimmed : AllBlank t ∨ HeadOK t
  noPair : '=' ∉ t ∨ ∃ c r, t = c :: r ∧ (c = '=' ∨ isComment c = true)

theorem findIdx_eq_append (k v : Str) (h : '=' ∉ k) :
    (k ++ '=' :: v).findIdx? (· == '=') = some k.length := by
  induction k with
  | nil => simp [List.findIdx?_cons]
  | cons a k ih =>
    simp only [List.mem_cons, not_or] at h
    rw [List.cons_append, List.findIdx?_cons]
    have : (a == '=') = false := by simpa using Ne.symm h.1
    rw [this, if_neg (by simp), ih h.2]
    simp

theorem findIdx_eq_some (s : Str) (i : Nat) (h : s.findIdx? (· == '=') = some i) :
    ∃ k v, s = k ++ '=' :: v ∧ '=' ∉ k ∧ k.length = i := by
  rcases findIdx?_split (· == '=') s with ⟨h', _⟩ | ⟨j, h', hl, hall, c, r, hd, hc⟩
  · rw [h'] at h; cases h
  · rw [h'] at h; cases h
    have hc' : c = '=' := by simpa using hc
    subst hc'
    refine ⟨s.take i, r, ?_, ?_, by simp; omega⟩
    · rw [← hd, List.take_append_drop]
    · intro hm; have := hall _ hm; simp at this

theorem parse_pair (k v : Str) (hk : GoodKey k) (hv : GoodValue v) :
    parseLine (k ++ '=' :: v) = .pair k v := by
  have hn : '\x00' ∉ k ++ '=' :: v := by
    simp only [List.mem_append, List.mem_cons, not_or]
    exact ⟨hk.noNul, by decide, hv.noNul⟩
  obtain ⟨c, r, hkc, hcb⟩ := hk.head
  have hl : lstrip (k ++ '=' :: v) = k ++ '=' :: v :=
    lstrip_id _ (Or.inr ⟨c, r ++ '=' :: v, by rw [hkc]; rfl, hcb⟩)
  unfold parseLine
  rw [cstr_id _ hn, hl]
  simp only
  rw [findIdx_eq_append k v hk.noEq]
  have hpos : 0 < k.length := by rw [hkc]; simp
  have hcom := hk.noComment c r hkc
  have hsplit : k ++ '=' :: v = c :: (r ++ '=' :: v) := by rw [hkc]; rfl
  have ht : (k ++ '=' :: v).take k.length = k := by simp
  have hdr : (k ++ '=' :: v).drop (k.length + 1) = v := by
    rw [← List.drop_drop, List.drop_left]; rfl
  split
  · rename_i indx c' r' h1 h2
    cases h1
    have hc' : c' = c := by rw [hsplit] at h2; cases h2; rfl
    subst hc'
    rw [if_pos ⟨hpos, hcom⟩, ht, hdr, rstrip_id k (Or.inr hk.last)]
    have h3 : lstrip v = v := lstrip_id v (hv.trimmed.imp id And.left)
    rw [h3, rstrip_id v (hv.trimmed.imp id And.right)]
  · rename_i h1
    exact absurd hsplit (fun h => h1 _ _ _ rfl h)

theorem findFirstOf_none (t : Str) (h : '\n' ∉ t ∧ '\r' ∉ t) : findFirstOf ['\n', '\r'] t = none := by
  unfold findFirstOf
  rw [List.findIdx?_eq_none_iff]
  intro c hc
  simp only [List.contains_cons, List.contains_nil, Bool.or_false, Bool.or_eq_false_iff, beq_eq_false_iff_ne]
  exact ⟨fun e => h.1 (e ▸ hc), fun e => h.2 (e ▸ hc)⟩

theorem parse_comment (t : Str) (ht : GoodComment t) : parseLine t = .comment t := by
  unfold parseLine
  rw [cstr_id _ ht.noNul, lstrip_id _ ht.trimmed]
  simp only
  have hcom : commentOf t = .comment t := by
    unfold commentOf; rw [findFirstOf_none t ht.noEol]
  split
  · rename_i indx c r h1
    obtain ⟨k, v, hs, hk, hkl⟩ := findIdx_eq_some _ _ h1
    rcases ht.noPair with h | ⟨c', r', he, hc⟩
    · exfalso; apply h; rw [hs]; simp
    · cases he
      rcases hc with rfl | hc
      · have hk0 : k = [] := by
          cases k with
          | nil => rfl
          | cons x k => simp only [List.cons_append, List.cons.injEq] at hs; exfalso; apply hk; rw [← hs.1]; simp
        rw [hk0] at hkl
        simp only [List.length_nil] at hkl
        rw [if_neg (by omega), hcom]
      · rw [if_neg (by rw [hc]; simp), hcom]
  · exact hcom

/-- What the parser produces is always well-formed. -/
theorem parse_good (line : Str) :
    (∃ k v, parseLine line = .pair k v ∧ GoodKey k ∧ GoodValue v) ∨
    (∃ t, parseLine line = .comment t ∧ GoodComment t) := by
  have hn : '\x00' ∉ lstrip (cstr line) := fun h => cstr_noNul line (lstrip_sub _ _ h)
  have htr : AllBlank (lstrip (cstr line)) ∨ HeadOK (lstrip (cstr line)) := by
    rcases lstrip_spec (cstr line) with ⟨h, h1⟩ | ⟨h, _⟩
    · left; rw [h1]; exact h
    · right; exact h
  unfold parseLine
  simp only
  generalize lstrip (cstr line) = b at hn htr
  have hcomment : ('=' ∉ b ∨ ∃ c r, b = c :: r ∧ (c = '=' ∨ isComment c = true)) →
      ∃ t, commentOf b = .comment t ∧ GoodComment t := by
    intro hp
    refine ⟨_, rfl, ?_⟩
    rcases findIdx?_split (fun c => ['\n', '\r'].contains c) b with ⟨h, hall⟩ | ⟨i, h, hl, hall, c, r, hd, hc⟩
    · have h' : findFirstOf ['\n', '\r'] b = none := h
      rw [h']
      exact ⟨hn, ⟨fun hm => by have := hall _ hm; simp at this, fun hm => by have := hall _ hm; simp at this⟩, htr, hp⟩
    · have h' : findFirstOf ['\n', '\r'] b = some i := h
      rw [h']
      simp only
      refine ⟨fun hm => hn (List.mem_of_mem_take hm),
        ⟨fun hm => by have := hall _ hm; simp at this, fun hm => by have := hall _ hm; simp at this⟩, ?_, ?_⟩
      · rcases htr with h0 | ⟨x, y, h0, h1⟩
        · left; intro z hz; exact h0 z (List.mem_of_mem_take hz)
        · cases i with
          | zero => left; intro z hz; simp at hz
          | succ i => right; exact ⟨x, y.take i, by rw [h0]; rfl, h1⟩
      · rcases hp with hp | ⟨x, y, h0, h1⟩
        · left; exact fun hm => hp (List.mem_of_mem_take hm)
        · cases i with
          | zero => left; simp
          | succ i => right; exact ⟨x, y.take i, by rw [h0]; rfl, h1⟩
  split
  · rename_i indx c r h1
    by_cases hc : indx > 0 ∧ isComment c = false
    · rw [if_pos hc]
      left
      refine ⟨_, _, rfl, ?_, ?_⟩
      · obtain ⟨k, v, hs, hk, hkl⟩ := findIdx_eq_some _ _ h1
        rw [hs]
        have ht : (k ++ '=' :: v).take indx = k := by rw [← hkl]; simp
        rw [ht]
        have hHead : HeadOK (c :: r) := by
          rcases htr with h | h
          · have := h '=' (by rw [hs]; simp)
            exact absurd this (by decide)
          · exact h
        have hkh : HeadOK k := by
          obtain ⟨x, y, h2, h3⟩ := hHead
          cases k with
          | nil => simp at hkl; omega
          | cons a k =>
            refine ⟨a, k, rfl, ?_⟩
            rw [h2] at hs
            simp only [List.cons_append, List.cons.injEq] at hs
            rw [← hs.1]; exact h3
        have hr := rstrip_headOK k hkh
        refine ⟨hr, ?_, fun h => hk (rstrip_sub _ _ h), fun h => hn ?_, ?_⟩
        · rcases rstrip_spec k with ⟨h, _⟩ | ⟨h, _⟩
          · exact absurd h (headOK_not_allBlank k hkh)
          · exact h
        · rw [hs]; simp [rstrip_sub _ _ h]
        · intro x y hxy
          rcases rstrip_spec k with ⟨h, _⟩ | ⟨_, bb, _, he⟩
          · exact absurd h (headOK_not_allBlank k hkh)
          · rw [hxy] at he
            rw [he] at hs
            simp only [List.cons_append, List.cons.injEq] at hs
            rw [← hs.1]; exact hc.2
      · refine ⟨fun h => hn (List.mem_of_mem_drop (lstrip_sub _ _ (rstrip_sub _ _ h))), ?_⟩
        generalize (c :: r).drop (indx+1) = w
        rcases lstrip_spec w with ⟨h, he⟩ | ⟨h, _⟩
        · left; rw [he, rstrip_id _ (Or.inl h)]; exact h
        · right
          refine ⟨rstrip_headOK _ h, ?_⟩
          rcases rstrip_spec (lstrip w) with ⟨h', _⟩ | ⟨h', _⟩
          · exact absurd h' (headOK_not_allBlank _ h)
          · exact h'
    · rw [if_neg hc]
      right
      apply hcomment
      right
      refine ⟨c, r, rfl, ?_⟩
      by_cases hcc : isComment c = true
      · exact Or.inr hcc
      · left
        have hi : indx = 0 := by
          by_contra h0
          exact hc ⟨by omega, by simpa using hcc⟩
        obtain ⟨k, v, hs, hk, hkl⟩ := findIdx_eq_some _ _ h1
        have : k = [] := by rw [hi] at hkl; simpa using hkl
        subst this
        simp at hs; exact hs.1
  · rename_i b _ _ h1
    right
    apply hcomment
    left
    intro hm
    cases b with
    | nil => simp at hm
    | cons x y =>
      cases hf : (x :: y).findIdx? (· == '=') with
      | none =>
        rw [List.findIdx?_eq_none_iff] at hf
        have := hf _ hm
        simp at this
      | some i => exact h1 _ _ _ hf rfl

/-! ### C04: parsing a list of lines -/

/-- The stored entry for a parsed line; comments have an empty key. -/
def entry : Line → Str × Str
  | .pair k v => (k, v)
  | .comment t => ([], t)

theorem addAll_spec (lines : List Str) (m : KV) (hu : Uniq m.items) :
    (Uniq (m.items ++ lines.map (fun l => entry (parseLine l))) →
      addAll m lines = some { m with items := m.items ++ lines.map (fun l => entry (parseLine l)) }) ∧
    (¬ Uniq (m.items ++ lines.map (fun l => entry (parseLine l))) → addAll m lines = none) := by
  induction lines generalizing m with
  | nil => simp [addAll, hu]
  | cons l ls ih =>
    have happ : m.items ++ (l :: ls).map (fun l => entry (parseLine l)) =
        (m.items ++ [entry (parseLine l)]) ++ ls.map (fun l => entry (parseLine l)) := by simp
    rw [happ]
    unfold addAll
    by_cases hadd : Uniq (m.items ++ [entry (parseLine l)])
    · have hm : m.add l = some { m with items := m.items ++ [entry (parseLine l)] } := by
        unfold KV.add
        cases hp : parseLine l with
        | comment t => rfl
        | pair k v =>
          rw [hp] at hadd
          simp only [entry] at *
          rw [if_neg]
          unfold KV.contains
          rw [Bool.not_eq_true, List.any_eq_false]
          intro x hx hc
          rw [matches_iff] at hc
          unfold Uniq at hadd
          rw [List.pairwise_append] at hadd
          exact hadd.2.2 x hx (k, v) (by simp) hc.1 (parse_key_ne l k v hp) hc.2
      rw [hm]
      exact ih { m with items := m.items ++ [entry (parseLine l)] } hadd
    · constructor
      · intro h
        exfalso; apply hadd
        unfold Uniq at *
        rw [List.pairwise_append] at h
        exact h.1
      · intro _
        have hm : m.add l = none := by
          unfold KV.add
          cases hp : parseLine l with
          | comment t =>
            exfalso; apply hadd; rw [hp]
            exact (repr_comment_uniq m t hu)
          | pair k v =>
            simp only
            rw [if_pos]
            by_contra hc
            rw [Bool.not_eq_true] at hc
            apply hadd
            rw [hp]
            unfold Uniq
            rw [List.pairwise_append]
            refine ⟨hu, by simp, ?_⟩
            intro a ha b hb h1 h2 he
            have hb' : b = (k, v) := by simpa [entry] using hb
            subst hb'
            unfold KV.contains at hc
            rw [List.any_eq_false] at hc
            exact hc a ha ((matches_iff _ _).2 ⟨h1, he⟩)
        rw [hm]; rfl

/-- Specification of a repeated parameter: two of the lines (at different positions) are
`key=value` lines whose keys are equal up to case. -/
def HasDuplicate (lines : List Str) : Prop :=
  ∃ (i j : Nat) (k v k' v' : Str), i < j ∧ (lines[i]?).map parseLine = some (.pair k v) ∧
    (lines[j]?).map parseLine = some (.pair k' v') ∧ stringsEqual k k' = true

theorem uniq_iff (lines : List Str) :
    Uniq (lines.map (fun l => entry (parseLine l))) ↔ ¬ HasDuplicate lines := by
  unfold Uniq
  rw [List.pairwise_iff_getElem]
  constructor
  · rintro h ⟨i, j, k, v, k', v', hij, hi, hj, he⟩
    rw [Option.map_eq_some_iff] at hi hj
    obtain ⟨li, hi, hpi⟩ := hi
    obtain ⟨lj, hj, hpj⟩ := hj
    obtain ⟨hil, hi⟩ := List.getElem?_eq_some_iff.1 hi
    obtain ⟨hjl, hj⟩ := List.getElem?_eq_some_iff.1 hj
    have := h i j (by simpa using hil) (by simpa using hjl) hij
    simp only [List.getElem_map, hi, hj, hpi, hpj, entry] at this
    exact this (parse_key_ne _ _ _ hpi) (parse_key_ne _ _ _ hpj) ((stringsEqual_iff _ _).1 he)
  · intro h i j hi hj hij h1 h2 he
    simp only [List.length_map] at hi hj
    simp only [List.getElem_map] at h1 h2 he
    cases hpi : parseLine lines[i] with
    | comment t => rw [hpi] at h1; exact h1 rfl
    | pair k v =>
      cases hpj : parseLine lines[j] with
      | comment t => rw [hpj] at h2; exact h2 rfl
      | pair k' v' =>
        rw [hpi, hpj] at he
        exact h ⟨i, j, k, v, k', v', hij, by rw [List.getElem?_eq_getElem hi]; simp [hpi],
          by rw [List.getElem?_eq_getElem hj]; simp [hpj], (stringsEqual_iff _ _).2 he⟩

/-- C04. Parsing fails iff two `key=value` lines have keys equal up to case. -/
theorem C04_duplicates_rejected (lines : List Str) : KV.fromLines lines = none ↔ HasDuplicate lines := by
  have h := addAll_spec lines KV.empty List.Pairwise.nil
  have e : KV.empty.items = [] := rfl
  rw [e, List.nil_append, uniq_iff] at h
  unfold KV.fromLines
  constructor
  · intro hn
    by_contra hd
    rw [h.1 hd] at hn
    cases hn
  · intro hd; exact h.2 (fun h => h hd)

/-- C04. Otherwise the entries are those of the lines, one per line, in the same order, and the map
is not flagged as modified. -/
theorem C04_preserved (lines : List Str) (m : KV) (h : KV.fromLines lines = some m) :
    m.items = lines.map (fun l => entry (parseLine l)) ∧ m.modified = false ∧
    m.dumpLines.length = lines.length := by
  have hs := addAll_spec lines KV.empty List.Pairwise.nil
  have e : KV.empty.items = [] := rfl
  rw [e, List.nil_append, uniq_iff] at hs
  have hd : ¬ HasDuplicate lines := by
    intro hd; rw [(C04_duplicates_rejected lines).2 hd] at h; cases h
  have := hs.1 hd
  unfold KV.fromLines at h
  rw [this] at h
  cases h
  simp [KV.dumpLines, KV.empty]

/-- C04. A comment line (first non-blank character `#` or `;`) without embedded line ends, and a line
without `=`, is dumped verbatim except for leading blanks; what is dumped for a `key=value` line is
`key=value` with the blanks around `=` and at both ends removed. -/
theorem C04_comment_verbatim (b t : Str) (hb : AllBlank b) (hn : '\x00' ∉ t)
    (he : '\n' ∉ t ∧ '\r' ∉ t) (ht : HeadOK t)
    (hc : '=' ∉ t ∨ ∃ c r, t = c :: r ∧ (c = '=' ∨ isComment c = true)) :
    dumpItem (entry (parseLine (b ++ t))) = t := by
  have hnb : '\x00' ∉ b ++ t := by
    simp only [List.mem_append, not_or]
    exact ⟨fun h => absurd (hb _ h) (by decide), hn⟩
  have hs : lstrip (b ++ t) = t := lstrip_append b t hb ht
  have : parseLine (b ++ t) = parseLine t := by
    unfold parseLine
    rw [cstr_id _ hnb, cstr_id _ hn, hs, lstrip_id t (Or.inr ht)]
  rw [this, parse_comment t ⟨hn, he, Or.inr ht, hc⟩]
  rfl

theorem C04_pair_normalised (b b1 b2 b3 k v : Str) (hb : AllBlank b) (hb1 : AllBlank b1)
    (hb2 : AllBlank b2) (hb3 : AllBlank b3) (hk : GoodKey k) (hv : GoodValue v) (hvh : HeadOK v) :
    parseLine (b ++ k ++ b1 ++ '=' :: (b2 ++ v ++ b3)) = .pair k v := by
  have hbn : ∀ x, AllBlank x → '\x00' ∉ x := fun x hx h => absurd (hx _ h) (by decide)
  have hbe : '=' ∉ k ++ b1 := by
    simp only [List.mem_append, not_or]
    exact ⟨hk.noEq, fun h => absurd (hb1 _ h) (by decide)⟩
  have hn : '\x00' ∉ b ++ k ++ b1 ++ '=' :: (b2 ++ v ++ b3) := by
    simp only [List.mem_append, List.mem_cons, not_or]
    exact ⟨⟨⟨hbn _ hb, hk.noNul⟩, hbn _ hb1⟩, by decide, ⟨hbn _ hb2, hv.noNul⟩, hbn _ hb3⟩
  obtain ⟨c, r, hkc, hcb⟩ := hk.head
  have hl : lstrip (b ++ k ++ b1 ++ '=' :: (b2 ++ v ++ b3)) = (k ++ b1) ++ '=' :: (b2 ++ v ++ b3) := by
    rw [show b ++ k ++ b1 ++ '=' :: (b2 ++ v ++ b3) = b ++ ((k ++ b1) ++ '=' :: (b2 ++ v ++ b3)) by simp]
    exact lstrip_append b _ hb ⟨c, r ++ b1 ++ '=' :: (b2 ++ v ++ b3), by rw [hkc]; simp, hcb⟩
  unfold parseLine
  rw [cstr_id _ hn, hl]
  simp only
  rw [findIdx_eq_append (k ++ b1) _ hbe]
  have hpos : 0 < (k ++ b1).length := by rw [hkc]; simp
  have hcom := hk.noComment c r hkc
  have hsplit : (k ++ b1) ++ '=' :: (b2 ++ v ++ b3) = c :: (r ++ b1 ++ '=' :: (b2 ++ v ++ b3)) := by
    rw [hkc]; simp
  generalize hw : b2 ++ v ++ b3 = w at *
  generalize hkk : k ++ b1 = kk at *
  have ht : (kk ++ '=' :: w).take kk.length = kk := by simp
  have hdr : (kk ++ '=' :: w).drop (kk.length + 1) = w := by
    rw [← List.drop_drop, List.drop_left]; rfl
  split
  · rename_i indx c' r' h1 h2
    cases h1
    have hc' : c' = c := by rw [hsplit] at h2; cases h2; rfl
    subst hc'
    rw [if_pos ⟨hpos, hcom⟩, ht, hdr, ← hkk, rstrip_append _ _ hk.last hb1, ← hw]
    have hvl : LastOK v := by
      rcases hv.trimmed with h | h
      · exact absurd h (headOK_not_allBlank v hvh)
      · exact h.2
    obtain ⟨x, y, hxy, hx⟩ := hvh
    have e1 : lstrip (b2 ++ v ++ b3) = v ++ b3 := by
      rw [List.append_assoc]
      exact lstrip_append b2 _ hb2 ⟨x, y ++ b3, by rw [hxy]; rfl, hx⟩
    rw [e1, rstrip_append _ _ hvl hb3]
  · rename_i h1
    exact absurd hsplit (fun h => h1 _ _ _ rfl h)

example : KV.fromLines ["a=1".toList, "# c=d".toList, " A = 2".toList] = none := by decide
example : (KV.fromLines ["a=1".toList, "# c=d".toList, "".toList, " B = 2".toList]).map KV.dumpLines =
    some ["a=1".toList, "# c=d".toList, "".toList, "B=2".toList] := by decide

/-! ### C06: round trip -/

/-- Maps that a program can obtain: from any lines of text, then modified by `set` (with a key and
value that can be represented on a line) and `unset`. -/
inductive Reach : KV → Prop
  | parsed (lines : List Str) (m : KV) (h : KV.fromLines lines = some m) : Reach m
  | set (m : KV) (k v : Str) (h : Reach m) (hk : GoodKey k) (hv : GoodValue v) : Reach (m.set k v)
  | unset (m : KV) (k : Str) (h : Reach m) : Reach (m.unset k).1
  | added (m m' : KV) (line : Str) (h : Reach m) (ha : m.add line = some m') : Reach m'

/-- Invariant on the stored entries. -/
def GoodItem (it : Str × Str) : Prop := (it.1 = [] ∧ GoodComment it.2) ∨ (GoodKey it.1 ∧ GoodValue it.2)

theorem goodItem_entry (l : Str) : GoodItem (entry (parseLine l)) := by
  rcases parse_good l with ⟨k, v, h, hk, hv⟩ | ⟨t, h, ht⟩
  · rw [h]; exact Or.inr ⟨hk, hv⟩
  · rw [h]; exact Or.inl ⟨rfl, ht⟩

theorem goodKey_ne (k : Str) (h : GoodKey k) : k ≠ [] := by
  obtain ⟨c, r, h, _⟩ := h.head; rw [h]; simp

theorem set_good (k v : Str) (hk : GoodKey k) (hv : GoodValue v) (items : List (Str × Str))
    (h : ∀ it ∈ items, GoodItem it) : ∀ it ∈ setItems k v items, GoodItem it := by
  induction items with
  | nil => intro it hit; simp [setItems] at hit; rw [hit]; exact Or.inr ⟨hk, hv⟩
  | cons a rest ih =>
    intro it hit
    unfold setItems at hit
    split at hit
    · rename_i hm
      rcases List.mem_cons.1 hit with rfl | hit
      · rw [matches_iff] at hm
        rcases h a (by simp) with h1 | h1
        · exact absurd h1.1 hm.1
        · exact Or.inr ⟨h1.1, hv⟩
      · exact h it (by simp [hit])
    · rcases List.mem_cons.1 hit with rfl | hit
      · exact h it (by simp)
      · exact ih (fun x hx => h x (by simp [hx])) it hit

theorem add_inv (m m' : KV) (line : Str) (ha : m.add line = some m') (hu : Uniq m.items)
    (hg : ∀ it ∈ m.items, GoodItem it) : Uniq m'.items ∧ ∀ it ∈ m'.items, GoodItem it := by
  have h := addAll_spec [line] m hu
  have e : addAll m [line] = some m' := by simp [addAll, ha]
  by_cases hq : Uniq (m.items ++ [line].map (fun l => entry (parseLine l)))
  · rw [h.1 hq] at e
    cases e
    refine ⟨hq, ?_⟩
    intro it hit
    rcases List.mem_append.1 hit with h1 | h1
    · exact hg it h1
    · have : it = entry (parseLine line) := by simpa using h1
      rw [this]; exact goodItem_entry line
  · rw [h.2 hq] at e; cases e

theorem reach_inv (m : KV) (h : Reach m) : Uniq m.items ∧ ∀ it ∈ m.items, GoodItem it := by
  induction h with
  | parsed lines m h =>
    have := (C04_preserved lines m h).1
    have hd : ¬ HasDuplicate lines := by
      intro hd; rw [(C04_duplicates_rejected lines).2 hd] at h; cases h
    rw [this]
    refine ⟨(uniq_iff lines).2 hd, ?_⟩
    intro it hit
    obtain ⟨l, _, rfl⟩ := List.mem_map.1 hit
    exact goodItem_entry l
  | set m k v h hk hv ih => exact ⟨uniq_set k v _ ih.1, set_good k v hk hv _ ih.2⟩
  | unset m k h ih =>
    rw [unset_eq]
    exact ⟨ih.1.sublist (unset_sublist _ _), fun it hit => ih.2 it ((unset_sublist _ _).mem hit)⟩
  | added m m' line h ha ih => exact add_inv m m' line ha ih.1 ih.2

theorem entry_dump (it : Str × Str) (h : GoodItem it) : entry (parseLine (dumpItem it)) = it := by
  obtain ⟨k, v⟩ := it
  rcases h with ⟨h1, h2⟩ | ⟨h1, h2⟩
  · simp only at h1 h2
    subst h1
    simp only [dumpItem, List.isEmpty_nil, if_true]
    rw [parse_comment v h2]; rfl
  · have hne := goodKey_ne k h1
    have : dumpItem (k, v) = k ++ '=' :: v := by
      unfold dumpItem
      cases k with
      | nil => exact absurd rfl hne
      | cons a k => rfl
    rw [this, parse_pair k v h1 h2]; rfl

theorem fromLines_dump (m : KV) (hu : Uniq m.items) (hg : ∀ it ∈ m.items, GoodItem it) :
    KV.fromLines m.dumpLines = some ⟨m.items, false⟩ := by
  have e : (m.dumpLines.map fun l => entry (parseLine l)) = m.items := by
    unfold KV.dumpLines
    rw [List.map_map]
    conv_rhs => rw [← List.map_id m.items]
    apply List.map_congr_left
    intro it hit
    exact entry_dump it (hg it hit)
  have h := addAll_spec m.dumpLines KV.empty List.Pairwise.nil
  have e0 : KV.empty.items = [] := rfl
  rw [e0, List.nil_append, e] at h
  exact h.1 hu

/-- C06. Saving and re-parsing any reachable map reproduces exactly the same list of entries
(keys, values, comments, order). -/
theorem C06_round_trip (m : KV) (h : Reach m) : KV.fromLines m.dumpLines = some ⟨m.items, false⟩ :=
  fromLines_dump m (reach_inv m h).1 (reach_inv m h).2

/-- C06, observable consequence: every parameter reads back the same. -/
theorem C06_same_values (m : KV) (h : Reach m) (m' : KV) (hm : KV.fromLines m.dumpLines = some m')
    (key dflt : Str) : m'.getString key dflt = m.getString key dflt ∧ m'.contains key = m.contains key ∧
      m'.keys = m.keys := by
  rw [C06_round_trip m h] at hm
  cases hm
  exact ⟨rfl, rfl, rfl⟩

example : Reach ((KV.mk [("Type".toList, "Plummer".toList), ([], "# x".toList)] false).set "mass".toList "1.5".toList) := by
  refine Reach.set _ _ _ (Reach.parsed ["Type = Plummer".toList, "# x".toList] _ (by decide)) ?_ ?_
  · exact ⟨⟨'m', "ass".toList, rfl, by decide⟩, ⟨'s', "mas".toList, rfl, by decide⟩, by decide, by decide,
      by intro c r h; cases h; decide⟩
  · exact ⟨by decide, Or.inr ⟨⟨'1', ".5".toList, rfl, by decide⟩, ⟨'5', "1.".toList, rfl, by decide⟩⟩⟩

/-- C06, necessity of the restriction on values: a value with a leading blank set by the program
is changed by saving and reloading. -/
theorem C06_blank_value_changed :
    (KV.fromLines ((KV.empty.set "k".toList " v".toList).dumpLines)).map (fun m => m.getString "k".toList []) =
      some "v".toList := by decide

/-- ... and a key containing `=` is reinterpreted. -/
theorem C06_bad_key_changed :
    (KV.fromLines ((KV.empty.set "a=b".toList "v".toList).dumpLines)).map (fun m => m.getString "a".toList []) =
      some "b=v".toList := by decide

end Verif.Config
