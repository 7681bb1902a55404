import Verif.Strings.Model
import Mathlib.Data.List.Basic
import Mathlib.Tactic.Linarith

/-! Property theorems about string utilities (C01, C02, C09, C42). -/
namespace Verif.Strings

/-! ### C01 -/

/-- Independent specification of tokenisation: `Tok D src toks` says that `src` is a run of
delimiters followed, for every token in turn, by the (non-empty, delimiter-free) token, which is
followed by a delimiter or the end of the string. -/
inductive Tok (D : Char → Prop) : Str → List Str → Prop
  | nil (g : Str) (hg : ∀ c ∈ g, D c) : Tok D g []
  | cons (g t rest : Str) (toks : List Str) (hg : ∀ c ∈ g, D c) (hne : t ≠ []) (ht : ∀ c ∈ t, ¬ D c)
      (hsep : ∀ c r, rest = c :: r → D c) (hrest : Tok D rest toks) : Tok D (g ++ t ++ rest) (t :: toks)

theorem findIdx?_split (p : Char → Bool) (s : Str) :
    (s.findIdx? p = none ∧ ∀ c ∈ s, p c = false) ∨
    (∃ i, s.findIdx? p = some i ∧ i < s.length ∧ (∀ c ∈ s.take i, p c = false) ∧
      ∃ c r, s.drop i = c :: r ∧ p c = true) := by
  induction s with
  | nil => left; simp
  | cons a s ih =>
    by_cases ha : p a = true
    · right
      exact ⟨0, by simp [List.findIdx?_cons, ha], by simp, by simp, a, s, by simp, ha⟩
    · have ha' : p a = false := by simpa using ha
      rcases ih with ⟨h, hall⟩ | ⟨i, h, hl, hall, c, r, hd, hc⟩
      · left
        refine ⟨by simp [List.findIdx?_cons, ha', h], ?_⟩
        intro c hc
        rcases List.mem_cons.1 hc with rfl | hc
        · exact ha'
        · exact hall c hc
      · right
        refine ⟨i+1, by simp [List.findIdx?_cons, ha', h], by simp; omega, ?_, c, r, by simpa using hd, hc⟩
        intro c hc
        rw [List.take_succ_cons] at hc
        rcases List.mem_cons.1 hc with rfl | hc
        · exact ha'
        · exact hall c hc

theorem splitLoop_tok (delim : Str) (fuel : Nat) (str : Str) (hf : str.length ≤ fuel)
    (h0 : ∀ c r, str = c :: r → c ∉ delim) :
    ∃ toks, splitLoop delim fuel str = some toks ∧ Tok (· ∈ delim) str toks := by
  induction fuel generalizing str with
  | zero =>
    have : str = [] := List.length_eq_zero_iff.1 (by omega)
    subst this
    exact ⟨[], by simp [splitLoop], Tok.nil [] (by simp)⟩
  | succ fuel ih =>
    unfold splitLoop
    by_cases he : str = []
    · subst he; exact ⟨[], by simp, Tok.nil [] (by simp)⟩
    · have hie : str.isEmpty = false := by simpa using he
      simp only [hie, Bool.false_eq_true, if_false]
      -- the first token
      have htok : ∃ k, (findFirstOf delim str).getD str.length = k ∧ 0 < k ∧ k ≤ str.length ∧
          (∀ c ∈ str.take k, c ∉ delim) ∧ (∀ c r, str.drop k = c :: r → c ∈ delim) := by
        rcases findIdx?_split (fun c => delim.contains c) str with ⟨h, hall⟩ | ⟨i, h, hl, hall, c, r, hd, hc⟩
        · refine ⟨str.length, by rw [findFirstOf, h]; rfl, List.length_pos_iff.2 he, le_rfl, ?_, ?_⟩
          · intro c hc; simpa using hall c (by simpa using hc)
          · intro c r hd; simp at hd
        · refine ⟨i, by rw [findFirstOf, h]; rfl, ?_, by omega, fun c hc => by simpa using hall c hc, ?_⟩
          · rcases Nat.eq_zero_or_pos i with rfl | hp
            · rw [List.drop_zero] at hd
              exact absurd (by simpa using hc) (h0 c r hd)
            · exact hp
          · intro c' r' hd'
            rw [hd] at hd'; cases hd'; simpa using hc
      obtain ⟨k, hk, hk0, hkl, htake, hdrop⟩ := htok
      rw [hk, if_neg (by omega)]
      have htne : str.take k ≠ [] := by
        intro h
        have := congrArg List.length h
        rw [List.length_take, List.length_nil] at this
        omega
      rcases findIdx?_split (fun c => !delim.contains c) (str.drop k) with
        ⟨h, hall⟩ | ⟨i, h, hl, hall, c, r, hd, hc⟩
      · refine ⟨[str.take k], by simp only [findFirstNotOf, h], ?_⟩
        have := Tok.cons (D := (· ∈ delim)) [] (str.take k) (str.drop k) [] (by simp) htne htake hdrop
          (Tok.nil _ (fun c hc => by simpa using hall c hc))
        simpa using this
      · have hrec := ih ((str.drop k).drop i) (by rw [List.length_drop, List.length_drop]; omega) (by
          intro c' r' h'; rw [hd] at h'; cases h'; simpa using hc)
        obtain ⟨toks, ht, hT⟩ := hrec
        refine ⟨str.take k :: toks, by simp only [findFirstNotOf, h]; rw [ht]; rfl, ?_⟩
        -- absorb the gap in front of the remaining text
        have hT' : Tok (· ∈ delim) (str.drop k) toks := by
          have hg : ∀ c ∈ (str.drop k).take i, c ∈ delim := fun c hc => by simpa using hall c hc
          have e : str.drop k = (str.drop k).take i ++ (str.drop k).drop i := (List.take_append_drop _ _).symm
          generalize (str.drop k).drop i = rest at *
          generalize (str.drop k).take i = g at *
          rw [e]
          cases hT with
          | nil g' hg' =>
            exact Tok.nil _ (fun c hc => by
              rcases List.mem_append.1 hc with h | h
              · exact hg c h
              · exact hg' c h)
          | cons g' t rest' toks' hg' hne' ht' hsep' hrest' =>
            have := Tok.cons (D := (· ∈ delim)) (g ++ g') t rest' toks' (fun c hc => by
              rcases List.mem_append.1 hc with h | h
              · exact hg c h
              · exact hg' c h) hne' ht' hsep' hrest'
            simpa using this
        have := Tok.cons (D := (· ∈ delim)) [] (str.take k) (str.drop k) toks (by simp) htne htake hdrop hT'
        simpa using this

/-- C01. For every source string and every set of delimiters, `splitString` terminates without
violating its internal assertion and returns a tokenisation in the sense of `Tok`. -/
theorem C01_splitString (src delim : Str) :
    ∃ toks, splitString src delim = some toks ∧ Tok (· ∈ delim) src toks := by
  unfold splitString
  rcases findIdx?_split (fun c => !delim.contains c) src with ⟨h, hall⟩ | ⟨i, h, hl, hall, c, r, hd, hc⟩
  · refine ⟨[], by simp only [findFirstNotOf, h], Tok.nil _ (fun c hc => by simpa using hall c hc)⟩
  · have he : (if i > 0 then src.drop i else src) = src.drop i := by
      split
      · rfl
      · have : i = 0 := by omega
        subst this; simp
    obtain ⟨toks, ht, hT⟩ := splitLoop_tok delim src.length (src.drop i) (by simp) (by
      intro c' r' h'; rw [hd] at h'; cases h'; simpa using hc)
    refine ⟨toks, by simp only [findFirstNotOf, h, he, ht], ?_⟩
    have hg : ∀ c ∈ src.take i, c ∈ delim := fun c hc => by simpa using hall c hc
    have e : src = src.take i ++ src.drop i := (List.take_append_drop _ _).symm
    generalize src.drop i = rest at *
    generalize src.take i = g at *
    rw [e]
    cases hT with
    | nil g' hg' =>
      exact Tok.nil _ (fun c hc => by
        rcases List.mem_append.1 hc with h | h
        · exact hg c h
        · exact hg' c h)
    | cons g' t rest' toks' hg' hne' ht' hsep' hrest' =>
      have := Tok.cons (D := (· ∈ delim)) (g ++ g') t rest' toks' (fun c hc => by
        rcases List.mem_append.1 hc with h | h
        · exact hg c h
        · exact hg' c h) hne' ht' hsep' hrest'
      simpa using this

example : splitString "  ab,c ,".toList ", ".toList = some ["ab".toList, "c".toList] := by decide

theorem run_unique (D : Char → Prop) (g g' x x' : Str) (hg : ∀ c ∈ g, D c) (hg' : ∀ c ∈ g', D c)
    (hx : ∀ c r, x = c :: r → ¬ D c) (hx' : ∀ c r, x' = c :: r → ¬ D c) (h : g ++ x = g' ++ x') :
    g = g' ∧ x = x' := by
  induction g generalizing g' with
  | nil =>
    cases g' with
    | nil => exact ⟨rfl, by simpa using h⟩
    | cons a g' => exact absurd (hg' a (by simp)) (hx a (g' ++ x') (by simpa using h))
  | cons a g ih =>
    cases g' with
    | nil => exact absurd (hg a (by simp)) (hx' a (g ++ x) (by simpa using h.symm))
    | cons b g' =>
      simp only [List.cons_append, List.cons.injEq] at h
      obtain ⟨rfl, h⟩ := h
      obtain ⟨h1, h2⟩ := ih g' (fun c hc => hg c (by simp [hc])) (fun c hc => hg' c (by simp [hc])) h
      exact ⟨by rw [h1], h2⟩

/-- C01. The specification determines the answer: a string has only one tokenisation. -/
theorem C01_tokenisation_unique (D : Char → Prop) (s : Str) (a b : List Str) (ha : Tok D s a) (hb : Tok D s b) :
    a = b := by
  induction ha generalizing b with
  | nil g hg =>
    cases hb with
    | nil => rfl
    | cons g' t rest toks hg' hne ht hsep hr =>
      exfalso
      obtain ⟨c, t', rfl⟩ := List.exists_cons_of_ne_nil hne
      exact ht c (by simp) (hg c (by simp))
  | cons g t rest toks hg hne ht hsep hr ih =>
    generalize hs : g ++ t ++ rest = s at hb
    cases hb with
    | nil g' hg' =>
      exfalso
      obtain ⟨c, t', rfl⟩ := List.exists_cons_of_ne_nil hne
      exact ht c (by simp) (hg' c (by rw [← hs]; simp))
    | cons g' t' rest' toks' hg' hne' ht' hsep' hr' =>
      rw [List.append_assoc, List.append_assoc] at hs
      have first : ∀ (t rest : Str), t ≠ [] → (∀ c ∈ t, ¬ D c) → ∀ c r, t ++ rest = c :: r → ¬ D c := by
        intro t rest hne ht c r h
        obtain ⟨d, t2, rfl⟩ := List.exists_cons_of_ne_nil hne
        simp only [List.cons_append, List.cons.injEq] at h
        rw [← h.1]; exact ht d (by simp)
      obtain ⟨h1, h2⟩ := run_unique D g g' _ _ hg hg' (first t rest hne ht) (first t' rest' hne' ht') hs
      obtain ⟨h3, h4⟩ := run_unique (fun c => ¬ D c) t t' rest rest' ht ht'
        (fun c r h hn => hn (hsep c r h)) (fun c r h hn => hn (hsep' c r h)) h2
      subst h3; subst h4
      rw [ih toks' hr']

/-- C01. Consequences in words: every token is non-empty and delimiter-free; nothing but delimiters
is lost (the concatenated tokens are the source without its delimiters); the result is empty iff the
source consists of delimiters only. -/
theorem C01_consequences (src delim : Str) (toks : List Str) (h : splitString src delim = some toks) :
    (∀ t ∈ toks, t ≠ [] ∧ ∀ c ∈ t, c ∉ delim) ∧
    toks.flatten = src.filter (fun c => !delim.contains c) ∧
    (toks = [] ↔ ∀ c ∈ src, c ∈ delim) := by
  obtain ⟨toks', h', hT⟩ := C01_splitString src delim
  rw [h] at h'; cases h'
  clear h
  induction hT with
  | nil g hg =>
    refine ⟨by simp, ?_, by simpa using hg⟩
    simp only [List.flatten_nil]
    symm
    rw [List.filter_eq_nil_iff]
    intro c hc; simpa using hg c hc
  | cons g t rest toks hg hne ht hsep hr ih =>
    obtain ⟨i1, i2, i3⟩ := ih
    refine ⟨?_, ?_, ?_⟩
    · intro u hu
      rcases List.mem_cons.1 hu with rfl | hu
      · exact ⟨hne, ht⟩
      · exact i1 u hu
    · rw [List.filter_append, List.filter_append, List.flatten_cons, i2]
      have e1 : g.filter (fun c => !delim.contains c) = [] := by
        rw [List.filter_eq_nil_iff]; intro c hc; simpa using hg c hc
      have e2 : t.filter (fun c => !delim.contains c) = t := by
        rw [List.filter_eq_self]; intro c hc; simpa using ht c hc
      rw [e1, e2]; simp
    · constructor
      · intro h; simp at h
      · intro h
        obtain ⟨c, t', rfl⟩ := List.exists_cons_of_ne_nil hne
        exact absurd (h c (by simp)) (ht c (by simp))

/-- C01. Splitting the text written by `toString(vector, separator)` gives back the elements, if they
are non-empty and do not contain the separator. -/
theorem C01_join_split (sep : Char) (l : List Str) (hne : ∀ s ∈ l, s ≠ []) (hs : ∀ s ∈ l, sep ∉ s) :
    splitString (joinStrings sep l) [sep] = some l := by
  obtain ⟨toks, h, hT⟩ := C01_splitString (joinStrings sep l) [sep]
  rw [h]
  congr 1
  apply C01_tokenisation_unique _ _ _ _ hT
  clear h hT toks
  induction l with
  | nil => exact Tok.nil [] (by simp)
  | cons a l ih =>
    have ih' := ih (fun s hs' => hne s (by simp [hs'])) (fun s hs' => hs s (by simp [hs']))
    have hta : ∀ c ∈ a, ¬ c ∈ [sep] := by
      intro c hc hm
      have : c = sep := by simpa using hm
      subst this
      exact hs a (by simp) hc
    cases l with
    | nil =>
      have := Tok.cons (D := (· ∈ [sep])) [] a [] [] (by simp) (hne a (by simp)) hta (by simp)
        (Tok.nil [] (by simp))
      simpa [joinStrings] using this
    | cons b l =>
      have hgap : Tok (· ∈ [sep]) (sep :: joinStrings sep (b :: l)) (b :: l) := by
        generalize hz : joinStrings sep (b :: l) = z at ih'
        cases ih' with
        | cons g t rest toks hg hne ht hsep hr =>
          have := Tok.cons (D := (· ∈ [sep])) (sep :: g) b rest l (fun c hc => by
            rcases List.mem_cons.1 hc with rfl | hc
            · simp
            · exact hg c hc) hne ht hsep hr
          simpa using this
      have := Tok.cons (D := (· ∈ [sep])) [] a (sep :: joinStrings sep (b :: l)) (b :: l) (by simp)
        (hne a (by simp)) hta (by intro c r h; cases h; simp) hgap
      simpa [joinStrings] using this

example : splitString (joinStrings ',' ["1".toList, "2.5".toList]) [','] = some ["1".toList, "2.5".toList] :=
  C01_join_split _ _ (by decide) (by decide)

/-! ### C02 -/

theorem stringsEqual_iff (a b : Str) : stringsEqual a b = true ↔ a.map lower = b.map lower := by
  unfold stringsEqual
  by_cases hl : a.length = b.length
  · simp only [hl, ne_eq, not_true_eq_false, if_false, List.all_eq_true, List.mem_range]
    constructor
    · intro h
      apply List.ext_getElem (by simp [hl])
      intro i h1 h2
      simp only [List.length_map] at h1 h2
      have := h i h2
      rw [List.getElem?_eq_getElem h1, List.getElem?_eq_getElem h2] at this
      simpa using this
    · intro h i hi
      have h1 : i < a.length := by omega
      rw [List.getElem?_eq_getElem h1, List.getElem?_eq_getElem hi]
      have := congrArg (fun l => l[i]?) h
      simp only [List.getElem?_map, List.getElem?_eq_getElem h1, List.getElem?_eq_getElem hi] at this
      simpa using this
  · simp only [ne_eq, hl, not_false_eq_true, if_true, Bool.false_eq_true, false_iff]
    intro h
    exact hl (by simpa using congrArg List.length h)

/-- C02. `stringsEqual` is equality after lower-casing, hence an equivalence relation. -/
theorem C02_equivalence :
    (∀ a b, stringsEqual a b = true ↔ a.map lower = b.map lower) ∧
    (∀ a, stringsEqual a a = true) ∧
    (∀ a b, stringsEqual a b = stringsEqual b a) ∧
    (∀ a b c, stringsEqual a b = true → stringsEqual b c = true → stringsEqual a c = true) := by
  refine ⟨stringsEqual_iff, ?_, ?_, ?_⟩
  · intro a; rw [stringsEqual_iff]
  · intro a b
    rw [Bool.eq_iff_iff, stringsEqual_iff, stringsEqual_iff]; exact eq_comm
  · intro a b c h1 h2
    rw [stringsEqual_iff] at *; exact h1.trans h2

theorem seqLoop_eq (str2 : Str) (h0 : '\x00' ∉ str2) (a : Str) (i : Nat) (hi : i ≤ str2.length) :
    ∃ r, seqLoop str2 a i = some r ∧
      (r = true ↔ a.map lower = ((str2.drop i).take a.length).map lower) := by
  induction a generalizing i with
  | nil => exact ⟨true, rfl, by simp⟩
  | cons x a ih =>
    unfold seqLoop
    by_cases hlt : i < str2.length
    · have hne : str2[i] ≠ '\x00' := fun h => h0 (h ▸ List.getElem_mem hlt)
      simp only [cstrAt, hlt, if_true, List.getElem?_eq_getElem hlt, hne, false_or]
      obtain ⟨r, hr, hiff⟩ := ih (i+1) hlt
      have hd : str2.drop i = str2[i] :: str2.drop (i+1) := List.drop_eq_getElem_cons hlt
      by_cases hx : lower x = lower str2[i]
      · refine ⟨r, by simp [hx, hr], ?_⟩
        rw [hiff, hd, List.length_cons, List.take_succ_cons, List.map_cons, List.map_cons, hx]; simp only [List.cons.injEq, true_and]
      · refine ⟨false, by simp [hx], ?_⟩
        rw [hd, List.length_cons, List.take_succ_cons, List.map_cons, List.map_cons]; simp only [List.cons.injEq, hx, false_and]; simp
    · have hie : i = str2.length := by omega
      subst hie
      refine ⟨false, by simp [cstrAt], ?_⟩
      simp

/-- C02. The two overloads agree on all NUL-free strings, the second one never reads beyond the
terminator of its argument, and a NULL argument is never equal. -/
theorem C02_overloads_agree (a b : Str) (hb : '\x00' ∉ b) :
    stringsEqualC a (some b) = some (stringsEqual a b) ∧ stringsEqualC a none = some false := by
  refine ⟨?_, rfl⟩
  obtain ⟨r, hr, hiff⟩ := seqLoop_eq b hb a 0 (by omega)
  rw [List.drop_zero] at hiff
  unfold stringsEqualC
  simp only [hr]
  cases r with
  | false =>
    have hn : ¬ a.map lower = (b.take a.length).map lower := fun h => by simpa using hiff.2 h
    have : stringsEqual a b = false := by
      rw [Bool.eq_false_iff, ne_eq, stringsEqual_iff]
      intro h
      have hl : a.length = b.length := by simpa using congrArg List.length h
      apply hn
      rw [hl, List.take_length]; exact h
    rw [this]
  | true =>
    have hy := hiff.1 rfl
    have hle : a.length ≤ b.length := by
      have := congrArg List.length hy
      simp only [List.length_map, List.length_take] at this
      omega
    by_cases hl : a.length = b.length
    · have : stringsEqual a b = true := by
        rw [stringsEqual_iff]; rw [hl, List.take_length] at hy; exact hy
      rw [this]; simp [cstrAt, hl]
    · have hlt : a.length < b.length := by omega
      have : stringsEqual a b = false := by
        rw [Bool.eq_false_iff, ne_eq, stringsEqual_iff]
        intro h; exact hl (by simpa using congrArg List.length h)
      rw [this]
      have hne : b[a.length] ≠ '\x00' := fun h => hb (h ▸ List.getElem_mem hlt)
      simp [cstrAt, hlt, hne]

example : stringsEqual "SphericalModel".toList "sphericalMODEL".toList = true ∧
    stringsEqualC "Abc".toList (some "aBCd".toList) = some false := by decide

/-! ### C42 -/

/-- C42. `endsWithStr(str, end)` holds iff `str` is something followed by `end`. -/
theorem C42_endsWithStr (s e : Str) : endsWithStr s e = true ↔ ∃ p, s = p ++ e := by
  unfold endsWithStr findFrom
  simp only [Bool.and_eq_true, decide_eq_true_eq, List.any_eq_true, List.mem_range, beq_iff_eq]
  constructor
  · rintro ⟨hle, i, hi, hge, heq⟩
    have : i = s.length - e.length := by omega
    subst this
    refine ⟨s.take (s.length - e.length), ?_⟩
    rw [List.take_of_length_le (by rw [List.length_drop]; omega)] at heq
    conv_lhs => rw [← List.take_append_drop (s.length - e.length) s, heq]
  · rintro ⟨p, rfl⟩
    refine ⟨by simp, p.length, by simp; omega, by simp, by simp⟩

example : endsWithStr "model.ini".toList ".ini".toList = true ∧
    endsWithStr "ini".toList ".ini".toList = false := by decide

/-! ### C09 -/

/-- C09. `toBool` skips blanks (space, tab) and looks at the first other character. -/
theorem C09_toBool (blanks : Str) (hb : ∀ c ∈ blanks, c = ' ' ∨ c = '\t') (rest : Str) :
    (toBool blanks = some false) ∧
    (∀ c, c ∈ ['y','Y','t','T','1'] → toBool (blanks ++ c :: rest) = some true) ∧
    (∀ c, c ∈ ['n','N','f','F','0'] → toBool (blanks ++ c :: rest) = some false) ∧
    (∀ c, c ∉ ['y','Y','t','T','1','n','N','f','F','0',' ','\t','\x00'] →
      toBool (blanks ++ c :: rest) = none) := by
  have skip : ∀ s, toBool (blanks ++ s) = toBool s := by
    intro s
    induction blanks with
    | nil => rfl
    | cons a bl ih =>
      have := ih (fun c hc => hb c (by simp [hc]))
      rw [List.cons_append]
      conv_lhs => unfold toBool
      rcases hb a (by simp) with rfl | rfl <;> simp [this]
  refine ⟨?_, ?_, ?_, ?_⟩
  · have := skip []; rw [List.append_nil] at this; rw [this]; rfl
  · intro c hc
    rw [skip]; unfold toBool
    simp only [List.mem_cons, List.not_mem_nil, or_false] at hc
    rcases hc with rfl | rfl | rfl | rfl | rfl <;> rfl
  · intro c hc
    rw [skip]; unfold toBool
    simp only [List.mem_cons, List.not_mem_nil, or_false] at hc
    rcases hc with rfl | rfl | rfl | rfl | rfl <;> rfl
  · intro c hc
    rw [skip]; unfold toBool
    simp only [List.mem_cons, List.not_mem_nil, or_false, not_or] at hc
    obtain ⟨h1, h2, h3, h4, h5, h6, h7, h8, h9, h10, h11, h12, h13⟩ := hc
    simp [h1, h2, h3, h4, h5, h6, h7, h8, h9, h10, h11, h12, h13]

example : ∀ c ∈ " \t ".toList, c = ' ' ∨ c = '\t' := by decide

/-- C09. `toInt`, for every behaviour of `strtod`: the empty string gives 0; an exception is raised
iff nothing could be parsed or the number is not finite; otherwise the result is within the range of
`int`, it is the number truncated towards zero if that fits, and the nearest limit otherwise. -/
theorem C09_toInt (strtod : Str → Option Parsed) (val : Str) (hv : val ≠ []) :
    toInt strtod [] = some 0 ∧
    (toInt strtod val = none ↔ strtod val = none ∨ strtod val = some .nonFinite) ∧
    (∀ num den, strtod val = some (.finite num den) → 0 < den →
      ∃ r, toInt strtod val = some r ∧ INT_MIN ≤ r ∧ r ≤ INT_MAX ∧
        (INT_MIN ≤ num.tdiv den ∧ num.tdiv den ≤ INT_MAX → r = num.tdiv den) ∧
        (INT_MAX < num.tdiv den → r = INT_MAX) ∧ (num.tdiv den < INT_MIN → r = INT_MIN)) := by
  refine ⟨by simp [toInt], ?_, ?_⟩
  · unfold toInt
    rw [if_neg hv]
    cases h : strtod val with
    | none => simp
    | some p => cases p with
      | nonFinite => simp
      | finite n d => simp; split_ifs <;> simp
  · intro num den h hd
    unfold toInt
    rw [if_neg hv, h]
    simp only
    have hdp : (0 : Int) < (den : Int) := by exact_mod_cast hd
    have key1 : num ≥ INT_MAX * den → INT_MAX ≤ num.tdiv den := by
      intro hge
      have h0 : 0 ≤ num := le_trans (by unfold INT_MAX; positivity) hge
      rw [Int.tdiv_eq_ediv_of_nonneg h0]
      exact Int.le_ediv_of_mul_le hdp hge
    have key2 : num ≤ INT_MIN * den → num.tdiv den ≤ INT_MIN := by
      intro hle
      have h2 : -num ≥ 2147483648 * (den : Int) := by unfold INT_MIN at hle; linarith
      have h0 : 0 ≤ -num := le_trans (by positivity) h2
      have h3 : 2147483648 ≤ (-num).tdiv den := by
        rw [Int.tdiv_eq_ediv_of_nonneg h0]; exact Int.le_ediv_of_mul_le hdp h2
      rw [Int.neg_tdiv] at h3
      unfold INT_MIN; omega
    have key3 : ¬ num ≥ INT_MAX * den → num.tdiv den < INT_MAX := by
      intro hlt
      push Not at hlt
      by_cases h0 : 0 ≤ num
      · rw [Int.tdiv_eq_ediv_of_nonneg h0]
        exact Int.ediv_lt_of_lt_mul hdp hlt
      · have : num.tdiv den ≤ 0 := by
          have := Int.tdiv_nonneg (a := -num) (b := den) (by omega) hdp.le
          rw [Int.neg_tdiv] at this; omega
        have : (0 : Int) < INT_MAX := by decide
        omega
    have key4 : ¬ num ≤ INT_MIN * den → INT_MIN < num.tdiv den := by
      intro hlt
      push Not at hlt
      by_cases h0 : 0 ≤ num
      · have := Int.tdiv_nonneg (a := num) (b := den) h0 hdp.le
        have : INT_MIN < (0 : Int) := by decide
        omega
      · have h2 : -num < 2147483648 * (den : Int) := by unfold INT_MIN at hlt; linarith
        have h3 : (-num).tdiv den < 2147483648 := by
          rw [Int.tdiv_eq_ediv_of_nonneg (by omega)]
          exact Int.ediv_lt_of_lt_mul hdp h2
        rw [Int.neg_tdiv] at h3
        unfold INT_MIN; omega
    by_cases c1 : num ≥ INT_MAX * den
    · rw [if_pos c1]
      have := key1 c1
      refine ⟨_, rfl, by decide, le_rfl, ?_, fun _ => rfl, ?_⟩
      · intro ⟨_, h⟩; omega
      · intro h
        have : INT_MIN < INT_MAX := by decide
        omega
    · rw [if_neg c1]
      by_cases c2 : num ≤ INT_MIN * den
      · rw [if_pos c2]
        have := key2 c2
        refine ⟨_, rfl, le_rfl, by decide, ?_, ?_, fun _ => rfl⟩
        · intro ⟨h, _⟩; omega
        · intro h
          have : INT_MIN < INT_MAX := by decide
          omega
      · rw [if_neg c2]
        have h3 := key3 c1
        have h4 := key4 c2
        refine ⟨_, rfl, by omega, by omega, fun _ => rfl, ?_, ?_⟩ <;> intro h <;> omega

example : toInt (fun _ => some (.finite (-7) 2)) "-3.5".toList = some (-3) ∧
    toInt (fun _ => some (.finite 100000000000 1)) "1e11".toList = some INT_MAX := by decide

/-! ### C43 -/

/-- Specification: the characters that identifiers (mangled names) consist of. -/
def IdentChar (c : Char) : Prop :=
  c ∈ "ABCDEFGHIJKLMNOPQRSTUVWXYZabcdefghijklmnopqrstuvwxyz0123456789_".toList

theorem isAlphanumeric_iff (c : Char) : isAlphanumeric c = true ↔ IdentChar c := by
  have hset : ∀ n : Fin 128, isAlphanumeric (Char.ofNat n) = true ↔ IdentChar (Char.ofNat n) := by
    unfold IdentChar; decide +kernel
  by_cases h : c.toNat < 128
  · have := hset ⟨c.toNat, h⟩
    simpa only [Char.ofNat_toNat] using this
  · constructor
    · intro hc
      exfalso
      unfold isAlphanumeric at hc
      simp only [Bool.or_eq_true, Bool.and_eq_true, decide_eq_true_eq, beq_iff_eq] at hc
      have hle : ∀ d : Char, c ≤ d → c.toNat ≤ d.toNat := fun d hd => hd
      rcases hc with ((⟨_, hc⟩ | ⟨_, hc⟩) | ⟨_, hc⟩) | hc
      · have := hle _ hc; simp at this; omega
      · have := hle _ hc; simp at this; omega
      · have := hle _ hc; simp at this; omega
      · rw [hc] at h; simp at h
    · intro hc
      exfalso
      apply h
      have : ∀ d ∈ "ABCDEFGHIJKLMNOPQRSTUVWXYZabcdefghijklmnopqrstuvwxyz0123456789_".toList, d.toNat < 128 := by decide +kernel
      exact this c hc

/-- C43. If no identifier can be demangled, the text of the stack trace is reproduced verbatim. -/
theorem C43_demangle_identity (demangle : Str → Option Str) (h : ∀ s, demangle s = none) (s : Str) :
    demangleName demangle s = s := by
  have key : ∀ s nm, demangleLoop demangle nm s = nm.getD [] ++ s := by
    intro s
    induction s with
    | nil => intro nm; cases nm <;> simp [demangleLoop, h]
    | cons c s ih =>
      intro nm
      cases nm with
      | none =>
        unfold demangleLoop
        split
        · rw [ih]; simp
        · rw [ih]; simp
      | some n =>
        unfold demangleLoop
        split
        · rw [ih]; simp
        · rw [ih]; simp [h]
  have := key s none
  simpa [demangleName] using this

/-- C43. A single identifier is replaced by its demangled form, and the text on either side of a
non-identifier character is treated independently. -/
theorem C43_demangle_compositional (demangle : Str → Option Str) (a b : Str) (c : Char)
    (hc : ¬ IdentChar c) :
    demangleName demangle (a ++ c :: b) = demangleName demangle a ++ c :: demangleName demangle b := by
  rw [← isAlphanumeric_iff, Bool.not_eq_true] at hc
  have key : ∀ a nm, demangleLoop demangle nm (a ++ c :: b) =
      demangleLoop demangle nm a ++ c :: demangleLoop demangle none b := by
    intro a
    induction a with
    | nil => intro nm; cases nm <;> simp [demangleLoop, hc]
    | cons x a ih =>
      intro nm
      rw [List.cons_append]
      have e : ∀ nm r, demangleLoop demangle nm (x :: r) =
          if isAlphanumeric x then demangleLoop demangle (some (nm.getD [] ++ [x])) r
          else (match nm with | none => [] | some n => (demangle n).getD n) ++ x ::
            demangleLoop demangle none r := by
        intro nm r; cases nm <;> rfl
      rw [e, e]
      split
      · rw [ih]
      · rw [ih]; simp
  exact key a none

theorem C43_demangle_identifier (demangle : Str → Option Str) (a : Str) (hne : a ≠ [])
    (ha : ∀ c ∈ a, IdentChar c) : demangleName demangle a = (demangle a).getD a := by
  simp only [← isAlphanumeric_iff] at ha
  have key : ∀ a, (∀ c ∈ a, isAlphanumeric c = true) → ∀ n,
      demangleLoop demangle (some n) a = (demangle (n ++ a)).getD (n ++ a) := by
    intro a
    induction a with
    | nil => intro _ n; simp [demangleLoop]
    | cons x a ih =>
      intro h n
      unfold demangleLoop
      rw [if_pos (h x (by simp)), ih (fun c hc => h c (by simp [hc]))]
      simp
  obtain ⟨x, r, rfl⟩ := List.exists_cons_of_ne_nil hne
  unfold demangleName demangleLoop
  rw [if_pos (ha x (by simp)), key r (fun c hc => ha c (by simp [hc]))]
  simp

example : ¬ IdentChar '(' ∧ ∀ c ∈ "_ZN4math".toList, IdentChar c := by unfold IdentChar; decide

end Verif.Strings
