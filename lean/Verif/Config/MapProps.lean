import Verif.Config.Model
import Verif.Strings.Props
import Mathlib.Logic.Function.Basic

/-! Property theorems about KeyValueMap (C03-C06). -/
namespace Verif.Config
open Verif.Strings

/-- Keys are compared ignoring case: canonical form of a key. -/
def lk (k : Str) : Str := k.map lower

theorem matches_iff (key : Str) (it : Str × Str) :
    matches' key it = true ↔ it.1 ≠ [] ∧ lk it.1 = lk key := by
  unfold matches'
  rw [Bool.and_eq_true, stringsEqual_iff]
  simp [lk]

/-! ### C03: the map as a function of the lower-cased key -/

/-- The abstract map: what is stored under each (lower-cased) key. -/
abbrev Spec := Str → Option Str

inductive Op where
  | set (k v : Str)
  | unset (k : Str)
  | add (line : Str)
  | pop (k : Str)

/-- The specification of each operation on the abstract map. Setting the empty key stores nothing
retrievable; adding a line with a key already present is an error and changes nothing. -/
def specStep (M : Spec) : Op → Spec
  | .set k v => if k = [] then M else Function.update M (lk k) (some v)
  | .unset k => Function.update M (lk k) none
  | .pop k => Function.update M (lk k) none
  | .add line => match parseLine line with
    | .comment _ => M
    | .pair k v => if (M (lk k)).isSome then M else Function.update M (lk k) (some v)

/-- The code. -/
def step (m : KV) : Op → KV
  | .set k v => m.set k v
  | .unset k => (m.unset k).1
  | .pop k => (m.popString k []).2
  | .add line => (m.add line).getD m

/-- No two stored keys are equal up to case. -/
def Uniq (items : List (Str × Str)) : Prop :=
  items.Pairwise (fun a b => a.1 ≠ [] → b.1 ≠ [] → lk a.1 ≠ lk b.1)

/-- The abstract map represents the concrete one. -/
def Repr (m : KV) (M : Spec) : Prop :=
  Uniq m.items ∧ M [] = none ∧
  ∀ key, key ≠ [] → (m.items.find? (matches' key)).map (·.2) = M (lk key)

theorem lk_nil_iff (k : Str) : lk k = [] ↔ k = [] := by simp [lk]

theorem contains_iff_find (m : KV) (key : Str) :
    m.contains key = (m.items.find? (matches' key)).isSome := by
  unfold KV.contains
  rw [Bool.eq_iff_iff, List.any_eq_true, List.find?_isSome]

theorem matches_congr (k k' : Str) (h : lk k = lk k') : matches' k = matches' k' := by
  funext it
  rw [Bool.eq_iff_iff, matches_iff, matches_iff, h]

theorem matches_nil (it : Str × Str) : matches' [] it = false := by
  rw [Bool.eq_false_iff, ne_eq, matches_iff]
  rintro ⟨h1, h2⟩
  rw [show lk [] = [] from rfl, lk_nil_iff] at h2
  exact h1 h2

theorem find_set_same (k v : Str) (items : List (Str × Str)) (hk : k ≠ []) :
    ((setItems k v items).find? (matches' k)).map (·.2) = some v := by
  induction items with
  | nil =>
    have : matches' k (k, v) = true := (matches_iff _ _).2 ⟨hk, rfl⟩
    simp [setItems, List.find?_cons, this]
  | cons it rest ih =>
    unfold setItems
    by_cases h : matches' k it = true
    · have h' : matches' k (it.1, v) = true := by rw [matches_iff] at *; exact h
      simp [h, List.find?_cons, h']
    · rw [Bool.not_eq_true] at h
      simp only [h, Bool.false_eq_true, if_false, List.find?_cons]
      exact ih

theorem find_set_other (k v key : Str) (items : List (Str × Str)) (hne : lk key ≠ lk k) :
    ((setItems k v items).find? (matches' key)).map (·.2) = (items.find? (matches' key)).map (·.2) := by
  induction items with
  | nil =>
    have : matches' key (k, v) = false := by
      rw [Bool.eq_false_iff, ne_eq, matches_iff]; rintro ⟨_, h⟩; exact hne h.symm
    simp [setItems, List.find?_cons, this]
  | cons it rest ih =>
    unfold setItems
    by_cases h : matches' k it = true
    · have h1 : matches' key it = false := by
        rw [Bool.eq_false_iff, ne_eq, matches_iff]; rintro ⟨_, h2⟩
        rw [matches_iff] at h; exact hne (h2.symm.trans h.2)
      have h2 : matches' key (it.1, v) = false := by
        rw [Bool.eq_false_iff, ne_eq, matches_iff] at *; exact h1
      simp [h, List.find?_cons, h1, h2]
    · rw [Bool.not_eq_true] at h
      simp only [h, Bool.false_eq_true, if_false, List.find?_cons]
      cases hm : matches' key it with
      | true => rfl
      | false => exact ih

theorem mem_setItems (k v : Str) (items : List (Str × Str)) (x : Str × Str) (hx : x ∈ setItems k v items) :
    x.1 = k ∨ ∃ y ∈ items, y.1 = x.1 := by
  induction items with
  | nil => left; simp [setItems] at hx; rw [hx]
  | cons it rest ih =>
    unfold setItems at hx
    split at hx
    · rcases List.mem_cons.1 hx with rfl | hx
      · right; exact ⟨it, by simp, rfl⟩
      · right; exact ⟨x, by simp [hx], rfl⟩
    · rcases List.mem_cons.1 hx with rfl | hx
      · right; exact ⟨x, by simp, rfl⟩
      · rcases ih hx with h | ⟨y, hy, he⟩
        · left; exact h
        · right; exact ⟨y, by simp [hy], he⟩

theorem uniq_set (k v : Str) (items : List (Str × Str)) (h : Uniq items) : Uniq (setItems k v items) := by
  unfold Uniq at *
  induction items with
  | nil => simp [setItems]
  | cons it rest ih =>
    rw [List.pairwise_cons] at h
    unfold setItems
    split
    · rw [List.pairwise_cons]; exact ⟨fun b hb => h.1 b hb, h.2⟩
    · rename_i hm
      rw [List.pairwise_cons]
      refine ⟨?_, ih h.2⟩
      intro b hb h1 h2
      rcases mem_setItems k v rest b hb with hk | ⟨y, hy, he⟩
      · rw [hk]; intro hc
        exact hm ((matches_iff _ _).2 ⟨h1, hc⟩)
      · rw [← he]; exact h.1 y hy h1 (by rw [he]; exact h2)

theorem unset_sublist (k : Str) (items : List (Str × Str)) : (unsetItems k items).Sublist items := by
  induction items with
  | nil => exact List.Sublist.slnil
  | cons it rest ih =>
    unfold unsetItems
    split
    · exact List.sublist_cons_self _ _
    · exact ih.cons_cons _

theorem find_unset_same (k : Str) (items : List (Str × Str)) (h : Uniq items) :
    (unsetItems k items).find? (matches' k) = none := by
  induction items with
  | nil => rfl
  | cons it rest ih =>
    unfold Uniq at h
    rw [List.pairwise_cons] at h
    unfold unsetItems
    by_cases hm : matches' k it = true
    · rw [if_pos hm, List.find?_eq_none]
      intro x hx hc
      rw [matches_iff] at hm hc
      exact h.1 x hx hm.1 hc.1 (hm.2.trans hc.2.symm)
    · rw [if_neg hm]
      rw [Bool.not_eq_true] at hm
      rw [List.find?_cons, hm]
      exact ih h.2

theorem find_unset_other (k key : Str) (items : List (Str × Str)) (hne : lk key ≠ lk k) :
    (unsetItems k items).find? (matches' key) = items.find? (matches' key) := by
  induction items with
  | nil => rfl
  | cons it rest ih =>
    unfold unsetItems
    by_cases hm : matches' k it = true
    · rw [if_pos hm]
      have h1 : matches' key it = false := by
        rw [Bool.eq_false_iff, ne_eq, matches_iff]; rintro ⟨_, h2⟩
        rw [matches_iff] at hm; exact hne (h2.symm.trans hm.2)
      rw [List.find?_cons, h1]
    · rw [if_neg hm, List.find?_cons, List.find?_cons, ih]

theorem unset_eq (m : KV) (k : Str) : (m.unset k).1.items = unsetItems k m.items := by
  unfold KV.unset
  split
  · rfl
  · rename_i h
    have : ∀ items : List (Str × Str), items.any (matches' k) = false → unsetItems k items = items := by
      intro items
      induction items with
      | nil => intro _; rfl
      | cons it rest ih =>
        intro h
        rw [List.any_cons, Bool.or_eq_false_iff] at h
        unfold unsetItems
        rw [h.1]; simp [ih h.2]
    exact (this m.items (by unfold KV.contains at h; simpa using h)).symm

theorem repr_unset (m : KV) (M : Spec) (k : Str) (h : Repr m M) :
    Repr (m.unset k).1 (Function.update M (lk k) none) := by
  obtain ⟨hu, hn, hf⟩ := h
  unfold Repr
  rw [unset_eq]
  refine ⟨hu.sublist (unset_sublist _ _), ?_, ?_⟩
  · by_cases hk : lk k = []
    · rw [hk]; simp
    · rw [Function.update_of_ne (Ne.symm hk)]; exact hn
  · intro key hkey
    by_cases hk : lk key = lk k
    · rw [hk, Function.update_self, matches_congr key k hk, find_unset_same k _ hu]; rfl
    · rw [Function.update_of_ne hk, find_unset_other k key _ hk]; exact hf key hkey

/-- The parser never produces an empty key (proved here because the map relies on it). -/
theorem parse_key_ne (line k v : Str) (h : parseLine line = .pair k v) : k ≠ [] := by
  unfold parseLine at h
  simp only at h
  generalize lstrip (cstr line) = b at h
  split at h
  · rename_i indx c rest hf
    split at h
    · rename_i hc
      cases h
      intro hnil
      unfold rstrip at hnil
      split at hnil
      · rename_i i hi
        split at hnil
        · rw [List.take_eq_nil_iff] at hnil
          rcases hnil with h | h
          · omega
          · rw [List.take_eq_nil_iff] at h
            rcases h with h | h
            · omega
            · simp at h
        · rw [List.take_eq_nil_iff] at hnil
          rcases hnil with h | h
          · omega
          · simp at h
      · rw [List.take_eq_nil_iff] at hnil
        rcases hnil with h | h
        · omega
        · simp at h
    · simp [commentOf] at h
  · simp [commentOf] at h

theorem repr_push (m : KV) (M : Spec) (k v : Str) (hk : k ≠ []) (h : Repr m M) (hc : m.contains k = false) :
    Repr { m with items := m.items ++ [(k, v)] } (Function.update M (lk k) (some v)) := by
  obtain ⟨hu, hn, hf⟩ := h
  rw [contains_iff_find] at hc
  have hcn : m.items.find? (matches' k) = none := by simpa using hc
  refine ⟨?_, ?_, ?_⟩
  · unfold Uniq
    rw [List.pairwise_append]
    refine ⟨hu, by simp, ?_⟩
    intro a ha b hb h1 h2
    have hb' : b = (k, v) := by simpa using hb
    subst hb'
    intro he
    have := List.find?_eq_none.1 hcn a ha
    exact this ((matches_iff _ _).2 ⟨h1, he⟩)
  · rw [Function.update_of_ne]
    · exact hn
    · intro he; exact hk ((lk_nil_iff k).1 he.symm)
  · intro key hkey
    simp only [List.find?_append]
    by_cases he : lk key = lk k
    · have hmk : matches' k (k, v) = true := (matches_iff _ _).2 ⟨hk, rfl⟩
      rw [he, Function.update_self, matches_congr key k he, hcn]
      simp [List.find?_cons, hmk]
    · have hmk : matches' key (k, v) = false := by
        rw [Bool.eq_false_iff, ne_eq, matches_iff]; rintro ⟨_, h⟩; exact he h.symm
      rw [Function.update_of_ne he, ← hf key hkey]
      simp [List.find?_cons, hmk]

theorem repr_comment (m : KV) (M : Spec) (v : Str) (h : Repr m M) :
    Repr { m with items := m.items ++ [([], v)] } M := by
  obtain ⟨hu, hn, hf⟩ := h
  refine ⟨?_, hn, ?_⟩
  · unfold Uniq
    rw [List.pairwise_append]
    refine ⟨hu, by simp, ?_⟩
    intro a ha b hb h1 h2
    have hb' : b = ([], v) := by simpa using hb
    subst hb'
    exact absurd rfl h2
  · intro key hkey
    have hmk : matches' key ([], v) = false := by simp [matches']
    simp only [List.find?_append]
    rw [← hf key hkey]
    simp [List.find?_cons, hmk]

theorem repr_set (m : KV) (M : Spec) (k v : Str) (h : Repr m M) :
    Repr (m.set k v) (if k = [] then M else Function.update M (lk k) (some v)) := by
  obtain ⟨hu, hn, hf⟩ := h
  refine ⟨uniq_set k v _ hu, ?_, ?_⟩
  · split
    · exact hn
    · rename_i hk
      rw [Function.update_of_ne]
      · exact hn
      · intro he; exact hk ((lk_nil_iff k).1 he.symm)
  · intro key hkey
    unfold KV.set
    by_cases hk : k = []
    · subst hk
      rw [if_pos rfl, find_set_other [] v key _ (by
        rw [show lk [] = [] from rfl]; intro h; exact hkey ((lk_nil_iff key).1 h))]
      exact hf key hkey
    · rw [if_neg hk]
      by_cases he : lk key = lk k
      · rw [he, Function.update_self, matches_congr key k he]; exact find_set_same k v _ hk
      · rw [Function.update_of_ne he, find_set_other k v key _ he]; exact hf key hkey

theorem repr_step (m : KV) (M : Spec) (op : Op) (h : Repr m M) : Repr (step m op) (specStep M op) := by
  cases op with
  | set k v => exact repr_set m M k v h
  | unset k => exact repr_unset m M k h
  | pop k => exact repr_unset m M k h
  | add line =>
    simp only [step, specStep, KV.add]
    cases hp : parseLine line with
    | comment t => simp only [Option.getD_some]; exact repr_comment m M t h
    | pair k v =>
      have hk := parse_key_ne line k v hp
      have hM := h.2.2 k hk
      have hc : m.contains k = (M (lk k)).isSome := by
        rw [contains_iff_find, ← hM]; simp
      simp only
      by_cases hs : m.contains k = true
      · rw [if_pos hs, if_pos (by rw [← hc]; exact hs)]; exact h
      · rw [if_neg hs, if_neg (by rw [← hc]; exact hs)]
        rw [Bool.not_eq_true] at hs
        exact repr_push m M k v hk h hs

theorem repr_run (ops : List Op) (m : KV) (M : Spec) (h : Repr m M) :
    Repr (ops.foldl step m) (ops.foldl specStep M) := by
  induction ops generalizing m M with
  | nil => exact h
  | cons op ops ih => exact ih _ _ (repr_step m M op h)

theorem repr_empty : Repr KV.empty (fun _ => none) :=
  ⟨List.Pairwise.nil, rfl, fun _ _ => rfl⟩

/-- C03. After any sequence of set/unset/pop/add operations on an initially empty map, reading any
non-empty key (in any case variant) returns what the abstract map holds for the lower-cased key,
or the default; `contains` agrees; and no two stored keys are equal up to case. -/
theorem C03_map_refinement (ops : List Op) (key dflt : Str) (hk : key ≠ []) :
    let m := ops.foldl step KV.empty
    let M := ops.foldl specStep (fun _ => none)
    m.getString key dflt = (M (lk key)).getD dflt ∧
    m.contains key = (M (lk key)).isSome ∧
    Uniq m.items := by
  have h := repr_run ops _ _ repr_empty
  obtain ⟨hu, hn, hf⟩ := h
  have hf' := hf key hk
  refine ⟨?_, ?_, hu⟩
  · rw [← hf']
    unfold KV.getString
    cases (List.find? (matches' key) (List.foldl step KV.empty ops).items) <;> rfl
  · rw [contains_iff_find, ← hf']; simp

/-- C03. The value returned by `popString` is what `getString` would have returned. -/
theorem C03_pop_value (m : KV) (key dflt : Str) : (m.popString key dflt).1 = m.getString key dflt := rfl

example : (([Op.add "Mass = 1 ".toList, .set "MASS".toList "2".toList, .unset "x".toList].foldl step KV.empty).getString
    "mass".toList "0".toList) = "2".toList := by decide

/-- The empty key: a value stored under it is never found again (why C03 speaks of non-empty keys). -/
theorem C03_empty_key (m : KV) (v dflt : Str) : (m.set [] v).getString [] dflt = dflt := by
  unfold KV.getString
  have : (m.set [] v).items.find? (matches' []) = none := by
    rw [List.find?_eq_none]; intro x _; rw [matches_nil]; simp
  rw [this]

/-! ### C05: synonymous keys -/

/-- C05. -/
theorem C05_getStringAlt (m : KV) (k1 k2 d : Str) :
    (m.getStringAlt k1 k2 d = none ↔ m.contains k1 = true ∧ m.contains k2 = true) ∧
    (m.contains k1 = true → m.contains k2 = false → m.getStringAlt k1 k2 d = some (m.getString k1 d)) ∧
    (m.contains k1 = false → m.contains k2 = true → m.getStringAlt k1 k2 d = some (m.getString k2 d)) ∧
    (m.contains k1 = false → m.contains k2 = false → m.getStringAlt k1 k2 d = some d) := by
  have hd : ∀ k, m.contains k = true → m.getString k [] = m.getString k d := by
    intro k hk
    rw [contains_iff_find] at hk
    unfold KV.getString
    cases hf : m.items.find? (matches' k) with
    | none => rw [hf] at hk; simp at hk
    | some it => rfl
  unfold KV.getStringAlt
  cases h1 : m.contains k1 <;> cases h2 : m.contains k2 <;> simp [hd _ , *]

/-- C05. After a successful pop neither of the two keys is present; all other keys are unchanged
(for every map satisfying the uniqueness invariant of C03). -/
theorem C05_popStringAlt (m : KV) (hu : Uniq m.items) (k1 k2 d r : Str) (m' : KV)
    (h : m.popStringAlt k1 k2 d = some (r, m')) :
    m.getStringAlt k1 k2 d = some r ∧ m'.contains k1 = false ∧ m'.contains k2 = false ∧
    ∀ key dflt, lk key ≠ lk k1 → lk key ≠ lk k2 →
      m'.getString key dflt = m.getString key dflt ∧ m'.contains key = m.contains key := by
  unfold KV.popStringAlt at h
  cases hg : m.getStringAlt k1 k2 d with
  | none => rw [hg] at h; simp at h
  | some r' =>
    rw [hg] at h
    simp only [Option.map_some, Option.some.injEq, Prod.mk.injEq] at h
    obtain ⟨h1, h2⟩ := h
    subst h1; subst h2
    have hi : (((m.unset k1).1.unset k2).1).items = unsetItems k2 (unsetItems k1 m.items) := by
      rw [unset_eq, unset_eq]
    have hu1 : Uniq (unsetItems k1 m.items) := hu.sublist (unset_sublist _ _)
    refine ⟨rfl, ?_, ?_, ?_⟩
    · rw [contains_iff_find, hi]
      by_cases he : lk k1 = lk k2
      · rw [matches_congr k1 k2 he, find_unset_same k2 _ hu1]; rfl
      · rw [find_unset_other k2 k1 _ he, find_unset_same k1 _ hu]; rfl
    · rw [contains_iff_find, hi, find_unset_same k2 _ hu1]; rfl
    · intro key dflt n1 n2
      have e : (((m.unset k1).1.unset k2).1).items.find? (matches' key) = m.items.find? (matches' key) := by
        rw [hi, find_unset_other k2 key _ n2, find_unset_other k1 key _ n1]
      refine ⟨?_, ?_⟩
      · unfold KV.getString; rw [e]
      · rw [contains_iff_find, contains_iff_find, e]

example : ∃ m : KV, Uniq m.items ∧ m.popStringAlt "a".toList "b".toList [] = some ("1".toList, ⟨[], true⟩) :=
  ⟨⟨[("A".toList, "1".toList)], false⟩, by simp [Uniq], by decide⟩

/-- C03. `set` on a known key changes only its value: every entry keeps its position and its spelling, and all other
entries are untouched. -/
theorem C03_set_in_place (m : KV) (k v : Str) (i : Nat) (it : Str × Str) (hi : m.items[i]? = some it) :
    ∃ it', (m.set k v).items[i]? = some it' ∧ it'.1 = it.1 ∧ (it.1 = [] ∨ lk it.1 ≠ lk k → it' = it) := by
  unfold KV.set
  simp only
  generalize m.items = items at hi
  induction items generalizing i with
  | nil => simp at hi
  | cons a r ih =>
    unfold setItems
    by_cases hm : matches' k a = true
    · rw [if_pos hm]
      cases i with
      | zero =>
        simp only [List.getElem?_cons_zero, Option.some.injEq] at hi ⊢
        subst hi
        refine ⟨_, rfl, rfl, ?_⟩
        intro h
        rw [matches_iff] at hm
        rcases h with h | h
        · exact absurd h hm.1
        · exact absurd hm.2 h
      | succ i => exact ⟨it, by simpa using hi, rfl, fun _ => rfl⟩
    · rw [if_neg hm]
      cases i with
      | zero => exact ⟨it, by simpa using hi, rfl, fun _ => rfl⟩
      | succ i => simpa using ih i (by simpa using hi)

/-- C03. `set` on an unknown key appends one entry at the end. -/
theorem C03_set_appends (m : KV) (k v : Str) (h : m.contains k = false) :
    (m.set k v).items = m.items ++ [(k, v)] := by
  unfold KV.set KV.contains at *
  simp only
  generalize m.items = items at h
  induction items with
  | nil => rfl
  | cons a r ih =>
    simp only [List.any_cons, Bool.or_eq_false_iff] at h
    unfold setItems
    rw [if_neg (by simp [h.1]), ih h.2]
    rfl

end Verif.Config
