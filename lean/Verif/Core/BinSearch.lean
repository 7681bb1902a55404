import Mathlib.Data.Real.Archimedean
import Mathlib.Data.Rat.Floor
import Mathlib.Data.List.Sort
import Mathlib.Data.Int.Log
import Mathlib.Algebra.Order.Round
import Mathlib.Tactic.NormNum
import Mathlib.Tactic.Linarith

/-! Model of `math::binSearch` (/repo/src/math_core.cpp:202-233) and property theorems C11. -/
namespace Verif.BinSearch

variable {α : Type} [LinearOrder α]

/-- `arr[i]` with a signed index; `none` is an out-of-bounds read. -/
def arrAt (arr : List α) (i : Int) : Option α := if 0 ≤ i then arr[i.toNat]? else none

/-- math_core.cpp:224-231, the bisection loop (`indhi`, `index`); `none` is an out-of-bounds read or
exhausted fuel (non-termination). -/
def bisect (x : α) (arr : List α) : Nat → Int → Int → Option Int
  | fuel, index, indhi =>
    if indhi > index + 1 then
      match fuel with
      | 0 => none
      | fuel+1 =>
        let i := (indhi + index) / 2
        match arrAt arr i with
        | none => none
        | some a => if a > x then bisect x arr fuel index i else bisect x arr fuel i indhi
    else some index

/-- math_core.cpp:202-233. `x = none` is NaN. `guess` is the value of the interpolated first guess
(line 210), left open because it is subject to rounding. Result `none` is undefined behaviour
(out-of-bounds read) or non-termination. -/
def binSearch (guess : Int) (x : Option α) (arr : List α) : Option Int :=
  let size := arr.length
  if size < 1 then some (-1) else
  match x with
  | none => some (-1)                                    -- !(NaN >= arr[0])
  | some x =>
    match arrAt arr 0, arrAt arr ((size : Int) - 1) with
    | some a0, some aLast =>
      if ¬ (x ≥ a0) then some (-1) else
      if x > aLast ∨ size < 2 then some ((size : Int) - 1) else
      if guess = (size : Int) - 1 then some ((size : Int) - 2) else
      match arrAt arr guess with
      | none => none
      | some ag =>
        if x ≥ ag then
          match arrAt arr (guess + 1) with
          | none => none
          | some ag1 => if x < ag1 then some guess else bisect x arr size guess ((size : Int) - 1)
        else bisect x arr size 0 guess
    | _, _ => none

theorem arrAt_some (arr : List α) (i : Int) (h0 : 0 ≤ i) (h1 : i < arr.length) :
    ∃ a, arrAt arr i = some a ∧ arr[i.toNat]? = some a := by
  unfold arrAt
  rw [if_pos h0]
  have : i.toNat < arr.length := by omega
  exact ⟨arr[i.toNat], List.getElem?_eq_getElem this, List.getElem?_eq_getElem this⟩

/-- Loop: with valid bounds it terminates inside the array, and keeps `arr[index] ≤ x < arr[indhi]`
(the latter if it held at the start). No ordering of the array is needed. -/
theorem bisect_spec (x : α) (arr : List α) (fuel : Nat) (index indhi : Int) (h0 : 0 ≤ index)
    (h1 : index < indhi) (h2 : indhi < arr.length) (hf : indhi - index ≤ fuel + 1)
    (hlo : ∃ a, arrAt arr index = some a ∧ a ≤ x) :
    ∃ k, bisect x arr fuel index indhi = some k ∧ index ≤ k ∧ k < indhi ∧
      (∃ a, arrAt arr k = some a ∧ a ≤ x) ∧
      (k + 1 = indhi ∨ ∃ b, arrAt arr (k+1) = some b ∧ x < b) := by
  induction fuel generalizing index indhi with
  | zero =>
    unfold bisect
    have : ¬ (indhi > index + 1) := by omega
    rw [if_neg this]
    exact ⟨index, rfl, le_rfl, h1, hlo, Or.inl (by omega)⟩
  | succ fuel ih =>
    unfold bisect
    by_cases hc : indhi > index + 1
    · rw [if_pos hc]
      simp only
      have hi0 : index < (indhi + index) / 2 := by omega
      have hi1 : (indhi + index) / 2 < indhi := by omega
      generalize (indhi + index) / 2 = i at *
      obtain ⟨a, ha, _⟩ := arrAt_some arr i (by omega) (by omega)
      rw [ha]
      simp only
      by_cases hax : a > x
      · rw [if_pos hax]
        obtain ⟨k, hk, hk1, hk2, hk3, hk4⟩ := ih index i h0 hi0 (by omega) (by omega) hlo
        refine ⟨k, hk, hk1, by omega, hk3, ?_⟩
        rcases hk4 with h | h
        · right; exact ⟨a, by rw [h]; exact ha, hax⟩
        · right; exact h
      · rw [if_neg hax]
        obtain ⟨k, hk, hk1, hk2, hk3, hk4⟩ := ih i indhi (by omega) hi1 h2 (by omega) ⟨a, ha, not_lt.1 hax⟩
        exact ⟨k, hk, by omega, hk2, hk3, hk4⟩
    · rw [if_neg hc]
      exact ⟨index, rfl, le_rfl, h1, hlo, Or.inl (by omega)⟩

/-- Specification of the result for a given array: outside on the left (or NaN, or empty array),
outside on the right, or the bin containing `x`, the last bin being closed. -/
inductive IsBin (arr : List α) : Option α → Int → Prop
  | empty (x : Option α) (h : arr = []) : IsBin arr x (-1)
  | nan : IsBin arr none (-1)
  | left (x a : α) (h : arr[0]? = some a) (hx : x < a) : IsBin arr (some x) (-1)
  | right (x a : α) (h : arr[arr.length - 1]? = some a) (hx : a < x) : IsBin arr (some x) (arr.length - 1)
  | single (x a : α) (h : arr = [a]) (hx : x = a) : IsBin arr (some x) 0
  | bin (x a b : α) (k : Nat) (ha : arr[k]? = some a) (hb : arr[k+1]? = some b) (h1 : a ≤ x) (h2 : x < b) :
      IsBin arr (some x) k
  | last (x a b : α) (k : Nat) (hk : k + 2 = arr.length) (ha : arr[k]? = some a) (hb : arr[k+1]? = some b)
      (h1 : a ≤ x) (h2 : x = b) : IsBin arr (some x) k

/-- C11. Safety and termination, for any array (sorted or not) and any first guess inside it: no read
outside the array, and the result is a valid index or -1. -/
theorem C11_safe (guess : Int) (x : Option α) (arr : List α) (hg : 0 ≤ guess ∧ guess ≤ (arr.length : Int) - 1) :
    ∃ k, binSearch guess x arr = some k ∧ -1 ≤ k ∧ k ≤ (arr.length : Int) - 1 := by
  unfold binSearch
  simp only
  split
  · exact ⟨-1, rfl, by omega, by omega⟩
  · rename_i hs
    cases x with
    | none => exact ⟨-1, rfl, by omega, by omega⟩
    | some x =>
      simp only
      obtain ⟨a0, h0, _⟩ := arrAt_some arr 0 le_rfl (by omega)
      obtain ⟨aL, hL, _⟩ := arrAt_some arr ((arr.length : Int) - 1) (by omega) (by omega)
      rw [h0, hL]
      simp only
      by_cases hx0 : ¬ (x ≥ a0)
      · rw [if_pos hx0]; exact ⟨-1, rfl, by omega, by omega⟩
      · rw [if_neg hx0]
        by_cases hxL : x > aL ∨ arr.length < 2
        · rw [if_pos hxL]; exact ⟨_, rfl, by omega, by omega⟩
        · rw [if_neg hxL]
          by_cases hge : guess = (arr.length : Int) - 1
          · rw [if_pos hge]; exact ⟨_, rfl, by omega, by omega⟩
          · rw [if_neg hge]
            obtain ⟨ag, hag, _⟩ := arrAt_some arr guess hg.1 (by omega)
            rw [hag]
            simp only
            by_cases hxg : x ≥ ag
            · rw [if_pos hxg]
              obtain ⟨ag1, hag1, _⟩ := arrAt_some arr (guess+1) (by omega) (by omega)
              rw [hag1]
              simp only
              by_cases hxg1 : x < ag1
              · rw [if_pos hxg1]; exact ⟨_, rfl, by omega, by omega⟩
              · rw [if_neg hxg1]
                obtain ⟨k, hk, h1, h2, _⟩ := bisect_spec x arr arr.length guess ((arr.length : Int) - 1) hg.1
                  (by omega) (by omega) (by omega) ⟨ag, hag, hxg⟩
                exact ⟨k, hk, by omega, by omega⟩
            · rw [if_neg hxg]
              have hg0 : 0 < guess := by
                rcases hg.1.lt_or_eq with h | h
                · exact h
                · exfalso; rw [← h, h0] at hag; cases hag; exact hx0 hxg
              obtain ⟨k, hk, h1, h2, _⟩ := bisect_spec x arr arr.length 0 guess le_rfl
                  hg0 (by omega) (by omega) ⟨a0, h0, not_lt.1 (fun h => hx0 (not_le.2 h))⟩
              exact ⟨k, hk, by omega, by omega⟩

/-- C11 (with an arbitrary first guess). If the guess is inside the array, and is the last index only
when `x` is in the last bin, the result is the bin containing `x`. The array need not be sorted. -/
theorem C11_bin_of_guess (guess : Int) (x : Option α) (arr : List α)
    (hg : 0 ≤ guess ∧ guess ≤ (arr.length : Int) - 1)
    (hlast : guess = (arr.length : Int) - 1 → ∀ y, x = some y → ∀ b, arr[arr.length - 2]? = some b →
       2 ≤ arr.length → b ≤ y) :
    ∃ k, binSearch guess x arr = some k ∧ IsBin arr x k := by
  unfold binSearch
  simp only
  split
  · exact ⟨-1, rfl, IsBin.empty _ (List.length_eq_zero_iff.1 (by omega))⟩
  · rename_i hs
    cases x with
    | none => exact ⟨-1, rfl, IsBin.nan⟩
    | some x =>
      simp only
      obtain ⟨a0, h0, h0'⟩ := arrAt_some arr 0 le_rfl (by omega)
      obtain ⟨aL, hL, hL'⟩ := arrAt_some arr ((arr.length : Int) - 1) (by omega) (by omega)
      have hidx : ((arr.length : Int) - 1).toNat = arr.length - 1 := by omega
      rw [hidx] at hL'
      have h0'' : arr[0]? = some a0 := h0'
      rw [h0, hL]
      simp only
      by_cases hx0 : ¬ (x ≥ a0)
      · rw [if_pos hx0]; exact ⟨-1, rfl, IsBin.left x a0 h0'' (not_le.1 hx0)⟩
      · rw [if_neg hx0]
        rw [not_not] at hx0
        have hfin : ∀ (lo hi : Int), 0 ≤ lo → lo < hi → hi < arr.length →
            (∃ a, arrAt arr lo = some a ∧ a ≤ x) → (∃ b, arrAt arr hi = some b ∧ (x < b ∨ (x = b ∧ hi = (arr.length : Int) - 1))) →
            ∃ k, bisect x arr arr.length lo hi = some k ∧ IsBin arr (some x) k := by
          intro lo hi hlo hlh hhi hA hB
          obtain ⟨k, hk, h1, h2, ⟨a, ha, hax⟩, h4⟩ := bisect_spec x arr arr.length lo hi hlo hlh hhi (by omega) hA
          obtain ⟨n, rfl⟩ : ∃ n : Nat, k = n := ⟨k.toNat, by omega⟩
          have ha' : arr[n]? = some a := by
            unfold arrAt at ha; rw [if_pos (by omega)] at ha; simpa using ha
          refine ⟨n, hk, ?_⟩
          rcases h4 with h4 | ⟨b, hb, hxb⟩
          · obtain ⟨b, hb, hxb⟩ := hB
            rw [← h4] at hb
            have hb' : arr[n+1]? = some b := by
              unfold arrAt at hb; rw [if_pos (by omega)] at hb
              rwa [show ((n : Int) + 1).toNat = n + 1 by omega] at hb
            rcases hxb with hxb | ⟨hxb, he⟩
            · exact IsBin.bin x a b n ha' hb' hax hxb
            · exact IsBin.last x a b n (by omega) ha' hb' hax hxb
          · have hb' : arr[n+1]? = some b := by
              unfold arrAt at hb; rw [if_pos (by omega)] at hb
              rwa [show ((n : Int) + 1).toNat = n + 1 by omega] at hb
            exact IsBin.bin x a b n ha' hb' hax hxb
        by_cases hxL : x > aL ∨ arr.length < 2
        · rw [if_pos hxL]
          by_cases hgt : x > aL
          · exact ⟨_, rfl, IsBin.right x aL hL' hgt⟩
          · have h1 : arr.length = 1 := by rcases hxL with h | h; exact absurd h hgt; omega
            obtain ⟨a, rfl⟩ := List.length_eq_one_iff.1 h1
            simp only [List.getElem?_cons_zero, Option.some.injEq] at h0''
            have hL2 : a = aL := by simpa using hL'
            refine ⟨_, rfl, ?_⟩
            have : (([a] : List α).length : Int) - 1 = 0 := by simp
            rw [this]
            exact IsBin.single x a rfl (le_antisymm (by rw [hL2]; exact not_lt.1 hgt) (by rw [h0'']; exact hx0))
        · rw [if_neg hxL]
          push Not at hxL
          by_cases hge : guess = (arr.length : Int) - 1
          · rw [if_pos hge]
            obtain ⟨b, hb, hb'⟩ := arrAt_some arr ((arr.length : Int) - 2) (by omega) (by omega)
            rw [show ((arr.length : Int) - 2).toNat = arr.length - 2 by omega] at hb'
            have hbx := hlast hge x rfl b hb' hxL.2
            refine ⟨((arr.length - 2 : Nat) : Int), by congr 1; omega, ?_⟩
            have hL2 : arr[arr.length - 2 + 1]? = some aL := by
              rw [show arr.length - 2 + 1 = arr.length - 1 by omega]; exact hL'
            rcases hxL.1.lt_or_eq with h | h
            · exact IsBin.bin x b aL _ hb' hL2 hbx h
            · exact IsBin.last x b aL _ (by omega) hb' hL2 hbx h
          · rw [if_neg hge]
            obtain ⟨ag, hag, hag'⟩ := arrAt_some arr guess hg.1 (by omega)
            rw [hag]
            simp only
            have hLast : ∃ b, arrAt arr ((arr.length : Int) - 1) = some b ∧
                (x < b ∨ (x = b ∧ (arr.length : Int) - 1 = (arr.length : Int) - 1)) := by
              refine ⟨aL, hL, ?_⟩
              rcases hxL.1.lt_or_eq with h | h
              · exact Or.inl h
              · exact Or.inr ⟨h, rfl⟩
            by_cases hxg : x ≥ ag
            · rw [if_pos hxg]
              obtain ⟨ag1, hag1, hag1'⟩ := arrAt_some arr (guess+1) (by omega) (by omega)
              rw [hag1]
              simp only
              by_cases hxg1 : x < ag1
              · rw [if_pos hxg1]
                refine ⟨_, rfl, ?_⟩
                obtain ⟨n, rfl⟩ : ∃ n : Nat, guess = n := ⟨guess.toNat, by omega⟩
                refine IsBin.bin x ag ag1 n (by simpa using hag') ?_ hxg hxg1
                rwa [show ((n : Int) + 1).toNat = n + 1 by omega] at hag1'
              · rw [if_neg hxg1]
                exact hfin guess _ hg.1 (by omega) (by omega) ⟨ag, hag, hxg⟩ hLast
            · rw [if_neg hxg]
              have hg0 : 0 < guess := by
                rcases hg.1.lt_or_eq with h | h
                · exact h
                · exfalso; rw [← h, h0] at hag; cases hag; exact hxg hx0
              exact hfin 0 guess le_rfl hg0 (by omega) ⟨a0, h0, hx0⟩ ⟨ag, hag, Or.inl (not_le.1 hxg)⟩

theorem isBin_char (arr : List α) (hs : arr.Pairwise (· < ·)) (x : α) (k : Int) (h : IsBin arr (some x) k) :
    -1 ≤ k ∧ k < arr.length ∧ ∀ (i : Nat) (a : α), arr[i]? = some a →
      ((a ≤ x ∧ ¬ (x = a ∧ i + 1 = arr.length ∧ 2 ≤ arr.length)) ↔ (i : Int) ≤ k) := by
  have mono : ∀ (i j : Nat) (a b : α), i < j → arr[i]? = some a → arr[j]? = some b → a < b := by
    intro i j a b hij ha hb
    rw [List.pairwise_iff_getElem] at hs
    obtain ⟨hi, ha⟩ := List.getElem?_eq_some_iff.1 ha
    obtain ⟨hj, hb⟩ := List.getElem?_eq_some_iff.1 hb
    rw [← ha, ← hb]; exact hs i j hi hj hij
  have mono' : ∀ (i j : Nat) (a b : α), i ≤ j → arr[i]? = some a → arr[j]? = some b → a ≤ b := by
    intro i j a b hij ha hb
    rcases hij.lt_or_eq with h | h
    · exact (mono i j a b h ha hb).le
    · subst h; rw [ha] at hb; cases hb; exact le_rfl
  have len : ∀ (i : Nat) (a : α), arr[i]? = some a → i < arr.length := by
    intro i a ha; exact (List.getElem?_eq_some_iff.1 ha).1
  cases h with
  | empty _ h => subst h; simp
  | left _ a0 h0 hx =>
    refine ⟨le_rfl, by omega, fun i a ha => ⟨?_, fun h => by omega⟩⟩
    rintro ⟨h1, _⟩
    exact absurd (lt_of_lt_of_le hx (mono' 0 i a0 a (by omega) h0 ha)) (not_lt.2 h1)
  | right _ aL hL hx =>
    refine ⟨by omega, by omega, fun i a ha => ⟨fun _ => by have := len i a ha; omega, fun _ => ?_⟩⟩
    have hl := len i a ha
    have h1 := mono' i _ a aL (by omega) ha hL
    exact ⟨h1.trans hx.le, fun h => absurd (lt_of_le_of_lt h1 hx) (by rw [h.1]; exact lt_irrefl _)⟩
  | single _ a0 h0 hx =>
    subst h0
    refine ⟨by omega, by simp, fun i a ha => ?_⟩
    have hl := len i a ha
    simp only [List.length_cons, List.length_nil] at hl
    have : i = 0 := by omega
    subst this
    simp only [List.getElem?_cons_zero, Option.some.injEq] at ha
    simp [hx, ha]
  | bin _ a0 b0 n ha0 hb0 h1 h2 =>
    have hl0 := len _ _ hb0
    refine ⟨by omega, by omega, fun i a ha => ⟨?_, fun hi => ?_⟩⟩
    · rintro ⟨h3, _⟩
      by_contra hc
      exact absurd (lt_of_lt_of_le h2 (mono' (n+1) i b0 a (by omega) hb0 ha)) (not_lt.2 h3)
    · have h3 := mono' i n a a0 (by omega) ha ha0
      exact ⟨h3.trans h1, fun h => by omega⟩
  | last _ a0 b0 n hn ha0 hb0 h1 h2 =>
    refine ⟨by omega, by omega, fun i a ha => ⟨?_, fun hi => ?_⟩⟩
    · rintro ⟨h3, h4⟩
      by_contra hc
      have hl := len i a ha
      have hi : i = n + 1 := by omega
      subst hi
      rw [ha] at hb0
      cases hb0
      exact h4 ⟨h2, by omega, by omega⟩
    · have h3 := mono' i n a a0 (by omega) ha ha0
      exact ⟨h3.trans h1, fun h => by omega⟩

/-- For a strictly increasing array the specification determines the result: at most one index
satisfies it (so `IsBin` says exactly which index is returned). -/
theorem C11_bin_unique (arr : List α) (hs : arr.Pairwise (· < ·)) (x : Option α) (k k' : Int)
    (h : IsBin arr x k) (h' : IsBin arr x k') : k = k' := by
  cases x with
  | none => cases h <;> cases h' <;> rfl
  | some x =>
    obtain ⟨a1, a2, a3⟩ := isBin_char arr hs x k h
    obtain ⟨b1, b2, b3⟩ := isBin_char arr hs x k' h'
    rcases lt_trichotomy k k' with hlt | heq | hlt
    · obtain ⟨n, rfl⟩ : ∃ n : Nat, k' = n := ⟨k'.toNat, by omega⟩
      have hn : n < arr.length := by omega
      have e := List.getElem?_eq_getElem hn
      have := (a3 n _ e).1 ((b3 n _ e).2 le_rfl)
      omega
    · exact heq
    · obtain ⟨n, rfl⟩ : ∃ n : Nat, k = n := ⟨k.toNat, by omega⟩
      have hn : n < arr.length := by omega
      have e := List.getElem?_eq_getElem hn
      have := (b3 n _ e).1 ((a3 n _ e).2 le_rfl)
      omega

/-! ### The first guess -/

/-- Truncation toward zero, `static_cast<ptrdiff_t>(double)`, for a finite in-range argument. -/
noncomputable def truncR (y : ℝ) : Int := if 0 ≤ y then ⌊y⌋ else ⌈y⌉

/-- math_core.cpp:210 with every floating-point operation followed by the rounding function `rnd`. -/
noncomputable def guessR (rnd : ℝ → ℝ) (x a0 aL : ℝ) (size : Nat) : Int :=
  truncR (rnd (rnd (rnd (x - a0) / rnd (aL - a0)) * (size - 1 : ℕ)))

/-- C11. For any monotone rounding that keeps 0, 1 and the integer `size-1` (and does not flush the
total extent of the grid to zero), the first guess lies inside the array: no out-of-bounds access. -/
theorem C11_guess_in_range (rnd : ℝ → ℝ) (hm : Monotone rnd) (h0 : rnd 0 = 0) (h1 : rnd 1 = 1) (size : Nat)
    (hs : rnd (size - 1 : ℕ) = (size - 1 : ℕ)) (x a0 aL : ℝ) (hx0 : a0 ≤ x) (hxL : x ≤ aL)
    (hpos : 0 < rnd (aL - a0)) :
    0 ≤ guessR rnd x a0 aL size ∧ guessR rnd x a0 aL size ≤ (size - 1 : ℕ) := by
  have e1 : 0 ≤ rnd (x - a0) := by rw [← h0]; exact hm (by linarith)
  have e2 : rnd (x - a0) ≤ rnd (aL - a0) := hm (by linarith)
  have e3 : 0 ≤ rnd (rnd (x - a0) / rnd (aL - a0)) := by
    conv_lhs => rw [← h0]
    exact hm (div_nonneg e1 hpos.le)
  have e4 : rnd (rnd (x - a0) / rnd (aL - a0)) ≤ 1 := by
    conv_rhs => rw [← h1]
    exact hm ((div_le_one hpos).2 e2)
  have hn : (0 : ℝ) ≤ (size - 1 : ℕ) := Nat.cast_nonneg _
  have e5 : 0 ≤ rnd (rnd (rnd (x - a0) / rnd (aL - a0)) * (size - 1 : ℕ)) := by
    conv_lhs => rw [← h0]
    exact hm (mul_nonneg e3 hn)
  have e6 : rnd (rnd (rnd (x - a0) / rnd (aL - a0)) * (size - 1 : ℕ)) ≤ (size - 1 : ℕ) := by
    conv_rhs => rw [← hs]
    exact hm (mul_le_of_le_one_left hn e4)
  unfold guessR truncR
  rw [if_pos e5]
  refine ⟨Int.floor_nonneg.2 e5, ?_⟩
  have : ⌊rnd (rnd (rnd (x - a0) / rnd (aL - a0)) * (size - 1 : ℕ))⌋ ≤ ⌊((size - 1 : ℕ) : ℝ)⌋ := Int.floor_le_floor e6
  rwa [Int.floor_natCast] at this

/-- C11 in exact arithmetic (no rounding): for every strictly increasing array and every `x`
(including NaN), `binSearch` returns the index that the specification determines. -/
theorem C11_binSearch_partial (x : Option ℝ) (arr : List ℝ) (hs : arr.Pairwise (· < ·)) :
    ∃ k, binSearch (guessR id (x.getD 0) (arr.headD 0) (arr.getLastD 0) arr.length) x arr = some k ∧
      IsBin arr x k ∧ ∀ k', IsBin arr x k' → k' = k := by
  suffices h : ∃ k, binSearch (guessR id (x.getD 0) (arr.headD 0) (arr.getLastD 0) arr.length) x arr = some k ∧
      IsBin arr x k by
    obtain ⟨k, h1, h2⟩ := h
    exact ⟨k, h1, h2, fun k' h' => C11_bin_unique arr hs x k' k h' h2⟩
  generalize hg : guessR id (x.getD 0) (arr.headD 0) (arr.getLastD 0) arr.length = g
  -- outside the range of the array, or in it
  cases x with
  | none =>
    unfold binSearch
    by_cases h : arr.length < 1
    · exact ⟨-1, by simp only; rw [if_pos h], IsBin.nan⟩
    · exact ⟨-1, by simp only; rw [if_neg h], IsBin.nan⟩
  | some x =>
    by_cases hlen : arr.length < 2
    · -- the guess is not used
      have key : ∀ g', binSearch g' (some x) arr = binSearch g (some x) arr := by
        intro g'
        unfold binSearch
        simp only
        split
        · rfl
        · cases arrAt arr 0 with
          | none => rfl
          | some a =>
            cases arrAt arr ((arr.length : Int) - 1) with
            | none => rfl
            | some b =>
              simp only
              split
              · rfl
              · rw [if_pos (Or.inr hlen), if_pos (Or.inr hlen)]
      rcases Nat.eq_zero_or_pos arr.length with h0 | h0
      · exact ⟨-1, by unfold binSearch; simp [h0], IsBin.empty _ (List.length_eq_zero_iff.1 h0)⟩
      · obtain ⟨k, hk, hb⟩ := C11_bin_of_guess 0 (some x) arr ⟨le_rfl, by omega⟩ (by intro _ _ _ _ _ h; omega)
        exact ⟨k, by rw [← key 0]; exact hk, hb⟩
    · have hlen2 : 2 ≤ arr.length := by omega
      obtain ⟨a0, rest, hcons⟩ : ∃ a r, arr = a :: r := by
        cases arr with
        | nil => simp at hlen2
        | cons a r => exact ⟨a, r, rfl⟩
      have hhead : arr.headD 0 = a0 := by rw [hcons]; rfl
      have hne : arr ≠ [] := by rw [hcons]; simp
      have hlast : arr.getLastD 0 = arr[arr.length - 1] := by
        rw [List.getLastD_eq_getLast?, List.getLast?_eq_getElem?, List.getElem?_eq_getElem (by omega)]; rfl
      have h0 : arr[0]? = some a0 := by rw [hcons]; rfl
      generalize haL : arr[arr.length - 1] = aL at hlast
      have hL : arr[arr.length - 1]? = some aL := by rw [← haL, List.getElem?_eq_getElem]
      have hlt : a0 < aL := by
        rw [List.pairwise_iff_getElem] at hs
        have := hs 0 (arr.length - 1) (by omega) (by omega) (by omega)
        rw [haL] at this
        have e0 : arr[0] = a0 := by
          have := List.getElem?_eq_getElem (l := arr) (i := 0) (by omega)
          rw [h0] at this; cases this; rfl
        rwa [e0] at this
      have hA0 : arrAt arr 0 = some a0 := by unfold arrAt; rw [if_pos le_rfl]; exact h0
      have hAL : arrAt arr ((arr.length : Int) - 1) = some aL := by
        unfold arrAt; rw [if_pos (by omega), show ((arr.length : Int) - 1).toNat = arr.length - 1 by omega]; exact hL
      by_cases hx0 : x < a0
      · refine ⟨-1, ?_, IsBin.left x a0 h0 hx0⟩
        unfold binSearch
        simp only
        rw [if_neg (by omega), hA0, hAL]
        simp only
        rw [if_pos (not_le.2 hx0)]
      · by_cases hxL : aL < x
        · refine ⟨(arr.length : Int) - 1, ?_, IsBin.right x aL hL hxL⟩
          unfold binSearch
          simp only
          rw [if_neg (by omega), hA0, hAL]
          simp only
          rw [if_neg (not_not.2 (not_lt.1 hx0)), if_pos (Or.inl hxL)]
        · have hr := C11_guess_in_range id monotone_id rfl rfl arr.length rfl x a0 aL (not_lt.1 hx0) (not_lt.1 hxL)
            (by simp only [id]; linarith)
          have hg' : g = guessR id x a0 aL arr.length := by rw [← hg, hhead, hlast]; rfl
          rw [← hg'] at hr
          apply C11_bin_of_guess g (some x) arr ⟨hr.1, by omega⟩
          intro hge y hy b hb _
          cases hy
          -- the guess is the last index only if x is the last element
          have hx : x = aL := by
            by_contra hne'
            have hlt' : x < aL := lt_of_le_of_ne (not_lt.1 hxL) hne'
            have hn : (0 : ℝ) < (arr.length - 1 : ℕ) := by
              have : 0 < arr.length - 1 := by omega
              exact_mod_cast this
            have hd : 0 < aL - a0 := by linarith
            have hnn : 0 ≤ (x - a0) / (aL - a0) * (arr.length - 1 : ℕ) :=
              mul_nonneg (div_nonneg (by linarith [not_lt.1 hx0]) hd.le) hn.le
            have : g < (arr.length - 1 : ℕ) := by
              rw [hg']
              unfold guessR truncR
              simp only [id]
              rw [if_pos hnn, Int.floor_lt]
              have h1 : (x - a0) / (aL - a0) < 1 := (div_lt_one hd).2 (by linarith)
              push_cast
              nlinarith
            omega
          rw [hx]
          rw [List.pairwise_iff_getElem] at hs
          have := hs (arr.length - 2) (arr.length - 1) (by omega) (by omega) (by omega)
          rw [haL] at this
          have e0 : arr[arr.length - 2] = b := by
            have := List.getElem?_eq_getElem (l := arr) (i := arr.length - 2) (by omega)
            rw [hb] at this; cases this; rfl
          rw [e0] at this
          exact this.le

example : ([-1, 0.5, 2, 7] : List ℝ).Pairwise (· < ·) := by norm_num

/-! ### Rounding: the property is false of the code with IEEE doubles -/

/-- Round to nearest, ties to even, to 53 significant bits (IEEE double precision without the limits
on the exponent). -/
def rne53 (q : ℚ) : ℚ :=
  if q = 0 then 0 else
  let ulp : ℚ := (2 : ℚ) ^ (Int.log 2 |q| - 52)
  let y := q / ulp
  let f := ⌊y⌋
  let r := y - f
  let n : Int := if r < 1/2 then f else if r > 1/2 then f + 1 else if f % 2 = 0 then f else f + 1
  n * ulp

/-- The first guess (line 210) in IEEE arithmetic, for a non-negative value. -/
def guess53 (x a0 aL : ℚ) (size : Nat) : Int :=
  ⌊rne53 (rne53 (rne53 (x - a0) / rne53 (aL - a0)) * (size - 1 : ℕ))⌋

/-- C11, refutation for IEEE doubles: on the strictly increasing grid {-10^16, 0, 1/2, 1} the point
x = 1/4 is assigned to the bin [1/2, 1], because both x-arr[0] and arr[3]-arr[0] round to 10^16, so the
guess is the last index and the "special case" branch returns without looking at the array. All
numbers involved are exactly representable. -/
theorem C11_refuted_rounding :
    let arr : List ℚ := [-10^16, 0, 1/2, 1]
    let x : ℚ := 1/4
    arr.Pairwise (· < ·) ∧ (∀ a ∈ x :: arr, rne53 a = a) ∧
    binSearch (guess53 x (-10^16) 1 4) (some x) arr = some 2 ∧ ¬ IsBin arr (some x) 2 := by
  refine ⟨by norm_num, by decide +kernel, by decide +kernel, ?_⟩
  intro h
  have h' : IsBin [-10^16, 0, 1/2, (1 : ℚ)] (some (1/4)) (1 : Nat) :=
    IsBin.bin _ 0 (1/2) 1 rfl rfl (by norm_num) (by norm_num)
  have := C11_bin_unique _ (by norm_num) _ _ _ h h'
  norm_num at this

end Verif.BinSearch
