import Verif.DensGrid.Model
import Mathlib.Analysis.SpecialFunctions.Trigonometric.Arctan

/-! Spatial discretization schemes: lemmas -/

namespace Verif.DensGrid

open Real Verif.Coord Verif.BinSearch

noncomputable section

/-- specification: the nodes of the grid, including the implied one at zero -/
def node (grid : List ℝ) (i : ℕ) : ℝ := if i = 0 then 0 else grid.getD (i - 1) 0

/-- specification: the k-th segment [node k, node (k+1)] of the grid contains x; the segments include the left end, and the last one includes the right end, unless it is the only one -/
structure InSeg (grid : List ℝ) (k : ℕ) (x : ℝ) : Prop where
  lt : k < grid.length
  lo : node grid k ≤ x
  hi : x ≤ node grid (k + 1)
  last : x = node grid (k + 1) → k + 1 = grid.length ∧ 2 ≤ grid.length

/-- specification: x is outside the grid -/
def Outside (grid : List ℝ) (x : ℝ) : Prop := node grid grid.length ≤ x ∧ (x = node grid grid.length → grid.length = 1)

theorem at'_nat (grid : List ℝ) (i : ℕ) : at' grid i = grid.getD i 0 := by
  simp [at', arrAt, List.getD_eq_getElem?_getD]

theorem at'_pred (grid : List ℝ) {i : ℕ} (h : 0 < i) : at' grid ((i : ℤ) - 1) = node grid i := by
  rw [show (i : ℤ) - 1 = ((i - 1 : ℕ) : ℤ) by omega, at'_nat, node, if_neg (by omega)]

theorem at'_succ (grid : List ℝ) (i : ℕ) : at' grid i = node grid (i + 1) := by
  rw [at'_nat, node, if_neg (by omega)]; rfl

theorem node_zero (grid : List ℝ) : node grid 0 = 0 := by simp [node]

variable {grid : List ℝ}

theorem okGrid.pos (h : okGrid grid) : 0 < node grid 1 := by
  have := h.2.1
  rwa [show (0 : ℤ) = ((0 : ℕ) : ℤ) from rfl, at'_succ] at this

theorem okGrid.step (h : okGrid grid) {i : ℕ} (hi : i < grid.length) : node grid i < node grid (i + 1) := by
  rcases Nat.eq_zero_or_pos i with h0 | h0
  · rw [h0, node_zero]; exact h.pos
  · have := h.2.2 i h0 hi
    rw [at'_succ, at'_succ, Nat.sub_add_cancel h0] at this
    exact this

theorem okGrid.mono (h : okGrid grid) {i j : ℕ} (hij : i < j) (hj : j ≤ grid.length) : node grid i < node grid j := by
  induction j, hij using Nat.le_induction with
  | base => exact h.step hj
  | succ j hij ih => exact (ih (by omega)).trans (h.step hj)

theorem node_get (grid : List ℝ) {i : ℕ} (hi : i < grid.length) : node grid (i + 1) = grid[i] := by
  rw [node, if_neg (by omega), Nat.add_sub_cancel]; simp [List.getD_eq_getElem?_getD, hi]

theorem okGrid.pairwise (h : okGrid grid) : grid.Pairwise (· < ·) := by
  rw [List.pairwise_iff_getElem]
  intro i j hi hj hij
  rw [← node_get grid hi, ← node_get grid hj]
  exact h.mono (by omega) (by omega)

/-- The search returns the segment which contains the number -/
theorem locate_spec (h : okGrid grid) {x : ℝ} (hx : 0 ≤ x) : ∃ k : ℕ, locate grid x = k ∧ (InSeg grid k x ∨ (k = grid.length ∧ Outside grid x)) := by
  obtain ⟨k, hk, hb, -⟩ := C11_binSearch_partial (some x) grid h.pairwise
  have hloc : locate grid x = k + 1 := by
    rw [locate]
    simp only [Option.getD_some] at hk
    rw [hk]; rfl
  have hn := h.1
  have get : ∀ {i : ℕ} {a : ℝ}, grid[i]? = some a → i < grid.length ∧ node grid (i + 1) = a := by
    intro i a ha
    obtain ⟨h1, h2⟩ := List.getElem?_eq_some_iff.1 ha
    exact ⟨h1, by rw [node_get grid h1, h2]⟩
  cases hb with
  | empty _ he => rw [he] at hn; simp at hn
  | left _ a ha hxa =>
    obtain ⟨h1, h2⟩ := get ha
    rw [zero_add] at h2
    exact ⟨0, by rw [hloc]; rfl, Or.inl ⟨h1, by rw [node_zero]; exact hx, by rw [zero_add, h2]; exact hxa.le, fun h => by rw [zero_add, h2] at h; exact absurd h hxa.ne⟩⟩
  | right _ a ha hxa =>
    obtain ⟨h1, h2⟩ := get ha
    rw [Nat.sub_add_cancel hn] at h2
    refine ⟨grid.length, by rw [hloc]; omega, Or.inr ⟨rfl, by rw [h2]; exact hxa.le, fun h => ?_⟩⟩
    rw [h2] at h; exact absurd h hxa.ne'
  | single _ a ha hxa =>
    have hl : grid.length = 1 := by rw [ha]; rfl
    refine ⟨grid.length, by rw [hloc, hl]; rfl, Or.inr ⟨rfl, ?_, fun _ => hl⟩⟩
    rw [hxa, hl, ha]; simp [node]
  | bin _ a b k ha hb h1 h2 =>
    obtain ⟨e1, e2⟩ := get ha
    obtain ⟨e3, e4⟩ := get hb
    exact ⟨k + 1, by rw [hloc]; rfl, Or.inl ⟨e3, by rw [e2]; exact h1, by rw [e4]; exact h2.le, fun h => by rw [e4] at h; exact absurd h h2.ne⟩⟩
  | last _ a b k hk' ha hb h1 h2 =>
    obtain ⟨e1, e2⟩ := get ha
    obtain ⟨e3, e4⟩ := get hb
    exact ⟨k + 1, by rw [hloc]; rfl, Or.inl ⟨e3, by rw [e2]; exact h1, by rw [e4]; exact h2.le, fun _ => ⟨by omega, by omega⟩⟩⟩

theorem seg_unique (h : okGrid grid) {x : ℝ} {k k' : ℕ} (h1 : InSeg grid k x) (h2 : InSeg grid k' x) : k = k' := by
  have key : ∀ {k k' : ℕ}, InSeg grid k x → InSeg grid k' x → ¬ k < k' := by
    intro k k' h1 h2 hlt
    have h3 : node grid (k + 1) ≤ node grid k' := by
      rcases Nat.lt_or_ge (k + 1) k' with hh | hh
      · exact (h.mono hh h2.lt.le).le
      · rw [show k + 1 = k' by omega]
    have h4 := h1.last (le_antisymm h1.hi (h3.trans h2.lo))
    have := h2.lt
    omega
  exact le_antisymm (not_lt.1 (key h2 h1)) (not_lt.1 (key h1 h2))

theorem seg_not_outside (h : okGrid grid) {x : ℝ} {k : ℕ} (h1 : InSeg grid k x) : ¬ Outside grid x := by
  rintro ⟨h2, h3⟩
  rcases Nat.lt_or_ge (k + 1) grid.length with hh | hh
  · have := h.mono hh le_rfl
    linarith [h1.hi]
  · have : k + 1 = grid.length := by have := h1.lt; omega
    have h4 : x = node grid (k + 1) := le_antisymm h1.hi (by rw [this]; exact h2)
    have h5 := h1.last h4
    have h6 := h3 (by rw [h4, this])
    omega

theorem locate_seg (h : okGrid grid) {x : ℝ} {k : ℕ} (h1 : InSeg grid k x) : locate grid x = k := by
  have hx : 0 ≤ x := by
    refine le_trans ?_ h1.lo
    rcases Nat.eq_zero_or_pos k with hk | hk
    · rw [hk, node_zero]
    · rw [← node_zero grid]; exact (h.mono hk h1.lt.le).le
  obtain ⟨k', e1, e2 | ⟨-, e2⟩⟩ := locate_spec h hx
  · rw [e1, seg_unique h h1 e2]
  · exact absurd e2 (seg_not_outside h h1)

theorem locate_outside (h : okGrid grid) {x : ℝ} (h1 : Outside grid x) : locate grid x = grid.length := by
  have hx : 0 ≤ x := by
    refine le_trans ?_ h1.1
    rw [← node_zero grid]; exact (h.mono h.1 le_rfl).le
  obtain ⟨k', e1, e2 | ⟨e3, e2⟩⟩ := locate_spec h hx
  · exact absurd h1 (seg_not_outside h e2)
  · rw [e1, e3]

/-! ### increments -/

/-- the total increment of the k-th element of the array -/
def contrib (l : Upd) (k : ℤ) : ℝ := ((l.filter fun u => u.1 = k).map Prod.snd).sum

theorem contrib_nil (k : ℤ) : contrib [] k = 0 := rfl
theorem contrib_cons (u : ℤ × ℝ) (l : Upd) (k : ℤ) : contrib (u :: l) k = (if u.1 = k then u.2 else 0) + contrib l k := by
  unfold contrib
  by_cases h : u.1 = k <;> simp [h]
theorem contrib_append (l l' : Upd) (k : ℤ) : contrib (l ++ l') k = contrib l k + contrib l' k := by
  unfold contrib; simp

theorem applyUpd_eq (l : Upd) (v : ℤ → ℝ) (k : ℤ) : applyUpd v l k = v k + contrib l k := by
  induction l generalizing v with
  | nil => simp [applyUpd, contrib_nil]
  | cons u l ih =>
    rw [applyUpd, List.foldl_cons]
    have := ih (Function.update v u.1 (v u.1 + u.2))
    rw [applyUpd] at this
    rw [this, contrib_cons]
    by_cases h : k = u.1
    · subst h; simp; ring
    · rw [Function.update_of_ne h, if_neg (Ne.symm h)]; ring

/-- The total of all elements -/
theorem contrib_sum (l : Upd) (n : ℕ) (h : ∀ u ∈ l, 0 ≤ u.1 ∧ u.1 < n) : ∑ k ∈ Finset.range n, contrib l k = (l.map Prod.snd).sum := by
  induction l with
  | nil => simp [contrib_nil]
  | cons u l ih =>
    simp only [contrib_cons, Finset.sum_add_distrib, List.map_cons, List.sum_cons]
    rw [ih fun u hu => h u (List.mem_cons_of_mem _ hu)]
    congr 1
    obtain ⟨h1, h2⟩ := h u List.mem_cons_self
    obtain ⟨j, hj⟩ : ∃ j : ℕ, u.1 = j := ⟨u.1.toNat, by omega⟩
    rw [hj]
    simp only [Nat.cast_inj]
    rw [Finset.sum_ite_eq, if_pos (Finset.mem_range.2 (by omega))]

/-! ### panes -/

/-- specification: the scaled coordinates in cyclic order, beginning from x (pane 0), y (pane 1) or z (pane 2) -/
def cyc (X Y Z : ℝ) (p : ℕ) : ℝ × ℝ × ℝ := if p = 0 then (X, Y, Z) else if p = 1 then (Y, Z, X) else (Z, X, Y)

/-- specification: the pane is the one in which the first coordinate is the largest -/
def InPane (X Y Z : ℝ) (p : ℕ) : Prop := p < 3 ∧ (cyc X Y Z p).2.1 ≤ (cyc X Y Z p).1 ∧ (cyc X Y Z p).2.2 ≤ (cyc X Y Z p).1

theorem selectPane_spec (X Y Z : ℝ) : ∃ p : ℕ, InPane X Y Z p ∧ selectPane X Y Z = some ((p : ℤ), cyc X Y Z p) := by
  unfold selectPane
  split_ifs with h1 h2 h3
  · exact ⟨0, ⟨by omega, by simpa [cyc] using h1.1, by simpa [cyc] using h1.2.le⟩, by simp [cyc]⟩
  · exact ⟨1, ⟨by omega, by simpa [cyc] using h2.1, by simpa [cyc] using h2.2.le⟩, by simp [cyc]⟩
  · exact ⟨2, ⟨by omega, by simpa [cyc] using h3.1, by simpa [cyc] using h3.2⟩, by simp [cyc]⟩
  · exfalso
    rcases le_total X Y with a | a <;> rcases le_total Y Z with b | b <;> rcases le_total X Z with c | c
    · exact h3 ⟨c, b⟩
    · exact h3 ⟨by linarith, b⟩
    · rcases lt_or_eq_of_le a with a' | a'
      · exact h2 ⟨b, a'⟩
      · exact h3 ⟨c, by linarith⟩
    · rcases lt_or_eq_of_le a with a' | a'
      · exact h2 ⟨b, a'⟩
      · rcases lt_or_eq_of_le c with c' | c'
        · exact h1 ⟨a'.ge, c'⟩
        · exact h3 ⟨c'.ge, by linarith⟩
    · exact h3 ⟨c, b⟩
    · rcases lt_or_eq_of_le c with c' | c'
      · exact h1 ⟨a, c'⟩
      · exact h3 ⟨c'.ge, b⟩
    · rcases lt_or_eq_of_le b with b' | b'
      · exact h1 ⟨a, by linarith⟩
      · exact h3 ⟨c, b'.ge⟩
    · rcases lt_or_eq_of_le c with c' | c'
      · exact h1 ⟨a, c'⟩
      · exact h3 ⟨c'.ge, by linarith⟩

theorem ratio_range {S : ℕ} {c0 c : ℝ} (h0 : 0 ≤ c) (h1 : c ≤ c0) : 0 ≤ ratioOf S c0 c ∧ ratioOf S c0 c ≤ S := by
  unfold ratioOf
  split_ifs with h
  · simp
  · have hp : 0 < c0 := lt_of_le_of_ne (h0.trans h1) (Ne.symm h)
    have : 0 ≤ arctan (c / c0) := by rw [← arctan_zero]; exact arctan_mono (div_nonneg h0 hp.le)
    have hpi := pi_pos
    constructor
    · positivity
    · have h2 : min (arctan (c / c0) * (4 / π)) 1 ≤ 1 := min_le_right _ _
      nlinarith [(Nat.cast_nonneg S : (0 : ℝ) ≤ S)]

/-- the minimum with unity is not needed -/
theorem ratio_eq {S : ℕ} {c0 c : ℝ} (hp : 0 < c0) (h1 : c ≤ c0) : ratioOf S c0 c = arctan (c / c0) * (4 / π) * S := by
  have hpi := pi_pos
  rw [ratioOf, if_neg hp.ne', min_eq_left]
  have : arctan (c / c0) ≤ π / 4 := by
    rw [← arctan_one]; exact arctan_mono ((div_le_one hp).2 h1)
  calc arctan (c / c0) * (4 / π) ≤ π / 4 * (4 / π) := mul_le_mul_of_nonneg_right this (by positivity)
    _ = 1 := by field_simp

theorem ind_range {S : ℕ} (hS : 1 ≤ S) {ratio : ℝ} (h0 : 0 ≤ ratio) (h1 : ratio ≤ S) :
    ∃ i : ℕ, indOf S ratio = i ∧ i < S ∧ (i : ℝ) ≤ ratio ∧ ratio ≤ i + 1 ∧ (ratio = i + 1 → i + 1 = S) := by
  have hf : (0 : ℤ) ≤ ⌊ratio⌋ := Int.floor_nonneg.2 h0
  obtain ⟨n, hn⟩ : ∃ n : ℕ, ⌊ratio⌋ = n := ⟨⌊ratio⌋.toNat, by omega⟩
  have e1 : (n : ℝ) ≤ ratio := by have := Int.floor_le ratio; rwa [hn] at this
  have e2 : ratio < n + 1 := by have := Int.lt_floor_add_one ratio; rwa [hn] at this
  rcases Nat.lt_or_ge n S with h | h
  · refine ⟨n, by rw [indOf, hn]; omega, h, e1, e2.le, fun h => absurd h e2.ne⟩
  · have hS' : (S : ℝ) ≤ n := by exact_mod_cast h
    have hr : ratio = S := le_antisymm h1 (hS'.trans e1)
    refine ⟨S - 1, by rw [indOf, hn]; omega, by omega, ?_, ?_, fun _ => by omega⟩
    · rw [hr]; push_cast [hS]; linarith
    · rw [hr]; push_cast [hS]; linarith

end

end Verif.DensGrid
