import Verif.DensGrid.Lemmas

/-! Piecewise-linear (hat) functions of one variable -/

namespace Verif.DensGrid

open Real

noncomputable section

/-- specification: piecewise-linear function of the fractional index, which is 1 at t=i and 0 at all other integers -/
def hatA (i : ℕ) (t : ℝ) : ℝ := max 0 (1 - |t - i|)

/-- specification: piecewise-linear function, which is 1 at the k-th node of the grid and 0 at all other nodes (k=0 is the node at zero) -/
def hatR (grid : List ℝ) (k : ℕ) (x : ℝ) : ℝ :=
  max 0 (min (if k = 0 then 1 else (x - node grid (k - 1)) / (node grid k - node grid (k - 1)))
    (if k = grid.length then 1 else (node grid (k + 1) - x) / (node grid (k + 1) - node grid k)))

theorem hatA_nonneg (i : ℕ) (t : ℝ) : 0 ≤ hatA i t := le_max_left _ _
theorem hatR_nonneg (grid : List ℝ) (k : ℕ) (x : ℝ) : 0 ≤ hatR grid k x := le_max_left _ _

theorem hatA_continuous (i : ℕ) : Continuous (hatA i) := by unfold hatA; fun_prop

theorem hatR_continuous (grid : List ℝ) (k : ℕ) : Continuous (hatR grid k) := by
  unfold hatR
  refine continuous_const.max (Continuous.min ?_ ?_)
  · split_ifs
    · exact continuous_const
    · fun_prop
  · split_ifs
    · exact continuous_const
    · fun_prop

theorem hatA_lo {i : ℕ} {t : ℝ} (h1 : (i : ℝ) ≤ t) (h2 : t ≤ i + 1) : hatA i t = 1 - (t - i) := by
  rw [hatA, abs_of_nonneg (by linarith), max_eq_right (by linarith)]

theorem hatA_hi {i : ℕ} {t : ℝ} (h1 : (i : ℝ) ≤ t) (h2 : t ≤ i + 1) : hatA (i + 1) t = t - i := by
  rw [hatA, abs_of_nonpos (by push_cast; linarith), max_eq_right (by push_cast; linarith)]; push_cast; ring

theorem hatA_off {i j : ℕ} {t : ℝ} (h1 : (i : ℝ) ≤ t) (h2 : t ≤ i + 1) (hj : j ≠ i) (hj' : j ≠ i + 1) : hatA j t = 0 := by
  rw [hatA, max_eq_left]
  rcases Nat.lt_or_ge j i with h | h
  · have : (j : ℝ) + 1 ≤ i := by exact_mod_cast h
    linarith [le_abs_self (t - j)]
  · have : (i : ℝ) + 2 ≤ j := by exact_mod_cast (by omega : i + 2 ≤ j)
    linarith [neg_abs_le (t - j)]

/-- A sum of two-term type -/
theorem sum_two {n j : ℕ} (hj : j + 1 < n) (w G : ℕ → ℝ) (h : ∀ k, k < n → k ≠ j → k ≠ j + 1 → w k = 0) :
    ∑ k ∈ Finset.range n, w k * G k = w j * G j + w (j + 1) * G (j + 1) := by
  have h2 : ({j, j + 1} : Finset ℕ) ⊆ Finset.range n := by
    intro k hk
    simp only [Finset.mem_insert, Finset.mem_singleton] at hk
    rw [Finset.mem_range]; omega
  rw [← Finset.sum_subset h2, Finset.sum_pair (by omega)]
  intro k hk hk'
  simp only [Finset.mem_insert, Finset.mem_singleton, not_or] at hk'
  rw [h k (Finset.mem_range.1 hk) hk'.1 hk'.2, zero_mul]

theorem hatA_sum {S i : ℕ} {t : ℝ} (hi : i < S) (h1 : (i : ℝ) ≤ t) (h2 : t ≤ i + 1) (G : ℕ → ℝ) :
    ∑ k ∈ Finset.range (S + 1), hatA k t * G k = (1 - (t - i)) * G i + (t - i) * G (i + 1) := by
  rw [sum_two (by omega : i + 1 < S + 1) (fun k => hatA k t) G fun k _ h3 h4 => hatA_off h1 h2 h3 h4, hatA_lo h1 h2, hatA_hi h1 h2]

variable {grid : List ℝ}

/-- specification: the relative position within the segment -/
def frac (grid : List ℝ) (k : ℕ) (x : ℝ) : ℝ := (x - node grid k) / (node grid (k + 1) - node grid k)

theorem frac_range (h : okGrid grid) {k : ℕ} {x : ℝ} (hk : InSeg grid k x) : 0 ≤ frac grid k x ∧ frac grid k x ≤ 1 := by
  have hs := h.step hk.lt
  constructor
  · exact div_nonneg (by linarith [hk.lo]) (by linarith)
  · rw [frac, div_le_one (by linarith)]; linarith [hk.hi]

theorem okGrid.le (h : okGrid grid) {i j : ℕ} (hij : i ≤ j) (hj : j ≤ grid.length) : node grid i ≤ node grid j := by
  rcases Nat.lt_or_ge i j with hh | hh
  · exact (h.mono hh hj).le
  · rw [show i = j by omega]

/-- the hat functions in the closed segment -/
theorem hatR_seg (h : okGrid grid) {k : ℕ} {x : ℝ} (hk : k < grid.length) (h1 : node grid k ≤ x) (h2 : x ≤ node grid (k + 1)) :
    hatR grid k x = 1 - frac grid k x ∧ hatR grid (k + 1) x = frac grid k x ∧ ∀ i ≤ grid.length, i ≠ k → i ≠ k + 1 → hatR grid i x = 0 := by
  have hs := h.step hk
  have e : (node grid (k + 1) - x) / (node grid (k + 1) - node grid k) = 1 - frac grid k x := by
    rw [frac, eq_sub_iff_add_eq, ← add_div, div_eq_one_iff_eq (by linarith)]; ring
  have f0 : 0 ≤ frac grid k x := div_nonneg (by linarith) (by linarith)
  have f1 : frac grid k x ≤ 1 := by rw [frac, div_le_one (by linarith)]; linarith
  refine ⟨?_, ?_, ?_⟩
  · unfold hatR
    rw [if_neg hk.ne, e, min_eq_right, max_eq_right (by linarith)]
    split_ifs with h0
    · linarith
    · have hp := h.mono (by omega : k - 1 < k) hk.le
      have : 1 ≤ (x - node grid (k - 1)) / (node grid k - node grid (k - 1)) := by
        rw [le_div_iff₀ (by linarith)]; linarith
      linarith
  · unfold hatR
    rw [if_neg (by omega), Nat.add_sub_cancel]
    rw [show (x - node grid k) / (node grid (k + 1) - node grid k) = frac grid k x from rfl]
    rw [min_eq_left, max_eq_right f0]
    split_ifs with h0
    · exact f1
    · have hp := h.step (by omega : k + 1 < grid.length)
      have : 1 ≤ (node grid (k + 1 + 1) - x) / (node grid (k + 1 + 1) - node grid (k + 1)) := by
        rw [le_div_iff₀ (by linarith)]; linarith
      linarith
  · intro i hi n1 n2
    unfold hatR
    apply max_eq_left
    rcases Nat.lt_or_ge i k with hik | hik
    · refine (min_le_right _ _).trans ?_
      rw [if_neg (by omega)]
      have hp := h.step (by omega : i < grid.length)
      have := h.le (by omega : i + 1 ≤ k) hk.le
      exact div_nonpos_of_nonpos_of_nonneg (by linarith) (by linarith)
    · refine (min_le_left _ _).trans ?_
      rw [if_neg (by omega)]
      have hp := h.mono (by omega : i - 1 < i) hi
      have := h.le (by omega : k + 1 ≤ i - 1) (by omega)
      exact div_nonpos_of_nonpos_of_nonneg (by linarith) (by linarith)

theorem hatR_sum (h : okGrid grid) {k : ℕ} {x : ℝ} (hk : k < grid.length) (h1 : node grid k ≤ x) (h2 : x ≤ node grid (k + 1)) (G : ℕ → ℝ) :
    ∑ i ∈ Finset.range (grid.length + 1), hatR grid i x * G i = (1 - frac grid k x) * G k + frac grid k x * G (k + 1) := by
  obtain ⟨e1, e2, e3⟩ := hatR_seg h hk h1 h2
  rw [sum_two (by omega : k + 1 < grid.length + 1) (fun k => hatR grid k x) G fun i hi n1 n2 => e3 i (by omega) n1 n2, e1, e2]

/-- a number within the grid belongs to one of the closed segments -/
theorem exists_seg (h : okGrid grid) {x : ℝ} (h0 : 0 ≤ x) (h1 : x ≤ node grid grid.length) : ∃ k < grid.length, node grid k ≤ x ∧ x ≤ node grid (k + 1) := by
  by_contra hc
  push Not at hc
  have : ∀ k ≤ grid.length, node grid k ≤ x := by
    intro k
    induction k with
    | zero => intro _; rw [node_zero]; exact h0
    | succ k ih => intro hk; exact (hc k (by omega) (ih (by omega))).le
  have h2 := hc (grid.length - 1) (by have := h.1; omega) (this _ (by omega))
  rw [Nat.sub_add_cancel h.1] at h2
  linarith

theorem hatR_sum_one (h : okGrid grid) {x : ℝ} (h0 : 0 ≤ x) (h1 : x ≤ node grid grid.length) : ∑ i ∈ Finset.range (grid.length + 1), hatR grid i x = 1 := by
  obtain ⟨k, hk, e1, e2⟩ := exists_seg h h0 h1
  have := hatR_sum h hk e1 e2 (fun _ => 1)
  simp only [mul_one] at this
  rw [this]; ring

theorem hatA_sum_one {S : ℕ} (hS : 1 ≤ S) {t : ℝ} (h0 : 0 ≤ t) (h1 : t ≤ S) : ∑ i ∈ Finset.range (S + 1), hatA i t = 1 := by
  obtain ⟨i, -, hi, e1, e2, -⟩ := ind_range hS h0 h1
  have := hatA_sum hi e1 e2 (fun _ => 1)
  simp only [mul_one] at this
  rw [this]; ring

theorem hatA_node (i j : ℕ) : hatA i j = if i = j then 1 else 0 := by
  split_ifs with h
  · rw [h]; simp [hatA]
  · rw [hatA, max_eq_left]
    rcases Nat.lt_or_ge i j with h' | h'
    · have : (i : ℝ) + 1 ≤ j := by exact_mod_cast h'
      linarith [le_abs_self ((j : ℝ) - i)]
    · have : (j : ℝ) + 1 ≤ i := by exact_mod_cast (by omega : j + 1 ≤ i)
      linarith [neg_abs_le ((j : ℝ) - i)]

theorem hatR_node (h : okGrid grid) {i j : ℕ} (hi : i ≤ grid.length) (hj : j ≤ grid.length) : hatR grid i (node grid j) = if i = j then 1 else 0 := by
  have hn := h.1
  rcases Nat.lt_or_ge j grid.length with hj' | hj'
  · obtain ⟨e1, e2, e3⟩ := hatR_seg h hj' le_rfl (h.step hj').le
    have f0 : frac grid j (node grid j) = 0 := by simp [frac]
    split_ifs with hij
    · rw [hij, e1, f0]; ring
    · by_cases h1 : i = j + 1
      · rw [h1, e2, f0]
      · exact e3 i hi hij h1
  · have hjn : j = grid.length := by omega
    have hs := h.step (by omega : j - 1 < grid.length)
    rw [Nat.sub_add_cancel (by omega)] at hs
    obtain ⟨e1, e2, e3⟩ := hatR_seg h (by omega : j - 1 < grid.length) (x := node grid j) hs.le (by rw [Nat.sub_add_cancel (by omega)])
    have f1 : frac grid (j - 1) (node grid j) = 1 := by
      rw [frac, Nat.sub_add_cancel (by omega)]; exact div_self (by linarith)
    rw [Nat.sub_add_cancel (by omega)] at e2
    split_ifs with hij
    · rw [hij, e2, f1]
    · by_cases h1 : i = j - 1
      · rw [h1, e1, f1]; ring
      · exact e3 i hi h1 (by omega)

end

end Verif.DensGrid
