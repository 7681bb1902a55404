import Verif.FP.Facts
import Mathlib.LinearAlgebra.Matrix.ToLinearEquiv

/-! # Fokker-Planck solver: the linear system of one step -/

namespace Verif.FP

open Real Verif.Band Verif.Band.BandMatrix

noncomputable section

theorem zeroFirstRow_dense (M : BandMatrix ℝ) (h : M.band < M.n) : ∃ M', zeroFirstRow M = some M' ∧ M'.n = M.n ∧ M'.band = M.band ∧ ∀ r c, dense M' r c = if r = 0 then 0 else dense M r c := by
  have key : ∀ k ≤ M.band + 1, ∃ M', (List.range k).foldlM (fun M b => M.set 0 b 0) M = some M' ∧ M'.n = M.n ∧ M'.band = M.band ∧ ∀ r c, dense M' r c = if r = 0 ∧ c < k then 0 else dense M r c := by
    intro k
    induction k with
    | zero => exact fun _ => ⟨M, rfl, rfl, rfl, fun r c => by rw [if_neg (by omega)]⟩
    | succ k ih =>
      intro hk
      obtain ⟨M1, e, n1, b1, d1⟩ := ih (by omega)
      obtain ⟨M2, e2, n2, b2, d2⟩ := set_some M1 0 k 0 ⟨by omega, by omega, by omega, by omega⟩
      refine ⟨M2, by rw [foldlM_range_succ, e]; exact e2, by omega, by omega, ?_⟩
      intro r c
      rw [d2, d1]
      by_cases h1 : r = 0 ∧ c = k
      · rw [if_pos h1, if_pos (by omega)]
      · rw [if_neg h1]
        by_cases h2 : r = 0 ∧ c < k
        · rw [if_pos h2, if_pos (by omega)]
        · rw [if_neg h2, if_neg (by omega)]
  obtain ⟨M', e, n', b', d'⟩ := key _ le_rfl
  refine ⟨M', e, n', b', ?_⟩
  intro r c
  rw [d']
  by_cases h0 : r = 0
  · rw [if_pos h0]
    by_cases h1 : c < M.band + 1
    · rw [if_pos ⟨h0, h1⟩]
    · rw [if_neg (by omega), dense_off]
      rintro ⟨-, -, h3, -⟩
      omega
  · rw [if_neg (by omega), if_neg h0]

theorem boundary_dense (n : ℕ) (hn : 2 ≤ n) (a : Bool) (f : ℕ → ℝ) (M : BandMatrix ℝ) (hM : M.n = n) (hb : M.band < n) (rhs : ℕ → ℝ) :
    ∃ s, boundary n a f M.band M rhs = some s ∧ s.1.n = n ∧ s.1.band = M.band ∧
      (∀ r c, dense s.1 r c = if r = n - 1 then (if c = n - 1 then 1 else 0) else if a = true ∧ r = 0 then (if c = 0 then 1 else 0) else dense M r c) ∧
      (∀ i, s.2 i = if i = n - 1 then f (n - 1) else if a = true ∧ i = 0 then f 0 else rhs i) := by
  have key : ∀ k ≤ M.band + 1, ∃ s, (List.range k).foldlM (fun s b =>
      (s.1.set (n - 1) (n - 1 - b) (if b = 0 then 1 else 0)).bind fun lhs =>
      let rhs := Function.update s.2 (n - 1) (f (n - 1))
      if a then (lhs.set 0 b (if b = 0 then 1 else 0)).bind fun lhs => some (lhs, Function.update rhs 0 (f 0))
      else some (lhs, rhs)) (M, rhs) = some s ∧ s.1.n = n ∧ s.1.band = M.band ∧
      (∀ r c, dense s.1 r c = if r = n - 1 ∧ n ≤ c + k ∧ c < n then (if c = n - 1 then 1 else 0) else if (a = true ∧ r = 0) ∧ c < k then (if c = 0 then 1 else 0) else dense M r c) ∧
      (∀ i, s.2 i = if i = n - 1 ∧ 0 < k then f (n - 1) else if (a = true ∧ i = 0) ∧ 0 < k then f 0 else rhs i) := by
    intro k
    induction k with
    | zero =>
      refine fun _ => ⟨(M, rhs), rfl, hM, rfl, fun r c => ?_, fun i => ?_⟩
      · rw [if_neg (by omega), if_neg (by omega)]
      · rw [if_neg (by omega), if_neg (by omega)]
    | succ k ih =>
      intro hk
      obtain ⟨s, e, n1, b1, d1, r1⟩ := ih (by omega)
      obtain ⟨M2, e2, n2, b2, d2⟩ := set_some s.1 (n - 1) (n - 1 - k) (if k = 0 then 1 else 0) ⟨by omega, by omega, by omega, by omega⟩
      rw [foldlM_range_succ, e, Option.bind_some, e2, Option.bind_some]
      cases a with
      | false =>
        refine ⟨(M2, Function.update s.2 (n - 1) (f (n - 1))), rfl, by simp only; omega, by simp only; omega, ?_, ?_⟩
        · intro r c
          simp only
          rw [d2, d1]
          simp only [Bool.false_eq_true, false_and, if_false]
          by_cases h1 : r = n - 1 ∧ c = n - 1 - k
          · rw [if_pos h1, if_pos (show r = n - 1 ∧ n ≤ c + (k + 1) ∧ c < n by omega)]
            by_cases hk0 : k = 0
            · rw [if_pos hk0, if_pos (by omega)]
            · rw [if_neg hk0, if_neg (by omega)]
          · rw [if_neg h1]
            by_cases h2 : r = n - 1 ∧ n ≤ c + k ∧ c < n
            · rw [if_pos h2, if_pos (show r = n - 1 ∧ n ≤ c + (k + 1) ∧ c < n by omega)]
            · rw [if_neg h2, if_neg (by omega)]
        · intro i
          simp only [Bool.false_eq_true, false_and, if_false]
          by_cases hi : i = n - 1
          · rw [hi, Function.update_self, if_pos (by omega)]
          · rw [Function.update_of_ne hi, r1]
            simp [hi]
      | true =>
        obtain ⟨M3, e3, n3, b3, d3⟩ := set_some M2 0 k (if k = 0 then 1 else 0) ⟨by omega, by omega, by omega, by omega⟩
        simp only [if_true, e3, Option.bind_some]
        refine ⟨_, rfl, by simp only; omega, by simp only; omega, ?_, ?_⟩
        · intro r c
          simp only
          rw [d3, d2, d1]
          simp only [true_and]
          by_cases h0 : r = 0 ∧ c = k
          · rw [if_pos h0, if_neg (show ¬ (r = n - 1 ∧ n ≤ c + (k + 1) ∧ c < n) by omega), if_pos (show r = 0 ∧ c < k + 1 by omega), h0.2]
          · rw [if_neg h0]
            by_cases h1 : r = n - 1 ∧ c = n - 1 - k
            · rw [if_pos h1, if_pos (show r = n - 1 ∧ n ≤ c + (k + 1) ∧ c < n by omega)]
              by_cases hk0 : k = 0
              · rw [if_pos hk0, if_pos (by omega)]
              · rw [if_neg hk0, if_neg (by omega)]
            · rw [if_neg h1]
              by_cases h2 : r = n - 1 ∧ n ≤ c + k ∧ c < n
              · rw [if_pos h2, if_pos (show r = n - 1 ∧ n ≤ c + (k + 1) ∧ c < n by omega)]
              · rw [if_neg h2, if_neg (show ¬ (r = n - 1 ∧ n ≤ c + (k + 1) ∧ c < n) by omega)]
                by_cases h3 : r = 0 ∧ c < k
                · rw [if_pos h3, if_pos (show r = 0 ∧ c < k + 1 by omega)]
                · rw [if_neg h3, if_neg (show ¬ (r = 0 ∧ c < k + 1) by omega)]
        · intro i
          simp only [true_and]
          by_cases hi0 : i = 0
          · rw [hi0, Function.update_self, if_neg (by omega), if_pos (by omega)]
          · rw [Function.update_of_ne hi0]
            by_cases hi : i = n - 1
            · rw [hi, Function.update_self, if_pos (by omega)]
            · rw [Function.update_of_ne hi, r1]
              simp [hi, hi0]
  obtain ⟨s, e, n', b', d', r'⟩ := key _ le_rfl
  refine ⟨s, e, n', b', ?_, ?_⟩
  · intro r c
    rw [d']
    by_cases h1 : r = n - 1
    · rw [if_pos h1]
      by_cases h2 : n ≤ c + (M.band + 1) ∧ c < n
      · rw [if_pos ⟨h1, h2⟩]
      · rw [if_neg (by omega), if_neg (by omega), if_neg (show ¬ c = n - 1 by omega), dense_off]
        rintro ⟨h3, h4, h5, h6⟩
        omega
    · rw [if_neg (by omega), if_neg h1]
      by_cases h2 : a = true ∧ r = 0
      · rw [if_pos h2]
        by_cases h3 : c < M.band + 1
        · rw [if_pos ⟨h2, h3⟩]
        · rw [if_neg (fun h => h3 h.2), if_neg (show ¬ c = 0 by omega), dense_off]
          rintro ⟨h3, h4, h5, h6⟩
          omega
      · rw [if_neg (fun h => h2 h.1), if_neg h2]
  · intro i
    rw [r']
    simp only [Nat.succ_pos, and_true]

/-- sizes of the arrays agree -/
structure Sizes (p : Input) (useCorr : Bool) : Prop where
  dim : 2 ≤ p.dim
  weight : p.weight.n = p.dim
  band : p.weight.band < p.dim
  relax : p.relax.n = p.dim ∧ p.relax.band = p.weight.band
  prev : useCorr = true → p.prevRelax.n = p.dim ∧ p.prevRelax.band = p.weight.band
  drain : p.absorbing = true → p.drain.n = p.dim ∧ p.drain.band = p.weight.band

/-- product of a matrix and a vector -/
def mv (M : BandMatrix ℝ) (n : ℕ) (x : ℕ → ℝ) (i : ℕ) : ℝ := ∑ j ∈ Finset.range n, dense M i j * x j

/-- the correction term in the equation number i -/
def corr (p : Input) (useCorr : Bool) (dt prevdt : ℝ) (i : ℕ) : ℝ :=
  if useCorr = true ∧ i ≠ 0 then dt ^ 2 / prevdt * (mv p.relax p.dim p.gridf i - mv p.prevRelax p.dim p.gridf i) else 0

/-- the source term in the equation number i -/
def src (p : Input) (i : ℕ) : ℝ := if p.sourceRate > 0 then p.gridSourceRate i else 0

/-- the elements of the matrix without boundary conditions -/
def lhs0 (p : Input) (dt : ℝ) (r c : ℕ) : ℝ := dense p.weight r c - dt * dense p.relax r c - if p.absorbing = true then dt * dense p.drain r c else 0

theorem assemble_dense (p : Input) (u : Bool) (dt prevdt : ℝ) (h : Sizes p u) :
    ∃ s, assemble p u dt prevdt = some s ∧ s.1.n = p.dim ∧ s.1.band = p.weight.band ∧
      (∀ r c, dense s.1 r c = if r = p.dim - 1 then (if c = p.dim - 1 then 1 else 0) else if p.absorbing = true ∧ r = 0 then (if c = 0 then 1 else 0) else lhs0 p dt r c) ∧
      (∀ i < p.dim, s.2 i = if i = p.dim - 1 then p.gridf (p.dim - 1) else if p.absorbing = true ∧ i = 0 then p.gridf 0 else
        mv p.weight p.dim p.gridf i + corr p u dt prevdt i + dt * src p i) := by
  obtain ⟨hd, hw, hb, hr, hp, hdr⟩ := h
  -- left-hand side
  obtain ⟨L1, eL1⟩ := Option.isSome_iff_exists.1 ((C33_daxpy (-dt) p.relax p.weight).1.1 ⟨by omega, by omega⟩)
  obtain ⟨nL1, bL1, dL1⟩ := (C33_daxpy (-dt) p.relax p.weight).2 L1 eL1
  -- right-hand side with the correction
  set rhs0 := dgemv false 1 p.weight p.gridf 0 (fun _ => 0) with hrhs0
  have er0 : ∀ i < p.dim, rhs0 i = mv p.weight p.dim p.gridf i := by
    intro i hi
    rw [hrhs0, C33_dgemv _ _ _ _ _ _ _ (by omega), mv, hw]
    simp
  obtain ⟨rhs1, e1, er1⟩ : ∃ rhs1, (if u = true then
      (daxpy (-1) p.relax p.prevRelax).bind fun deltaRel =>
      (zeroFirstRow deltaRel).bind fun deltaRel =>
      some (dgemv false (-dt ^ 2 / prevdt) deltaRel p.gridf 1 rhs0)
    else some rhs0) = some rhs1 ∧ ∀ i < p.dim, rhs1 i = mv p.weight p.dim p.gridf i + corr p u dt prevdt i := by
    cases u with
    | false =>
      refine ⟨rhs0, rfl, fun i hi => ?_⟩
      rw [er0 i hi, corr]
      simp
    | true =>
      obtain ⟨hp1, hp2⟩ := hp rfl
      obtain ⟨D1, eD1⟩ := Option.isSome_iff_exists.1 ((C33_daxpy (-1) p.relax p.prevRelax).1.1 ⟨by omega, by omega⟩)
      obtain ⟨nD1, bD1, dD1⟩ := (C33_daxpy (-1) p.relax p.prevRelax).2 D1 eD1
      obtain ⟨D2, eD2, nD2, bD2, dD2⟩ := zeroFirstRow_dense D1 (by omega)
      refine ⟨dgemv false (-dt ^ 2 / prevdt) D2 p.gridf 1 rhs0, ?_, fun i hi => ?_⟩
      · rw [if_pos rfl, eD1, Option.bind_some, eD2, Option.bind_some]
      · rw [C33_dgemv _ _ _ _ _ _ _ (by omega), er0 i hi, corr, show D2.n = p.dim by omega]
        simp only [Bool.false_eq_true, if_false, dD2, dD1, true_and, one_mul]
        by_cases hi0 : i = 0
        · simp [hi0]
        · simp only [hi0, if_false, ne_eq, not_false_iff, if_true, mv, add_mul, Finset.sum_add_distrib, neg_mul, one_mul, Finset.sum_neg_distrib]
          ring
  -- loss cone
  obtain ⟨L2, eL2, nL2, bL2, dL2⟩ : ∃ L2, (if p.absorbing = true then daxpy (-dt) p.drain L1 else some L1) = some L2 ∧ L2.n = p.dim ∧ L2.band = p.weight.band ∧ ∀ r c, dense L2 r c = lhs0 p dt r c := by
    by_cases ha : p.absorbing = true
    · obtain ⟨h1, h2⟩ := hdr ha
      obtain ⟨L2, eL2⟩ := Option.isSome_iff_exists.1 ((C33_daxpy (-dt) p.drain L1).1.1 ⟨by omega, by omega⟩)
      obtain ⟨nL2, bL2, dL2⟩ := (C33_daxpy (-dt) p.drain L1).2 L2 eL2
      refine ⟨L2, by rw [if_pos ha, eL2], by omega, by omega, fun r c => ?_⟩
      rw [dL2, dL1, lhs0, if_pos ha]
      ring
    · refine ⟨L1, by rw [if_neg ha], by omega, by omega, fun r c => ?_⟩
      rw [dL1, lhs0, if_neg ha]
      ring
  set rhs2 : ℕ → ℝ := if p.sourceRate > 0 then fun i => rhs1 i + dt * p.gridSourceRate i else rhs1 with hrhs2
  have er2 : ∀ i < p.dim, rhs2 i = mv p.weight p.dim p.gridf i + corr p u dt prevdt i + dt * src p i := by
    intro i hi
    rw [hrhs2, src]
    split
    · simp only [er1 i hi]
    · rw [er1 i hi, mul_zero, add_zero]
  obtain ⟨s, es, n', b', d', r'⟩ := boundary_dense p.dim hd p.absorbing p.gridf L2 nL2 (by omega) rhs2
  refine ⟨s, ?_, n', by omega, ?_, ?_⟩
  · rw [assemble, eL1, Option.bind_some]
    simp only [← hrhs0]
    rw [e1, Option.bind_some, eL2, Option.bind_some]
    simp only [← hrhs2]
    rw [← bL2]
    exact es
  · intro r c
    rw [d', dL2]
  · intro i hi
    rw [r', er2 i hi]

/-! ## matrices with non-positive elements off the diagonal -/

/-- if the elements off the diagonal are non-positive and the sums of columns are positive then a vector is non-negative if its image is; the rows in the set `D` are replaced by conditions on the vector -/
theorem mmatrix_nonneg (n : ℕ) (A : ℕ → ℕ → ℝ) (x : ℕ → ℝ) (D : ℕ → Prop) (hoff : ∀ i < n, ∀ j < n, i ≠ j → A i j ≤ 0) (hcol : ∀ j < n, 0 < ∑ i ∈ Finset.range n, A i j)
    (hD : ∀ i < n, D i → 0 ≤ x i) (hA : ∀ i < n, ¬ D i → 0 ≤ ∑ j ∈ Finset.range n, A i j * x j) : ∀ i < n, 0 ≤ x i := by
  classical
  set N := (Finset.range n).filter (fun i => x i < 0) with hN
  have memN : ∀ i, i ∈ N ↔ i < n ∧ x i < 0 := fun i => by rw [hN, Finset.mem_filter, Finset.mem_range]
  intro i0 hi0
  by_contra hneg
  push Not at hneg
  have h0 : i0 ∈ N := (memN i0).2 ⟨hi0, hneg⟩
  have hS : 0 ≤ ∑ i ∈ N, ∑ j ∈ Finset.range n, A i j * x j := by
    apply Finset.sum_nonneg
    intro i hi
    obtain ⟨a, b⟩ := (memN i).1 hi
    exact hA i a (fun hd => absurd (hD i a hd) (not_le.2 b))
  rw [Finset.sum_comm] at hS
  have hneg2 : ∑ j ∈ Finset.range n, ∑ i ∈ N, A i j * x j < 0 := by
    have cN : ∀ j ∈ N, 0 < ∑ i ∈ N, A i j := by
      intro j hj
      obtain ⟨a, b⟩ := (memN j).1 hj
      refine lt_of_lt_of_le (hcol j a) ?_
      have hsub : N ⊆ Finset.range n := Finset.filter_subset _ _
      rw [← Finset.sum_sdiff hsub]
      have : ∑ i ∈ Finset.range n \ N, A i j ≤ 0 := by
        apply Finset.sum_nonpos
        intro i hi
        rw [Finset.mem_sdiff, Finset.mem_range] at hi
        exact hoff i hi.1 j a (fun e => hi.2 (e ▸ hj))
      linarith
    apply Finset.sum_neg'
    · intro j hj
      rw [Finset.mem_range] at hj
      rw [← Finset.sum_mul]
      by_cases hx : x j < 0
      · exact (mul_neg_of_pos_of_neg (cN j ((memN j).2 ⟨hj, hx⟩)) hx).le
      · apply mul_nonpos_of_nonpos_of_nonneg _ (not_lt.1 hx)
        apply Finset.sum_nonpos
        intro i hi
        obtain ⟨a, b⟩ := (memN i).1 hi
        exact hoff i a j hj (fun e => hx (e ▸ b))
    · refine ⟨i0, Finset.mem_range.2 hi0, ?_⟩
      rw [← Finset.sum_mul]
      exact mul_neg_of_pos_of_neg (cN i0 h0) hneg
  linarith

end

end Verif.FP
