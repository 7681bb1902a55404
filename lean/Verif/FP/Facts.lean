import Verif.FP.Model

/-! # Fokker-Planck solver: elements of the matrices -/

namespace Verif.FP

open Real Verif.Band Verif.Band.BandMatrix

noncomputable section

theorem set_some (M : BandMatrix ℝ) (r c : ℕ) (v : ℝ) (h : InBand M r c) :
    ∃ M', M.set r c v = some M' ∧ M'.n = M.n ∧ M'.band = M.band ∧ ∀ r' c', dense M' r' c' = if r' = r ∧ c' = c then v else dense M r' c' := by
  obtain ⟨h1, h2, -, -⟩ := C32_store_read M r c v
  obtain ⟨M', hM'⟩ := Option.isSome_iff_exists.1 (h1.2 h)
  obtain ⟨a, b, c1, d⟩ := h2 M' hM'
  refine ⟨M', hM', a, b, ?_⟩
  intro r' c'
  split
  · next e => rw [e.1, e.2, dense, c1]; rfl
  · next e => rw [dense, d r' c' (by rw [ne_eq, Prod.mk.injEq]; exact e), ← dense]

theorem foldlM_range_succ {α : Type} (f : α → ℕ → Option α) (a : α) (n : ℕ) : (List.range (n + 1)).foldlM f a = ((List.range n).foldlM f a).bind fun s => f s n := by
  rw [List.range_succ, List.foldlM_append]
  show ((List.range n).foldlM f a >>= fun s => [n].foldlM f s) = _
  congr 1
  funext s
  simp [List.foldlM]

theorem create_dense (n b : ℕ) (h : b < n) : ∃ M : BandMatrix ℝ, BandMatrix.create n b 0 = some M ∧ M.n = n ∧ M.band = b ∧ ∀ r c, dense M r c = 0 := by
  refine ⟨⟨n, b, fun _ => 0⟩, by rw [BandMatrix.create, if_neg (by omega)], rfl, rfl, ?_⟩
  intro r c
  rw [dense, at']
  split
  · split <;> rfl
  · rfl

/-- elements of the diagonal matrices -/
theorem diagMatrix_dense (n : ℕ) (hn : 2 ≤ n) (d : ℕ → ℝ) : ∃ M, diagMatrix n d = some M ∧ M.n = n ∧ M.band = 1 ∧ ∀ r c, dense M r c = if r = c ∧ r < n then d r else 0 := by
  obtain ⟨M0, e0, n0, b0, d0⟩ := create_dense n 1 (by omega)
  have key : ∀ k ≤ n, ∃ M, (List.range k).foldlM (fun M i => M.set i i (d i)) M0 = some M ∧ M.n = n ∧ M.band = 1 ∧ ∀ r c, dense M r c = if r = c ∧ r < k then d r else 0 := by
    intro k
    induction k with
    | zero => exact fun _ => ⟨M0, rfl, n0, b0, fun r c => by rw [d0, if_neg (by omega)]⟩
    | succ k ih =>
      intro hk
      obtain ⟨M, e, hMn, hMb, hd⟩ := ih (by omega)
      obtain ⟨M', e', hMn', hMb', hd'⟩ := set_some M k k (d k) ⟨by omega, by omega, by omega, by omega⟩
      refine ⟨M', by rw [foldlM_range_succ, e]; exact e', by omega, by omega, ?_⟩
      intro r c
      rw [hd', hd]
      split
      · next h => rw [if_pos (by omega), h.1]
      · next h =>
        by_cases h2 : r = c ∧ r < k
        · rw [if_pos h2, if_pos (by omega)]
        · rw [if_neg h2, if_neg (by omega)]
  obtain ⟨M, e, h⟩ := key n le_rfl
  exact ⟨M, by rw [diagMatrix, e0]; exact e, h⟩

/-! ## relaxation matrix -/

/-- diffusion coefficient divided by the step, between the nodes i and i+1 -/
def dif (gridh : ℕ → ℝ) (gridDif : ℕ → ℝ) (i : ℕ) : ℝ := gridDif i * auxGridMult gridh i

/-- ratio of advection and diffusion coefficients -/
def rat (gridh : ℕ → ℝ) (gridAdv gridDif : ℕ → ℝ) (i : ℕ) : ℝ := gridAdv i / dif gridh gridDif i

/-- the flux between the nodes i and i+1 for the given distribution function; there is none beyond the last node -/
def flux (gridh : ℕ → ℝ) (n : ℕ) (gridAdv gridDif f : ℕ → ℝ) (i : ℕ) : ℝ :=
  if i + 1 < n then dif gridh gridDif i * ((wminus (rat gridh gridAdv gridDif i) + rat gridh gridAdv gridDif i) * f (i + 1) - wminus (rat gridh gridAdv gridDif i) * f i) else 0

/-- elements of the relaxation matrix -/
def elt (gridh : ℕ → ℝ) (n : ℕ) (gridAdv gridDif : ℕ → ℝ) (r c : ℕ) : ℝ :=
  let w := rat gridh gridAdv gridDif
  if c + 1 = r ∧ r < n then dif gridh gridDif c * wminus (w c)
  else if c = r + 1 ∧ c < n then dif gridh gridDif r * (wminus (w r) + w r)
  else if r = c ∧ r < n then -((if r > 0 then dif gridh gridDif (r - 1) * (wminus (w (r - 1)) + w (r - 1)) else 0) + (if r + 1 < n then dif gridh gridDif r * wminus (w r) else 0))
  else 0

theorem relaxationMatrix_dense (gridh : ℕ → ℝ) (n : ℕ) (hn : 2 ≤ n) (gridAdv gridDif : ℕ → ℝ) :
    ∃ M, relaxationMatrix gridh n gridAdv gridDif = some M ∧ M.n = n ∧ M.band = 1 ∧ ∀ r c, dense M r c = elt gridh n gridAdv gridDif r c := by
  obtain ⟨M0, e0, n0, b0, d0⟩ := create_dense n 1 (by omega)
  set w := rat gridh gridAdv gridDif with hw
  have key : ∀ k ≤ n, ∃ s : Loop, (List.range k).foldlM (relaxStep gridh n gridAdv gridDif) ⟨M0, 0, 0, 0⟩ = some s ∧ s.mat.n = n ∧ s.mat.band = 1 ∧
      (∀ r c, dense s.mat r c = if r < k then elt gridh n gridAdv gridDif r c else 0) ∧
      (0 < k → k < n → s.difDx = dif gridh gridDif (k - 1) ∧ s.wminus = wminus (w (k - 1)) ∧ s.wplus = wminus (w (k - 1)) + w (k - 1)) ∧ (k = 0 → s.difDx = 0) := by
    intro k
    induction k with
    | zero => exact fun _ => ⟨⟨M0, 0, 0, 0⟩, rfl, n0, b0, fun r c => by rw [d0, if_neg (by omega)], fun h => absurd h (by omega), fun _ => rfl⟩
    | succ k ih =>
      intro hk
      obtain ⟨s, e, hsn, hsb, hsd, hs1, hs0⟩ := ih (by omega)
      rw [foldlM_range_succ, e, Option.bind_some]
      -- below the diagonal
      obtain ⟨M1, e1, n1, b1, d1⟩ : ∃ M', (if k > 0 then s.mat.set k (k - 1) (s.difDx * s.wminus) else some s.mat) = some M' ∧ M'.n = n ∧ M'.band = 1 ∧
          ∀ r c, dense M' r c = if k > 0 ∧ r = k ∧ c = k - 1 then s.difDx * s.wminus else dense s.mat r c := by
        by_cases h : k > 0
        · obtain ⟨M', a, b, c, d⟩ := set_some s.mat k (k - 1) (s.difDx * s.wminus) ⟨by omega, by omega, by omega, by omega⟩
          exact ⟨M', by rw [if_pos h, a], by omega, by omega, fun r' c' => by rw [d]; simp only [h, true_and]⟩
        · exact ⟨s.mat, by rw [if_neg h], hsn, hsb, fun r' c' => by simp only [h, false_and, if_false]⟩
      set nd := (if k < n - 1 then gridDif k * auxGridMult gridh k else 0) with hnd
      set nm := (if k < n - 1 then wminus (gridAdv k / nd) else 0) with hnm
      set np := (if k < n - 1 then nm + gridAdv k / nd else 0) with hnp
      obtain ⟨M2, e2, n2, b2, d2⟩ : ∃ M', (if k < n - 1 then M1.set k (k + 1) (nd * np) else some M1) = some M' ∧ M'.n = n ∧ M'.band = 1 ∧
          ∀ r c, dense M' r c = if k < n - 1 ∧ r = k ∧ c = k + 1 then nd * np else dense M1 r c := by
        by_cases h : k < n - 1
        · obtain ⟨M', a, b, c, d⟩ := set_some M1 k (k + 1) (nd * np) ⟨by omega, by omega, by omega, by omega⟩
          exact ⟨M', by rw [if_pos h, a], by omega, by omega, fun r' c' => by rw [d]; simp only [h, true_and]⟩
        · exact ⟨M1, by rw [if_neg h], n1, b1, fun r' c' => by simp only [h, false_and, if_false]⟩
      obtain ⟨M3, e3, n3, b3, d3⟩ := set_some M2 k k (-(s.difDx * s.wplus + nd * nm)) ⟨by omega, by omega, by omega, by omega⟩
      refine ⟨⟨M3, nm, np, nd⟩, ?_, by simp only; omega, by simp only; omega, ?_, ?_, by omega⟩
      · rw [relaxStep]
        simp only [← hnd, ← hnm, ← hnp, e1, Option.bind_some, e2, e3]
      · intro r c
        simp only
        rw [d3, d2, d1, hsd]
        have hk1 : k < n - 1 → nd = dif gridh gridDif k ∧ nm = wminus (w k) ∧ np = wminus (w k) + w k := by
          intro h
          have a : nd = dif gridh gridDif k := by rw [hnd, if_pos h, dif]
          have b : nm = wminus (w k) := by rw [hnm, if_pos h, a, hw, rat]
          refine ⟨a, b, ?_⟩
          rw [hnp, if_pos h, b, a, hw, rat]
        have hk0 : ¬ k < n - 1 → nd = 0 := fun h => by rw [hnd, if_neg h]
        by_cases hr : r = k
        · subst hr
          rw [if_pos (show r < r + 1 by omega), elt]
          simp only [← hw]
          by_cases c1 : c = r
          · subst c1
            rw [if_pos (by simp), if_neg (by omega), if_neg (by omega), if_pos (by omega)]
            congr 2
            · by_cases h : c > 0
              · obtain ⟨a, b, d⟩ := hs1 h (by omega)
                rw [if_pos h, a, d]
              · rw [if_neg h, hs0 (by omega), zero_mul]
            · by_cases h : c < n - 1
              · obtain ⟨a, b, d⟩ := hk1 h
                rw [if_pos (by omega), a, b]
              · rw [if_neg (by omega), hk0 h, zero_mul]
          · rw [if_neg (by omega)]
            by_cases c2 : r < n - 1 ∧ c = r + 1
            · obtain ⟨a, b, d⟩ := hk1 c2.1
              rw [if_pos (by simp; omega), if_neg (by omega), if_pos (by omega), a, d]
            · rw [if_neg (by omega)]
              by_cases c3 : r > 0 ∧ c = r - 1
              · obtain ⟨a, b, d⟩ := hs1 c3.1 (by omega)
                rw [if_pos (by simp; omega), if_pos (by omega), a, b, c3.2]
              · rw [if_neg (by omega), if_neg (by omega), if_neg (by omega), if_neg (by omega), if_neg (by omega)]
        · rw [if_neg (by omega), if_neg (by omega), if_neg (by omega)]
          by_cases h : r < k
          · rw [if_pos h, if_pos (by omega)]
          · rw [if_neg h, if_neg (by omega)]
      · intro _ hkn
        simp only [Nat.add_sub_cancel]
        have a : nd = dif gridh gridDif k := by rw [hnd, if_pos (by omega), dif]
        have b : nm = wminus (w k) := by rw [hnm, if_pos (by omega), a, hw, rat]
        refine ⟨a, b, ?_⟩
        rw [hnp, if_pos (by omega), b, a, hw, rat]
  obtain ⟨s, e, hsn, hsb, hsd, -, -⟩ := key n le_rfl
  refine ⟨s.mat, ?_, hsn, hsb, ?_⟩
  · rw [relaxationMatrix, e0]
    simp only [Option.bind_eq_bind, Option.bind_some, e]
    rfl
  · intro r c
    rw [hsd]
    split
    · rfl
    · rw [elt]
      rw [if_neg (by omega), if_neg (by omega), if_neg (by omega)]

/-- the product of the matrix and a vector -/
theorem elt_sum (gridh : ℕ → ℝ) (n : ℕ) (gridAdv gridDif f : ℕ → ℝ) (i : ℕ) (hi : i < n) :
    ∑ j ∈ Finset.range n, elt gridh n gridAdv gridDif i j * f j = flux gridh n gridAdv gridDif f i - if i > 0 then flux gridh n gridAdv gridDif f (i - 1) else 0 := by
  set w := rat gridh gridAdv gridDif with hw
  have e : ∀ j ∈ Finset.range n, elt gridh n gridAdv gridDif i j * f j =
      (if j = i - 1 then (if i > 0 then dif gridh gridDif (i - 1) * wminus (w (i - 1)) * f (i - 1) else 0) else 0) +
      ((if j = i + 1 then dif gridh gridDif i * (wminus (w i) + w i) * f (i + 1) else 0) +
      (if j = i then -((if i > 0 then dif gridh gridDif (i - 1) * (wminus (w (i - 1)) + w (i - 1)) else 0) + (if i + 1 < n then dif gridh gridDif i * wminus (w i) else 0)) * f i else 0)) := by
    intro j hj
    rw [Finset.mem_range] at hj
    rw [elt]
    simp only [← hw]
    by_cases c1 : j = i
    · subst c1
      rw [if_neg (show ¬ (j + 1 = j ∧ j < n) by omega), if_neg (show ¬ (j = j + 1 ∧ j < n) by omega), if_pos (show j = j ∧ j < n from ⟨rfl, hj⟩), if_neg (show ¬ j = j + 1 by omega), if_pos (show j = j from rfl)]
      by_cases h : j > 0
      · rw [if_neg (show ¬ j = j - 1 by omega)]; ring
      · rw [if_neg h, if_neg h]
        simp
    · by_cases c2 : j = i + 1
      · subst c2
        rw [if_neg (show ¬ (i + 1 + 1 = i ∧ i < n) by omega), if_pos (show i + 1 = i + 1 ∧ i + 1 < n from ⟨rfl, hj⟩), if_neg (show ¬ i + 1 = i - 1 by omega), if_pos (show i + 1 = i + 1 from rfl), if_neg c1]
        ring
      · rw [if_neg (show ¬ (j = i + 1 ∧ j < n) by omega), if_neg (show ¬ (i = j ∧ i < n) by omega), if_neg c2, if_neg c1]
        by_cases c3 : j + 1 = i
        · subst c3
          rw [if_pos (show j + 1 = j + 1 ∧ j + 1 < n from ⟨rfl, hi⟩), Nat.add_sub_cancel, if_pos rfl, if_pos (show j + 1 > 0 by omega)]
          ring
        · rw [if_neg (show ¬ (j + 1 = i ∧ i < n) by omega)]
          by_cases c4 : j = i - 1
          · rw [if_pos c4, if_neg (show ¬ i > 0 by omega)]; ring
          · rw [if_neg c4]; ring
  rw [Finset.sum_congr rfl e, Finset.sum_add_distrib, Finset.sum_add_distrib, Finset.sum_ite_eq' (Finset.range n), Finset.sum_ite_eq' (Finset.range n), Finset.sum_ite_eq' (Finset.range n)]
  simp only [Finset.mem_range]
  rw [if_pos (show i - 1 < n by omega), if_pos hi, flux, flux]
  simp only [← hw]
  by_cases h1 : i > 0
  · rw [if_pos h1, if_pos h1, if_pos h1, if_pos (show i - 1 + 1 < n by omega), Nat.sub_add_cancel h1]
    by_cases h2 : i + 1 < n
    · rw [if_pos h2, if_pos h2, if_pos h2]; ring
    · rw [if_neg h2, if_neg h2, if_neg h2]; ring
  · rw [if_neg h1, if_neg h1, if_neg h1]
    by_cases h2 : i + 1 < n
    · rw [if_pos h2, if_pos h2, if_pos h2]; ring
    · rw [if_neg h2, if_neg h2, if_neg h2]; ring

end

end Verif.FP
