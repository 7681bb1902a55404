import Mathlib.Algebra.Polynomial.Roots
import Mathlib.Algebra.Polynomial.BigOperators
import Mathlib.Data.Real.Basic
import Mathlib.Tactic

/-! C74 (first part): the coefficients of a polynomial from its values (`vandermonde<N>`, /repo/src/math_spline.cpp:371-386).
Exact real arithmetic. -/
namespace Verif.Spline

open Polynomial

noncomputable section

/-! ## Model -/

/-- math_spline.cpp:380-381, the loop over j (downwards) -/
def vdmInner1 (x : ℕ → ℝ) (N i : ℕ) (c : ℕ → ℝ) : ℕ → ℝ :=
  (List.range (N - i)).foldl (fun c m => let j := N - m; Function.update c j ((c j - c (j - 1)) / (x j - x (j - i - 1)))) c

/-- math_spline.cpp:384-385, the loop over j (upwards) -/
def vdmInner2 (x : ℕ → ℝ) (N i : ℕ) (c : ℕ → ℝ) : ℕ → ℝ :=
  (List.range' i (N - i)).foldl (fun c j => Function.update c j (c j - x i * c (j + 1))) c

/-- math_spline.cpp:376-386 -/
def vandermonde (N : ℕ) (x y : ℕ → ℝ) : ℕ → ℝ :=
  let c := (List.range N).foldl (fun c i => vdmInner1 x N i c) y
  (List.range N).foldl (fun c m => vdmInner2 x N (N - 1 - m) c) c

/-! ## The loops -/

theorem inner1_eq (x : ℕ → ℝ) (N i : ℕ) (c : ℕ → ℝ) (j : ℕ) :
    vdmInner1 x N i c j = if i < j ∧ j ≤ N then (c j - c (j - 1)) / (x j - x (j - i - 1)) else c j := by
  have key : ∀ m ≤ N - i, ∀ j, (List.range m).foldl (fun c m => let j := N - m; Function.update c j ((c j - c (j - 1)) / (x j - x (j - i - 1)))) c j =
      if N - m < j ∧ j ≤ N then (c j - c (j - 1)) / (x j - x (j - i - 1)) else c j := by
    intro m
    induction m with
    | zero => intro _ j; rw [if_neg (by omega)]; rfl
    | succ m ih =>
      intro hm j
      rw [List.range_succ, List.foldl_append, List.foldl_cons, List.foldl_nil]
      simp only [Function.update_apply]
      by_cases hj : j = N - m
      · rw [if_pos hj, ih (by omega), ih (by omega), if_neg (by omega), if_neg (by omega), if_pos (by omega), hj]
      · rw [if_neg hj, ih (by omega)]
        by_cases h2 : N - m < j ∧ j ≤ N
        · rw [if_pos h2, if_pos (by omega)]
        · rw [if_neg h2, if_neg (by omega)]
  rw [vdmInner1, key _ le_rfl]
  by_cases h : i < j ∧ j ≤ N
  · rw [if_pos h, if_pos (by omega)]
  · rw [if_neg h, if_neg (by omega)]

theorem inner2_eq (x : ℕ → ℝ) (N i : ℕ) (c : ℕ → ℝ) (j : ℕ) :
    vdmInner2 x N i c j = if i ≤ j ∧ j < N then c j - x i * c (j + 1) else c j := by
  have key : ∀ m, ∀ j, (List.range' i m).foldl (fun c j => Function.update c j (c j - x i * c (j + 1))) c j =
      if i ≤ j ∧ j < i + m then c j - x i * c (j + 1) else c j := by
    intro m
    induction m with
    | zero => intro j; rw [if_neg (by omega)]; rfl
    | succ m ih =>
      intro j
      rw [List.range'_concat, List.foldl_append, List.foldl_cons, List.foldl_nil]
      simp only [Function.update_apply, one_mul]
      by_cases hj : j = i + m
      · rw [if_pos hj, ih, ih, if_neg (by omega), if_neg (by omega), if_pos (by omega), hj]
      · rw [if_neg hj, ih]
        by_cases h2 : i ≤ j ∧ j < i + m
        · rw [if_pos h2, if_pos (by omega)]
        · rw [if_neg h2, if_neg (by omega)]
  rw [vdmInner2, key]
  by_cases h : i ≤ j ∧ j < N
  · rw [if_pos h, if_pos (by omega)]
  · rw [if_neg h, if_neg (by omega)]

/-- Divided differences over the nodes s..s+k. -/
def divDiff (x y : ℕ → ℝ) : ℕ → ℕ → ℝ
  | 0, s => y s
  | k + 1, s => (divDiff x y k (s + 1) - divDiff x y k s) / (x (s + k + 1) - x s)

theorem stage1_eq (x y : ℕ → ℝ) (N m : ℕ) (hm : m ≤ N) (j : ℕ) (hj : j ≤ N) :
    (List.range m).foldl (fun c i => vdmInner1 x N i c) y j = divDiff x y (min m j) (j - min m j) := by
  induction m generalizing j with
  | zero => simp [divDiff]
  | succ m ih =>
    rw [List.range_succ, List.foldl_append, List.foldl_cons, List.foldl_nil, inner1_eq]
    by_cases h : m < j
    · rw [if_pos ⟨h, hj⟩, ih (by omega) j hj, ih (by omega) (j - 1) (by omega), min_eq_left h.le, min_eq_left (by omega), min_eq_left (by omega),
        show j - (m + 1) = j - 1 - m by omega, divDiff, show j - 1 - m + 1 = j - m by omega, show j - 1 - m + m + 1 = j by omega,
        show j - m - 1 = j - 1 - m by omega]
    · rw [if_neg (by omega), ih (by omega) j hj, min_eq_right (by omega), min_eq_right (by omega)]

/-- Neville: an interpolating polynomial over the nodes s..s+k whose coefficient at degree k is the divided difference. -/
theorem neville (x y : ℕ → ℝ) (M : ℕ) (hx : ∀ i j, i ≤ M → j ≤ M → x i = x j → i = j) (k : ℕ) :
    ∀ s, s + k ≤ M → ∃ p : ℝ[X], p.natDegree ≤ k ∧ (∀ i ≤ k, p.eval (x (s + i)) = y (s + i)) ∧ p.coeff k = divDiff x y k s := by
  induction k with
  | zero =>
    intro s _
    refine ⟨C (y s), by simp, ?_, by simp [divDiff]⟩
    intro i hi
    obtain rfl : i = 0 := by omega
    simp
  | succ k ih =>
    intro s hs
    obtain ⟨p, p1, p2, p3⟩ := ih s (by omega)
    obtain ⟨q, q1, q2, q3⟩ := ih (s + 1) (by omega)
    have hne : x (s + k + 1) - x s ≠ 0 := by
      intro h
      have := hx (s + k + 1) s (by omega) (by omega) (by linarith)
      omega
    set w := x (s + k + 1) - x s with hw
    have d1 : ((X - C (x s)) * q).natDegree ≤ k + 1 := by
      refine natDegree_mul_le.trans ?_
      have := natDegree_X_sub_C_le (x s)
      omega
    have d2 : ((X - C (x (s + k + 1))) * p).natDegree ≤ k + 1 := by
      refine natDegree_mul_le.trans ?_
      have := natDegree_X_sub_C_le (x (s + k + 1))
      omega
    refine ⟨C w⁻¹ * ((X - C (x s)) * q - (X - C (x (s + k + 1))) * p), ?_, ?_, ?_⟩
    · refine (natDegree_C_mul_le _ _).trans ?_
      exact (natDegree_sub_le _ _).trans (max_le d1 d2)
    · intro i hi
      simp only [eval_mul, eval_C, eval_sub, eval_X]
      rcases Nat.eq_zero_or_pos i with rfl | hpos
      · rw [p2 0 (by omega), add_zero]
        have : x s - x (s + k + 1) = -w := by rw [hw]; ring
        rw [this]
        field_simp
        ring
      · have h1 := q2 (i - 1) (by omega)
        rw [show s + 1 + (i - 1) = s + i by omega] at h1
        by_cases hk : i = k + 1
        · subst hk
          rw [h1, show s + (k + 1) = s + k + 1 by ring, ← hw, sub_self, zero_mul, sub_zero, inv_mul_cancel_left₀ hne]
        · rw [h1, p2 i (by omega)]
          have : (x (s + i) - x s) * y (s + i) - (x (s + i) - x (s + k + 1)) * y (s + i) = w * y (s + i) := by rw [hw]; ring
          rw [this, inv_mul_cancel_left₀ hne]
    · rw [coeff_C_mul, coeff_sub, sub_mul, sub_mul, coeff_sub, coeff_sub, coeff_X_mul, coeff_C_mul, coeff_X_mul, coeff_C_mul,
        coeff_eq_zero_of_natDegree_lt (show q.natDegree < k + 1 by omega), coeff_eq_zero_of_natDegree_lt (show p.natDegree < k + 1 by omega),
        p3, q3, divDiff]
      rw [← hw]; ring

/-- The Newton basis. -/
def newtonBasis (x : ℕ → ℝ) (k : ℕ) : ℝ[X] := ∏ l ∈ Finset.range k, (X - C (x l))

theorem newtonBasis_monic (x : ℕ → ℝ) (k : ℕ) : (newtonBasis x k).Monic := monic_prod_of_monic _ _ fun _ _ => monic_X_sub_C _

theorem newtonBasis_degree (x : ℕ → ℝ) (k : ℕ) : (newtonBasis x k).natDegree = k := by
  rw [newtonBasis, natDegree_prod_of_monic _ _ fun _ _ => monic_X_sub_C _]
  simp

theorem newtonBasis_eval (x : ℕ → ℝ) (k i : ℕ) (h : i < k) : (newtonBasis x k).eval (x i) = 0 := by
  rw [newtonBasis, eval_prod]
  exact Finset.prod_eq_zero (Finset.mem_range.2 h) (by simp)

/-- A polynomial of degree at most k which vanishes at k+1 different points is zero. -/
theorem poly_zero (x : ℕ → ℝ) (k : ℕ) (hx : ∀ i j, i ≤ k → j ≤ k → x i = x j → i = j) (p : ℝ[X]) (hp : p.natDegree ≤ k)
    (h : ∀ i ≤ k, p.eval (x i) = 0) : p = 0 := by
  refine eq_zero_of_natDegree_lt_card_of_eval_eq_zero p (f := fun i : Fin (k + 1) => x i) ?_ (fun i => h i (by omega)) (by simpa using by omega)
  intro i j hij
  exact Fin.ext (hx i j (by omega) (by omega) hij)

theorem newton_interpolates (x y : ℕ → ℝ) (M : ℕ) (hx : ∀ i j, i ≤ M → j ≤ M → x i = x j → i = j) (k : ℕ) (hk : k ≤ M) :
    ∀ i ≤ k, (∑ m ∈ Finset.range (k + 1), C (divDiff x y m 0) * newtonBasis x m).eval (x i) = y i := by
  induction k with
  | zero =>
    intro i hi
    obtain rfl : i = 0 := by omega
    simp [newtonBasis, divDiff]
  | succ k ih =>
    obtain ⟨p, p1, p2, p3⟩ := neville x y M hx (k + 1) 0 (by omega)
    simp only [zero_add] at p2
    set q := ∑ m ∈ Finset.range (k + 1), C (divDiff x y m 0) * newtonBasis x m with hq
    have dq : q.natDegree ≤ k := by
      refine natDegree_sum_le_of_forall_le _ _ fun m hm => (natDegree_C_mul_le _ _).trans ?_
      rw [newtonBasis_degree]
      have := Finset.mem_range.1 hm; omega
    have e : p - q - C (divDiff x y (k + 1) 0) * newtonBasis x (k + 1) = 0 := by
      refine poly_zero x k (fun i j hi hj => hx i j (by omega) (by omega)) _ ?_ ?_
      · rw [natDegree_le_iff_coeff_eq_zero]
        intro N hN
        rw [coeff_sub, coeff_sub, coeff_C_mul, coeff_eq_zero_of_natDegree_lt (show q.natDegree < N by omega)]
        rcases Nat.lt_or_ge (k + 1) N with h | h
        · rw [coeff_eq_zero_of_natDegree_lt (show p.natDegree < N by omega),
            coeff_eq_zero_of_natDegree_lt (show (newtonBasis x (k + 1)).natDegree < N by rw [newtonBasis_degree]; exact h)]
          ring
        · obtain rfl : N = k + 1 := by omega
          have : (newtonBasis x (k + 1)).coeff (k + 1) = 1 := by
            have := (newtonBasis_monic x (k + 1)).coeff_natDegree
            rwa [newtonBasis_degree] at this
          rw [p3, this]; ring
      · intro i hi
        rw [eval_sub, eval_sub, p2 i (by omega), ih (by omega) i hi, eval_mul, newtonBasis_eval x _ i (by omega)]
        ring
    intro i hi
    rw [Finset.sum_range_succ, ← hq, show q + C (divDiff x y (k + 1) 0) * newtonBasis x (k + 1) = p by linear_combination -e]
    exact p2 i hi

theorem horner_step (a : ℕ → ℝ) (u : ℝ) (n : ℕ) :
    C (a 0) + (X - C u) * ∑ m ∈ Finset.range n, C (a (m + 1)) * X ^ m =
      (∑ m ∈ Finset.range n, C (a m - u * a (m + 1)) * X ^ m) + C (a n) * X ^ n := by
  induction n with
  | zero => simp
  | succ n ih =>
    rw [Finset.sum_range_succ, Finset.sum_range_succ, mul_add, ← add_assoc, ih, C_sub, C_mul]
    ring

theorem stage2_eq (x c : ℕ → ℝ) (N k : ℕ) (hk : k ≤ N) :
    ∑ m ∈ Finset.range (N + 1), C (c m) * newtonBasis x m =
      (∑ m ∈ Finset.range (N - k), C ((List.range k).foldl (fun c m => vdmInner2 x N (N - 1 - m) c) c m) * newtonBasis x m) +
      newtonBasis x (N - k) * ∑ m ∈ Finset.range (k + 1), C ((List.range k).foldl (fun c m => vdmInner2 x N (N - 1 - m) c) c (N - k + m)) * X ^ m := by
  induction k with
  | zero => simp only [Nat.sub_zero, List.range_zero, List.foldl_nil, zero_add, Finset.range_one, Finset.sum_singleton, add_zero, pow_zero, mul_one]; rw [Finset.sum_range_succ, mul_comm (newtonBasis x N)]
  | succ k ih =>
    rw [ih (by omega), List.range_succ, List.foldl_append, List.foldl_cons, List.foldl_nil]
    set b := (List.range k).foldl (fun c m => vdmInner2 x N (N - 1 - m) c) c with hb
    obtain ⟨i, hi⟩ : ∃ i, N = i + k + 1 := ⟨N - k - 1, by omega⟩
    rw [show N - k = i + 1 by omega, show N - (k + 1) = i by omega, show N - 1 - k = i by omega, Finset.sum_range_succ]
    have e1 : ∑ m ∈ Finset.range i, C (vdmInner2 x N i b m) * newtonBasis x m = ∑ m ∈ Finset.range i, C (b m) * newtonBasis x m := by
      refine Finset.sum_congr rfl fun m hm => ?_
      have := Finset.mem_range.1 hm
      rw [inner2_eq, if_neg (by omega)]
    rw [e1, show newtonBasis x (i + 1) = newtonBasis x i * (X - C (x i)) by rw [newtonBasis, Finset.prod_range_succ, ← newtonBasis]]
    have h := horner_step (fun m => b (i + m)) (x i) (k + 1)
    have e2 : ∑ m ∈ Finset.range (k + 1 + 1), C (vdmInner2 x N i b (i + m)) * X ^ m =
        (∑ m ∈ Finset.range (k + 1), C (b (i + m) - x i * b (i + (m + 1))) * X ^ m) + C (b (i + (k + 1))) * X ^ (k + 1) := by
      rw [Finset.sum_range_succ, inner2_eq, if_neg (by omega)]
      congr 1
      refine Finset.sum_congr rfl fun m hm => ?_
      have := Finset.mem_range.1 hm
      rw [inner2_eq, if_pos (by omega), add_assoc]
    rw [e2, ← h]
    simp only [add_zero]
    have e3 : ∀ m, i + 1 + m = i + (m + 1) := fun m => by omega
    simp only [e3]
    ring

/-- C74: for N+1 different abscissae the routine returns the coefficients of the polynomial of degree at most N with the
given values: any such polynomial has these coefficients, and the polynomial with these coefficients has the given values. -/
theorem C74_vandermonde (N : ℕ) (x y : ℕ → ℝ) (hx : ∀ i j, i ≤ N → j ≤ N → x i = x j → i = j) :
    (∀ i ≤ N, ∑ m ∈ Finset.range (N + 1), vandermonde N x y m * x i ^ m = y i) ∧
    ∀ p : ℝ[X], p.natDegree ≤ N → (∀ i ≤ N, p.eval (x i) = y i) → ∀ m, m ≤ N → vandermonde N x y m = p.coeff m := by
  have e : ∑ m ∈ Finset.range (N + 1), C (divDiff x y m 0) * newtonBasis x m = ∑ m ∈ Finset.range (N + 1), C (vandermonde N x y m) * X ^ m := by
    have h := stage2_eq x ((List.range N).foldl (fun c i => vdmInner1 x N i c) y) N N le_rfl
    simp only [Nat.sub_self, Finset.range_zero, Finset.sum_empty, zero_add, newtonBasis, Finset.prod_empty, one_mul] at h
    rw [show (fun m => C (vandermonde N x y m) * X ^ m : ℕ → ℝ[X]) = _ from rfl]
    simp only [vandermonde]
    rw [← h]
    refine Finset.sum_congr rfl fun m hm => ?_
    have := Finset.mem_range.1 hm
    rw [stage1_eq x y N N le_rfl m (by omega), min_eq_right (by omega), Nat.sub_self]; rfl
  have ev : ∀ i ≤ N, ∑ m ∈ Finset.range (N + 1), vandermonde N x y m * x i ^ m = y i := by
    intro i hi
    have h := newton_interpolates x y N hx N le_rfl i hi
    rw [e, eval_finsetSum] at h
    simpa using h
  refine ⟨ev, ?_⟩
  intro p hp hv m hm
  have dq : (∑ m ∈ Finset.range (N + 1), C (vandermonde N x y m) * X ^ m : ℝ[X]).natDegree ≤ N := by
    refine natDegree_sum_le_of_forall_le _ _ fun m hm => (natDegree_C_mul_X_pow_le _ _).trans ?_
    have := Finset.mem_range.1 hm; omega
  have h0 := poly_zero x N hx (p - ∑ m ∈ Finset.range (N + 1), C (vandermonde N x y m) * X ^ m) ((natDegree_sub_le _ _).trans (max_le hp dq)) (by
    intro i hi
    rw [eval_sub, hv i hi, eval_finsetSum]
    simp only [eval_mul, eval_C, eval_pow, eval_X]
    rw [ev i hi, sub_self])
  rw [sub_eq_zero.1 h0, finsetSum_coeff]
  simp only [coeff_C_mul, coeff_X_pow]
  simp
  intro h; omega

/-- Non-vacuity: 1 + t² from its values at 0, 1, 2. -/
example : vandermonde 2 (fun i => i) (fun i => 1 + (i : ℝ) ^ 2) 2 = 1 := by
  have := (C74_vandermonde 2 (fun i => (i : ℝ)) (fun i => 1 + (i : ℝ) ^ 2) (fun i j _ _ h => Nat.cast_injective h)).2 (C 1 + X ^ 2)
    (by compute_degree) (by intro i _; simp) 2 le_rfl
  rw [this]
  rw [coeff_add, coeff_X_pow, coeff_C]; norm_num

end
end Verif.Spline
