import Mathlib.Algebra.BigOperators.Intervals
import Mathlib.Analysis.Calculus.Deriv.Add
import Mathlib.Analysis.Calculus.Deriv.Mul
import Mathlib.Tactic

/-! Model of the B-spline basis, /repo/src/math_spline.cpp:34-180, exact real arithmetic; C37, C50, C51. -/
namespace Verif.BSpline

noncomputable section

/-! ## Model -/

/-- math_spline.cpp:39-40, 51-52: `grid[i<0 ? 0 : i>=size ? size-1 : i]`. -/
def node (grid : ℕ → ℝ) (size : ℕ) (i : ℤ) : ℝ :=
  grid (if i < 0 then 0 else if i ≥ (size : ℤ) then size - 1 else i.toNat)

/-- math_spline.cpp:37-46. -/
def linInt (x : ℝ) (grid : ℕ → ℝ) (size : ℕ) (i1 i2 : ℤ) : ℝ :=
  let x1 := node grid size i1
  let x2 := node grid size i2
  if x1 = x2 then (if x = x1 then 1 else 0) else (x - x1) / (x2 - x1)

/-- math_spline.cpp:49-54. -/
def denom (grid : ℕ → ℝ) (size : ℕ) (i1 i2 : ℤ) : ℝ :=
  let x1 := node grid size i1
  let x2 := node grid size i2
  if x1 = x2 then 0 else 1 / (x2 - x1)

/-- math_spline.cpp:75-81: body of the inner loop, `cnt` iterations downwards from (i, j); Bip1 is the previous value of
the next element. -/
def inner (x : ℝ) (grid : ℕ → ℝ) (size l : ℕ) : ℕ → ℕ → ℤ → ℝ → (ℕ → ℝ) → ℕ → ℝ
  | 0, _, _, _, B => B
  | cnt + 1, i, j, Bip1, B =>
    let Bi := B i * linInt x grid size j (j + l) + Bip1 * linInt x grid size (j + l + 1) (j + 1)
    inner x grid size l cnt (i - 1) (j - 1) (B i) (Function.update B i Bi)

/-- math_spline.cpp:67-83: the loop over l=1..N as a fold; B has N+1 elements. -/
def values (N : ℕ) (x : ℝ) (ind : ℕ) (grid : ℕ → ℝ) (size : ℕ) : ℕ → ℝ :=
  (List.range' 1 N).foldl (fun B l => inner x grid size l (l + 1) N ind 0 B) (fun i => if i = N then 1 else 0)

/-- math_spline.cpp:92-97: the loop, in place from left to right. -/
def derivLoop (N : ℕ) (grid : ℕ → ℝ) (size : ℕ) : ℕ → ℕ → ℤ → (ℕ → ℝ) → ℕ → ℝ
  | 0, _, _, B => B
  | cnt + 1, i, j, B =>
    derivLoop N grid size cnt (i + 1) (j + 1) (Function.update B i
      (N * (B i * denom grid size j (j + N) + if i < N then B (i + 1) * denom grid size (j + N + 1) (j + 1) else 0)))

/-- math_spline.cpp:88-127: derivatives; the result of the lower degree is placed in B[1..N] and B[0] is zero.
Order > N is never instantiated successfully (math_spline.cpp:118-126 asserts); zero here. -/
def derivs : (N order : ℕ) → (x : ℝ) → (ind : ℕ) → (grid : ℕ → ℝ) → (size : ℕ) → ℕ → ℝ
  | N, 0, x, ind, grid, size => values N x ind grid size
  | 0, _ + 1, _, _, _, _ => fun _ => 0
  | N + 1, order + 1, x, ind, grid, size =>
    let low := derivs N order x ind grid size
    derivLoop (N + 1) grid size (N + 2) 0 ((ind : ℤ) - (N + 1 : ℕ)) (fun i => if i = 0 then 0 else low (i - 1))

/-! ## Specification: the Cox-de Boor recursion on the clamped knots -/

/-- The B-spline of degree `l` starting at knot `j`, restricted to the segment `ind`, as a function of `x`.
(Division by zero gives zero, which is the convention of the recursion.) -/
def cox (τ : ℤ → ℝ) (ind : ℤ) (x : ℝ) : ℕ → ℤ → ℝ
  | 0, j => if j = ind then 1 else 0
  | l + 1, j => (x - τ j) / (τ (j + l + 1) - τ j) * cox τ ind x l j +
      (τ (j + l + 2) - x) / (τ (j + l + 2) - τ (j + 1)) * cox τ ind x l (j + 1)

/-- Support: the functions number ind-l..ind are nonzero. -/
theorem cox_zero (τ : ℤ → ℝ) (ind : ℤ) (x : ℝ) (l : ℕ) (j : ℤ) (h : j < ind - l ∨ ind < j) : cox τ ind x l j = 0 := by
  induction l generalizing j with
  | zero => rw [cox, if_neg (by omega)]
  | succ l ih =>
    rw [cox, ih j (by push_cast at h; omega), ih (j + 1) (by push_cast at h; omega)]
    simp

/-- The knots used by the code. -/
structure Knots (τ : ℤ → ℝ) (ind : ℤ) : Prop where
  mono : ∀ i j, i ≤ j → τ i ≤ τ j
  lt : τ ind < τ (ind + 1)

theorem Knots.sep {τ : ℤ → ℝ} {ind : ℤ} (h : Knots τ ind) {i j : ℤ} (hi : i ≤ ind) (hj : ind + 1 ≤ j) : τ i < τ j :=
  lt_of_le_of_lt (h.mono i ind hi) (lt_of_lt_of_le h.lt (h.mono _ _ hj))

theorem cox_nonneg {τ : ℤ → ℝ} {ind : ℤ} (h : Knots τ ind) {x : ℝ} (h1 : τ ind ≤ x) (h2 : x ≤ τ (ind + 1)) (l : ℕ) (j : ℤ) :
    0 ≤ cox τ ind x l j := by
  induction l generalizing j with
  | zero => rw [cox]; split <;> norm_num
  | succ l ih =>
    rw [cox]
    apply add_nonneg
    · by_cases hj : j < ind - l ∨ ind < j
      · rw [cox_zero _ _ _ _ _ hj, mul_zero]
      · push Not at hj
        have a := h.sep hj.2 (show ind + 1 ≤ j + l + 1 by omega)
        have b := h.mono j ind hj.2
        exact mul_nonneg (div_nonneg (by linarith) (by linarith)) (ih j)
    · by_cases hj : j + 1 < ind - l ∨ ind < j + 1
      · rw [cox_zero _ _ _ _ _ hj, mul_zero]
      · push Not at hj
        have a := h.sep hj.2 (show ind + 1 ≤ j + l + 2 by omega)
        have b := h.mono (ind + 1) (j + l + 2) (by omega)
        exact mul_nonneg (div_nonneg (by linarith) (by linarith)) (ih (j + 1))

theorem cox_sum {τ : ℤ → ℝ} {ind : ℤ} (h : Knots τ ind) (x : ℝ) (l : ℕ) :
    ∑ j ∈ Finset.Icc (ind - l) ind, cox τ ind x l j = 1 := by
  induction l with
  | zero => simp [cox]
  | succ l ih =>
    rw [← ih]
    simp only [cox]
    rw [Finset.sum_add_distrib]
    have e1 : ∑ j ∈ Finset.Icc (ind - ((l + 1 : ℕ) : ℤ)) ind, (x - τ j) / (τ (j + l + 1) - τ j) * cox τ ind x l j =
        ∑ j ∈ Finset.Icc (ind - l) ind, (x - τ j) / (τ (j + l + 1) - τ j) * cox τ ind x l j := by
      symm
      apply Finset.sum_subset
      · intro j hj
        rw [Finset.mem_Icc] at hj ⊢
        push_cast; omega
      · intro j hj hn
        rw [Finset.mem_Icc] at hj hn
        rw [cox_zero _ _ _ _ _ (by omega), mul_zero]
    have e2 : ∑ j ∈ Finset.Icc (ind - ((l + 1 : ℕ) : ℤ)) ind,
          (τ (j + l + 2) - x) / (τ (j + l + 2) - τ (j + 1)) * cox τ ind x l (j + 1) =
        ∑ j ∈ Finset.Icc (ind - l) ind, (τ (j + l + 1) - x) / (τ (j + l + 1) - τ j) * cox τ ind x l j := by
      have : ∑ j ∈ Finset.Icc (ind - l) (ind + 1), (τ (j + l + 1) - x) / (τ (j + l + 1) - τ j) * cox τ ind x l j =
          ∑ j ∈ Finset.Icc (ind - l) ind, (τ (j + l + 1) - x) / (τ (j + l + 1) - τ j) * cox τ ind x l j := by
        symm
        apply Finset.sum_subset
        · intro j hj
          rw [Finset.mem_Icc] at hj ⊢
          omega
        · intro j hj hn
          rw [Finset.mem_Icc] at hj hn
          rw [cox_zero _ _ _ _ _ (by omega), mul_zero]
      rw [← this]
      apply Finset.sum_bij (fun j _ => j + 1)
      · intro j hj
        rw [Finset.mem_Icc] at hj ⊢
        push_cast at hj; omega
      · intro a _ b _ hab; omega
      · intro j hj
        rw [Finset.mem_Icc] at hj
        refine ⟨j - 1, ?_, by omega⟩
        rw [Finset.mem_Icc]; push_cast; omega
      · intro j hj
        rw [show j + 1 + (l : ℤ) + 1 = j + l + 2 by ring]
    rw [e1, e2, ← Finset.sum_add_distrib]
    apply Finset.sum_congr rfl
    intro j hj
    rw [Finset.mem_Icc] at hj
    have a := h.sep hj.2 (show ind + 1 ≤ j + l + 1 by omega)
    have : τ (j + l + 1) - τ j ≠ 0 := by linarith
    field_simp
    ring

/-- The standard formula for the derivative. -/
def coxD (τ : ℤ → ℝ) (ind : ℤ) (x : ℝ) : ℕ → ℤ → ℝ
  | 0, _ => 0
  | l + 1, j => (l + 1) * (cox τ ind x l j / (τ (j + l + 1) - τ j) - cox τ ind x l (j + 1) / (τ (j + l + 2) - τ (j + 1)))

theorem cox_deriv_step {τ : ℤ → ℝ} {ind : ℤ} (h : Knots τ ind) (x : ℝ) (l : ℕ) (j : ℤ) :
    (x - τ j) / (τ (j + l + 2) - τ j) * coxD τ ind x (l + 1) j +
      (τ (j + l + 3) - x) / (τ (j + l + 3) - τ (j + 1)) * coxD τ ind x (l + 1) (j + 1) =
    (l + 1) * (cox τ ind x (l + 1) j / (τ (j + l + 2) - τ j) -
      cox τ ind x (l + 1) (j + 1) / (τ (j + l + 3) - τ (j + 1))) := by
  have s : ∀ i j, (τ i - τ j ≠ 0) ∨ τ i - τ j = 0 := fun i j => (em _).symm
  simp only [coxD, cox]
  rw [show j + 1 + (l : ℤ) + 1 = j + l + 2 by ring, show j + 1 + (l : ℤ) + 2 = j + l + 3 by ring,
    show j + 1 + 1 = j + 2 by ring]
  have hA : cox τ ind x l j = 0 ∨ (τ (j + l + 1) - τ j ≠ 0 ∧ τ (j + l + 2) - τ j ≠ 0) := by
    by_cases hj : j < ind - l ∨ ind < j
    · left; exact cox_zero _ _ _ _ _ hj
    · right
      push Not at hj
      have a := h.sep hj.2 (show ind + 1 ≤ j + l + 1 by omega)
      have b := h.sep hj.2 (show ind + 1 ≤ j + l + 2 by omega)
      exact ⟨by linarith, by linarith⟩
  have hB : cox τ ind x l (j + 1) = 0 ∨ (τ (j + l + 2) - τ (j + 1) ≠ 0 ∧ τ (j + l + 2) - τ j ≠ 0 ∧
      τ (j + l + 3) - τ (j + 1) ≠ 0) := by
    by_cases hj : j + 1 < ind - l ∨ ind < j + 1
    · left; exact cox_zero _ _ _ _ _ hj
    · right
      push Not at hj
      have a := h.sep hj.2 (show ind + 1 ≤ j + l + 2 by omega)
      have b := h.sep (show j ≤ ind by omega) (show ind + 1 ≤ j + l + 2 by omega)
      have c := h.sep hj.2 (show ind + 1 ≤ j + l + 3 by omega)
      exact ⟨by linarith, by linarith, by linarith⟩
  have hC : cox τ ind x l (j + 2) = 0 ∨ (τ (j + l + 3) - τ (j + 2) ≠ 0 ∧ τ (j + l + 3) - τ (j + 1) ≠ 0) := by
    by_cases hj : j + 2 < ind - l ∨ ind < j + 2
    · left; exact cox_zero _ _ _ _ _ hj
    · right
      push Not at hj
      have a := h.sep hj.2 (show ind + 1 ≤ j + l + 3 by omega)
      have b := h.sep (show j + 1 ≤ ind by omega) (show ind + 1 ≤ j + l + 3 by omega)
      exact ⟨by linarith, by linarith⟩
  generalize cox τ ind x l j = A at hA ⊢
  generalize cox τ ind x l (j + 1) = B at hB ⊢
  generalize cox τ ind x l (j + 2) = C at hC ⊢
  have eA : (x - τ j) / (τ (j + l + 2) - τ j) * (A / (τ (j + l + 1) - τ j)) =
      ((x - τ j) / (τ (j + l + 1) - τ j) * A) / (τ (j + l + 2) - τ j) := by
    rcases hA with h0 | ⟨h1, h2⟩
    · rw [h0]; simp
    · field_simp
  have eC : (τ (j + l + 3) - x) / (τ (j + l + 3) - τ (j + 1)) * (C / (τ (j + l + 3) - τ (j + 2))) =
      ((τ (j + l + 3) - x) / (τ (j + l + 3) - τ (j + 2)) * C) / (τ (j + l + 3) - τ (j + 1)) := by
    rcases hC with h0 | ⟨h1, h2⟩
    · rw [h0]; simp
    · field_simp
  have eB : -((x - τ j) / (τ (j + l + 2) - τ j) * (B / (τ (j + l + 2) - τ (j + 1)))) +
      (τ (j + l + 3) - x) / (τ (j + l + 3) - τ (j + 1)) * (B / (τ (j + l + 2) - τ (j + 1))) =
      ((τ (j + l + 2) - x) / (τ (j + l + 2) - τ (j + 1)) * B) / (τ (j + l + 2) - τ j) -
      ((x - τ (j + 1)) / (τ (j + l + 2) - τ (j + 1)) * B) / (τ (j + l + 3) - τ (j + 1)) := by
    rcases hB with h0 | ⟨h1, h2, h3⟩
    · rw [h0]; simp
    · field_simp; ring
  linear_combination ((l : ℝ) + 1) * (eA - eC + eB)

theorem cox_hasDeriv {τ : ℤ → ℝ} {ind : ℤ} (h : Knots τ ind) (x : ℝ) (l : ℕ) (j : ℤ) :
    HasDerivAt (fun x => cox τ ind x l j) (coxD τ ind x l j) x := by
  induction l generalizing j with
  | zero =>
    simp only [cox, coxD]
    exact hasDerivAt_const x _
  | succ l ih =>
    have d1 : HasDerivAt (fun x => (x - τ j) / (τ (j + l + 1) - τ j)) (1 / (τ (j + l + 1) - τ j)) x :=
      ((hasDerivAt_id' x).sub_const _).div_const _
    have d2 : HasDerivAt (fun x => (τ (j + l + 2) - x) / (τ (j + l + 2) - τ (j + 1)))
        (-1 / (τ (j + l + 2) - τ (j + 1))) x :=
      ((hasDerivAt_id' x).const_sub _).div_const _
    have d := (d1.mul (ih j)).add (d2.mul (ih (j + 1)))
    have e : (fun x => cox τ ind x (l + 1) j) = ((fun x => (x - τ j) / (τ (j + l + 1) - τ j)) * fun x => cox τ ind x l j) +
        (fun x => (τ (j + l + 2) - x) / (τ (j + l + 2) - τ (j + 1))) * fun x => cox τ ind x l (j + 1) := by
      funext y; rfl
    rw [e]
    apply d.congr_deriv
    cases l with
    | zero => simp only [coxD, Nat.cast_zero]; ring
    | succ l =>
      have := cox_deriv_step h x l j
      conv_rhs => rw [coxD]
      push_cast
      rw [show j + ((l : ℤ) + 1) + 1 = j + l + 2 by ring, show j + ((l : ℤ) + 1) + 2 = j + l + 3 by ring]
      linear_combination this

/-- A B-spline of positive degree has the same value at a node whichever of the two adjacent segments is used. -/
theorem cox_node {τ : ℤ → ℝ} {ind : ℤ} (h : Knots τ ind) (h' : Knots τ (ind + 1)) (l : ℕ) (j : ℤ) :
    cox τ ind (τ (ind + 1)) (l + 1) j = cox τ (ind + 1) (τ (ind + 1)) (l + 1) j := by
  induction l generalizing j with
  | zero =>
    simp only [cox]
    have a := h.lt
    have b := h'.lt
    rw [show ind + 1 + 1 = ind + 2 by ring] at b
    by_cases c1 : j = ind
    · subst c1
      have : τ (j + 1) - τ j ≠ 0 := by linarith
      have : τ (j + 2) - τ (j + 1) ≠ 0 := by linarith
      simp
      field_simp
    · by_cases c2 : j = ind + 1
      · subst c2; simp; omega
      · by_cases c3 : j + 1 = ind
        · subst c3
          simp [show j + 1 + 1 = j + 2 by ring]
        · rw [if_neg c1, if_neg c3, if_neg c2, if_neg (by omega)]
  | succ l ih =>
    rw [cox, ih, ih]; rfl

/-! ## The code computes the recursion -/

/-- A valid grid: strictly increasing nodes. -/
def Grid (grid : ℕ → ℝ) (size : ℕ) : Prop := ∀ i j, i < j → j < size → grid i < grid j

theorem knots {grid : ℕ → ℝ} {size ind : ℕ} (hg : Grid grid size) (hi : ind + 1 < size) :
    Knots (node grid size) ind := by
  have mono : ∀ a b, a ≤ b → b < size → grid a ≤ grid b := by
    intro a b hab hb
    rcases Nat.lt_or_ge a b with h | h
    · exact (hg a b h hb).le
    · rw [show a = b by omega]
  constructor
  · intro i j hij
    rw [node, node]
    apply mono
    · split_ifs <;> omega
    · split_ifs <;> omega
  · rw [node, node, if_neg (by omega), if_neg (by omega), if_neg (by omega), if_neg (by omega)]
    apply hg <;> omega

theorem node_nat {grid : ℕ → ℝ} {size i : ℕ} (h : i < size) : node grid size i = grid i := by
  rw [node, if_neg (by omega), if_neg (by omega), Int.toNat_natCast]

theorem inner_spec (x : ℝ) (grid : ℕ → ℝ) (size l : ℕ) (cnt i : ℕ) (j : ℤ) (Bip1 : ℝ) (B : ℕ → ℝ) (hc : cnt ≤ i + 1) (p : ℕ) :
    inner x grid size l cnt i j Bip1 B p = if p ≤ i ∧ i < p + cnt then
      B p * linInt x grid size (j - (i - p : ℕ)) (j - (i - p : ℕ) + l) +
        (if p = i then Bip1 else B (p + 1)) * linInt x grid size (j - (i - p : ℕ) + l + 1) (j - (i - p : ℕ) + 1) else B p := by
  induction cnt generalizing i j Bip1 B with
  | zero => rw [inner, if_neg (by omega)]
  | succ cnt ih =>
    rw [inner]
    by_cases c0 : cnt = 0
    · subst c0
      rw [inner]
      by_cases hp : p = i
      · subst hp
        rw [Function.update_self, if_pos (by omega), if_pos rfl, Nat.sub_self]
        simp
      · rw [Function.update_of_ne hp, if_neg (by omega)]
    · rw [ih (i - 1) (j - 1) _ _ (by omega)]
      by_cases hp : p = i
      · subst hp
        rw [if_neg (by omega), Function.update_self, if_pos (by omega), if_pos rfl, Nat.sub_self]
        simp
      · by_cases h1 : p ≤ i ∧ i < p + (cnt + 1)
        · rw [if_pos (show p ≤ i - 1 ∧ i - 1 < p + cnt by omega), if_pos h1, Function.update_of_ne hp, if_neg hp]
          have e : j - 1 - ((i - 1 - p : ℕ) : ℤ) = j - ((i - p : ℕ) : ℤ) := by omega
          rw [e]
          congr 2
          by_cases h2 : p = i - 1
          · rw [if_pos h2, h2]; congr 1; omega
          · rw [if_neg h2, Function.update_of_ne (by omega)]
        · rw [if_neg (by omega), if_neg h1, Function.update_of_ne hp]

theorem lin1 {x : ℝ} {grid : ℕ → ℝ} {size : ℕ} {i1 i2 : ℤ} (h : node grid size i1 ≠ node grid size i2) :
    linInt x grid size i1 i2 = (x - node grid size i1) / (node grid size i2 - node grid size i1) := by
  rw [linInt]; exact if_neg h

theorem lin2 {x : ℝ} {grid : ℕ → ℝ} {size : ℕ} {i1 i2 : ℤ} (h : node grid size i1 ≠ node grid size i2) :
    linInt x grid size i1 i2 = (node grid size i1 - x) / (node grid size i1 - node grid size i2) := by
  rw [lin1 h, ← neg_div_neg_eq]; ring

theorem values_cox {grid : ℕ → ℝ} {size ind : ℕ} (hg : Grid grid size) (hi : ind + 1 < size) (N : ℕ) (x : ℝ) (p : ℕ)
    (hp : p ≤ N) : values N x ind grid size p = cox (node grid size) ind x N ((ind : ℤ) - N + p) := by
  have hk := knots hg hi
  have key : ∀ m ≤ N, ∀ p ≤ N, (List.range' 1 m).foldl (fun B l => inner x grid size l (l + 1) N ind 0 B)
      (fun i => if i = N then 1 else 0) p = cox (node grid size) ind x m ((ind : ℤ) - N + p) := by
    intro m hm
    induction m with
    | zero =>
      intro p hp
      simp only [List.range'_zero, List.foldl_nil, cox]
      by_cases h : p = N
      · rw [if_pos h, if_pos (by omega)]
      · rw [if_neg h, if_neg (by omega)]
    | succ m ih =>
      intro p hp
      rw [List.range'_1_concat, List.foldl_append]
      have ih := ih (by omega)
      generalize (List.range' 1 m).foldl (fun B l => inner x grid size l (l + 1) N ind 0 B)
        (fun i => if i = N then 1 else 0) = B at ih
      simp only [List.foldl_cons, List.foldl_nil]
      rw [show 1 + m = m + 1 by omega, inner_spec _ _ _ _ _ _ _ _ _ (by omega)]
      by_cases h1 : p ≤ N ∧ N < p + (m + 1 + 1)
      · rw [if_pos h1, ih p hp]
        have e : (ind : ℤ) - ((N - p : ℕ) : ℤ) = ind - N + p := by omega
        rw [e]
        have e2 : (if p = N then (0 : ℝ) else B (p + 1)) = cox (node grid size) ind x m ((ind : ℤ) - N + p + 1) := by
          by_cases h2 : p = N
          · rw [if_pos h2, cox_zero _ _ _ _ _ (by omega)]
          · rw [if_neg h2, ih (p + 1) (by omega)]
            congr 1; push_cast; ring
        rw [e2, cox]
        generalize (ind : ℤ) - N + p = j
        rw [show j + ((m + 1 : ℕ) : ℤ) = j + m + 1 by push_cast; ring, show j + (m : ℤ) + 1 + 1 = j + m + 2 by ring]
        congr 1
        · by_cases hz : j < ind - m ∨ (ind : ℤ) < j
          · rw [cox_zero _ _ _ _ _ hz]; simp
          · push Not at hz
            have := hk.sep hz.2 (show (ind : ℤ) + 1 ≤ j + m + 1 by omega)
            rw [lin1 this.ne, mul_comm]
        · by_cases hz : j + 1 < ind - m ∨ (ind : ℤ) < j + 1
          · rw [cox_zero _ _ _ _ _ hz]; simp
          · push Not at hz
            have := hk.sep hz.2 (show (ind : ℤ) + 1 ≤ j + m + 2 by omega)
            rw [lin2 this.ne', mul_comm]
      · rw [if_neg h1, ih p hp, cox_zero _ _ _ _ _ (by omega), cox_zero _ _ _ _ _ (by push_cast; omega)]
  exact key N (le_refl _) p hp

theorem derivLoop_spec (N : ℕ) (grid : ℕ → ℝ) (size cnt i : ℕ) (j : ℤ) (B : ℕ → ℝ) (p : ℕ) :
    derivLoop N grid size cnt i j B p = if i ≤ p ∧ p < i + cnt then
      N * (B p * denom grid size (j + (p - i : ℕ)) (j + (p - i : ℕ) + N) +
        if p < N then B (p + 1) * denom grid size (j + (p - i : ℕ) + N + 1) (j + (p - i : ℕ) + 1) else 0) else B p := by
  induction cnt generalizing i j B with
  | zero => rw [derivLoop, if_neg (by omega)]
  | succ cnt ih =>
    rw [derivLoop, ih]
    by_cases hp : p = i
    · subst hp
      rw [if_neg (show ¬ (p + 1 ≤ p ∧ p < p + 1 + cnt) by omega), Function.update_self,
        if_pos (show p ≤ p ∧ p < p + (cnt + 1) by omega), Nat.sub_self]
      simp
    · by_cases h1 : i ≤ p ∧ p < i + (cnt + 1)
      · rw [if_pos (by omega), if_pos h1, Function.update_of_ne hp]
        rw [show j + 1 + ((p - (i + 1) : ℕ) : ℤ) = j + ((p - i : ℕ) : ℤ) by omega]
        rw [Function.update_of_ne (by omega)]
      · rw [if_neg (by omega), if_neg h1, Function.update_of_ne hp]

/-- Derivatives in terms of those of lower degree. -/
theorem derivs_succ (N order : ℕ) (x : ℝ) (ind : ℕ) (grid : ℕ → ℝ) (size p : ℕ) (hp : p ≤ N + 1) :
    derivs (N + 1) (order + 1) x ind grid size p = ((N + 1 : ℕ) : ℝ) *
      ((if p = 0 then 0 else derivs N order x ind grid size (p - 1)) *
          denom grid size ((ind : ℤ) - (N + 1 : ℕ) + p) ((ind : ℤ) - (N + 1 : ℕ) + p + (N + 1 : ℕ)) +
        if p < N + 1 then derivs N order x ind grid size p *
          denom grid size ((ind : ℤ) - (N + 1 : ℕ) + p + (N + 1 : ℕ) + 1) ((ind : ℤ) - (N + 1 : ℕ) + p + 1) else 0) := by
  rw [derivs]
  rw [derivLoop_spec, if_pos (by omega)]
  rw [Nat.sub_zero, if_neg (show ¬ p + 1 = 0 by omega), Nat.add_sub_cancel]

theorem denom_eq (grid : ℕ → ℝ) (size : ℕ) (i1 i2 : ℤ) :
    denom grid size i1 i2 = 1 / (node grid size i2 - node grid size i1) := by
  rw [denom]
  by_cases h : node grid size i1 = node grid size i2
  · rw [if_pos h, h, sub_self, div_zero]
  · rw [if_neg h]

theorem derivs_one {grid : ℕ → ℝ} {size ind : ℕ} (hg : Grid grid size) (hi : ind + 1 < size) (N : ℕ) (x : ℝ) (p : ℕ)
    (hp : p ≤ N + 1) :
    derivs (N + 1) 1 x ind grid size p = coxD (node grid size) ind x (N + 1) ((ind : ℤ) - (N + 1 : ℕ) + p) := by
  rw [derivs_succ N 0 x ind grid size p hp, coxD]
  generalize hj : (ind : ℤ) - ((N + 1 : ℕ) : ℤ) + p = j
  have e1 : (if p = 0 then 0 else derivs N 0 x ind grid size (p - 1)) = cox (node grid size) ind x N j := by
    by_cases h : p = 0
    · rw [if_pos h, cox_zero _ _ _ _ _ (by push_cast at hj; omega)]
    · rw [if_neg h, derivs, values_cox hg hi N x (p - 1) (by omega)]
      congr 1; push_cast at hj; omega
  have e2 : (if p < N + 1 then derivs N 0 x ind grid size p *
      denom grid size (j + (N + 1 : ℕ) + 1) (j + 1) else 0) =
      cox (node grid size) ind x N (j + 1) * denom grid size (j + (N + 1 : ℕ) + 1) (j + 1) := by
    by_cases h : p < N + 1
    · rw [if_pos h, derivs, values_cox hg hi N x p (by omega)]
      congr 2; push_cast at hj; omega
    · rw [if_neg h, cox_zero _ _ _ _ _ (by push_cast at hj; omega), zero_mul]
  rw [e1, e2, denom_eq, denom_eq]
  rw [show j + ((N + 1 : ℕ) : ℤ) + 1 = j + N + 2 by push_cast; ring, show j + ((N + 1 : ℕ) : ℤ) = j + N + 1 by push_cast; ring]
  rw [← neg_sub (node grid size (j + N + 2)) (node grid size (j + 1)), one_div_neg_eq_neg_one_div]
  push_cast
  ring

/-! ## C37 -/

theorem values_sum (N : ℕ) (grid : ℕ → ℝ) (size ind : ℕ) (x : ℝ) (hg : Grid grid size) (hi : ind + 1 < size) :
    ∑ i ∈ Finset.range (N + 1), values N x ind grid size i = 1 := by
  rw [← cox_sum (knots hg hi) x N]
  apply Finset.sum_bij (fun (i : ℕ) _ => (ind : ℤ) - N + (i : ℤ))
  · intro i hi'
    rw [Finset.mem_range] at hi'
    rw [Finset.mem_Icc]; omega
  · intro a _ b _ hab; omega
  · intro j hj
    rw [Finset.mem_Icc] at hj
    refine ⟨(j - ind + N).toNat, ?_, ?_⟩
    · rw [Finset.mem_range]; omega
    · omega
  · intro i hi'
    rw [Finset.mem_range] at hi'
    exact values_cox hg hi N x i (by omega)

/-- C37: the N+1 reported values are nonnegative and sum to one, for every degree, every strictly increasing grid, every
segment and every point of it. -/
theorem C37_partition_of_unity (N : ℕ) (grid : ℕ → ℝ) (size ind : ℕ) (x : ℝ) (hg : Grid grid size) (hi : ind + 1 < size)
    (h1 : grid ind ≤ x) (h2 : x ≤ grid (ind + 1)) :
    (∀ i ≤ N, 0 ≤ values N x ind grid size i) ∧ ∑ i ∈ Finset.range (N + 1), values N x ind grid size i = 1 := by
  have hk := knots hg hi
  have n1 : node grid size ind ≤ x := by rw [node_nat (by omega)]; exact h1
  have n2 : x ≤ node grid size ((ind : ℤ) + 1) := by
    have := node_nat (grid := grid) (size := size) (i := ind + 1) (by omega)
    push_cast at this
    rw [this]; exact h2
  constructor
  · intro i hi'
    rw [values_cox hg hi N x i hi']
    exact cox_nonneg hk n1 n2 N _
  · exact values_sum N grid size ind x hg hi

/-- C37: hence each value is between zero and one, and a spline with all amplitudes within [a,b] stays within [a,b]. -/
theorem C37_convex_hull (N : ℕ) (grid : ℕ → ℝ) (size ind : ℕ) (x : ℝ) (hg : Grid grid size) (hi : ind + 1 < size)
    (h1 : grid ind ≤ x) (h2 : x ≤ grid (ind + 1)) (ampl : ℕ → ℝ) (a b : ℝ) (ha : ∀ i, a ≤ ampl i ∧ ampl i ≤ b) :
    a ≤ ∑ i ∈ Finset.range (N + 1), values N x ind grid size i * ampl (ind + i) ∧
    ∑ i ∈ Finset.range (N + 1), values N x ind grid size i * ampl (ind + i) ≤ b := by
  obtain ⟨hp, hs⟩ := C37_partition_of_unity N grid size ind x hg hi h1 h2
  constructor
  · calc a = ∑ i ∈ Finset.range (N + 1), values N x ind grid size i * a := by rw [← Finset.sum_mul, hs, one_mul]
      _ ≤ _ := Finset.sum_le_sum fun i hi' =>
        mul_le_mul_of_nonneg_left (ha _).1 (hp i (by rw [Finset.mem_range] at hi'; omega))
  · calc _ ≤ ∑ i ∈ Finset.range (N + 1), values N x ind grid size i * b := Finset.sum_le_sum fun i hi' =>
        mul_le_mul_of_nonneg_left (ha _).2 (hp i (by rw [Finset.mem_range] at hi'; omega))
      _ = b := by rw [← Finset.sum_mul, hs, one_mul]

/-! ## C50: derivatives and continuity -/

/-- C50: bsplineDerivs<N,Order+1> is the exact derivative of bsplineDerivs<N,Order> (Order=0: of bsplineValues<N>) with
respect to x within a segment, for all degrees N > Order. -/
theorem C50_derivative (order N : ℕ) (hN : order < N) (grid : ℕ → ℝ) (size ind : ℕ) (hg : Grid grid size)
    (hi : ind + 1 < size) (x : ℝ) (i : ℕ) (hiN : i ≤ N) :
    HasDerivAt (fun x => derivs N order x ind grid size i) (derivs N (order + 1) x ind grid size i) x := by
  induction order generalizing N i with
  | zero =>
    obtain ⟨N, rfl⟩ : ∃ n, N = n + 1 := ⟨N - 1, by omega⟩
    rw [derivs_one hg hi N x i hiN]
    have := cox_hasDeriv (knots hg hi) x (N + 1) ((ind : ℤ) - (N + 1 : ℕ) + i)
    apply this.congr_of_eventuallyEq
    apply Filter.Eventually.of_forall
    intro y
    simp only [derivs]
    rw [values_cox hg hi (N + 1) y i hiN]
  | succ order ih =>
    obtain ⟨N, rfl⟩ : ∃ n, N = n + 1 := ⟨N - 1, by omega⟩
    have e : (fun x => derivs (N + 1) (order + 1) x ind grid size i) = fun x => ((N + 1 : ℕ) : ℝ) *
      ((if i = 0 then 0 else derivs N order x ind grid size (i - 1)) *
          denom grid size ((ind : ℤ) - (N + 1 : ℕ) + i) ((ind : ℤ) - (N + 1 : ℕ) + i + (N + 1 : ℕ)) +
        if i < N + 1 then derivs N order x ind grid size i *
          denom grid size ((ind : ℤ) - (N + 1 : ℕ) + i + (N + 1 : ℕ) + 1) ((ind : ℤ) - (N + 1 : ℕ) + i + 1) else 0) := by
      funext y; exact derivs_succ N order y ind grid size i hiN
    rw [e, derivs_succ N (order + 1) x ind grid size i hiN]
    apply HasDerivAt.const_mul
    apply HasDerivAt.add
    · apply HasDerivAt.mul_const
      by_cases h : i = 0
      · simp only [if_pos h]; exact hasDerivAt_const x _
      · simp only [if_neg h]; exact ih N (by omega) (i - 1) (by omega)
    · by_cases h : i < N + 1
      · simp only [if_pos h]
        exact (ih N (by omega) i (by omega)).mul_const _
      · simp only [if_neg h]; exact hasDerivAt_const x _

/-- C50: the derivatives of the basis functions sum to zero. -/
theorem C50_derivs_sum_zero (order N : ℕ) (hN : order < N) (grid : ℕ → ℝ) (size ind : ℕ) (hg : Grid grid size)
    (hi : ind + 1 < size) (x : ℝ) : ∑ i ∈ Finset.range (N + 1), derivs N (order + 1) x ind grid size i = 0 := by
  have hs : ∀ y, ∑ i ∈ Finset.range (N + 1), derivs N 0 y ind grid size i = 1 := by
    intro y
    simp only [derivs]
    exact values_sum N grid size ind y hg hi
  have key : ∀ order, order < N → ∀ x, ∑ i ∈ Finset.range (N + 1), derivs N (order + 1) x ind grid size i = 0 := by
    intro order
    induction order with
    | zero =>
      intro h x
      have d : HasDerivAt (fun y => ∑ i ∈ Finset.range (N + 1), derivs N 0 y ind grid size i)
          (∑ i ∈ Finset.range (N + 1), derivs N (0 + 1) x ind grid size i) x :=
        HasDerivAt.fun_sum fun i hi' => C50_derivative 0 N h grid size ind hg hi x i (by
          rw [Finset.mem_range] at hi'; omega)
      have c : HasDerivAt (fun y => ∑ i ∈ Finset.range (N + 1), derivs N 0 y ind grid size i) 0 x := by
        simp only [hs]; exact hasDerivAt_const x 1
      exact d.unique c
    | succ order ih =>
      intro h x
      have d : HasDerivAt (fun y => ∑ i ∈ Finset.range (N + 1), derivs N (order + 1) y ind grid size i)
          (∑ i ∈ Finset.range (N + 1), derivs N (order + 1 + 1) x ind grid size i) x :=
        HasDerivAt.fun_sum fun i hi' => C50_derivative (order + 1) N h grid size ind hg hi x i (by
          rw [Finset.mem_range] at hi'; omega)
      have c : HasDerivAt (fun y => ∑ i ∈ Finset.range (N + 1), derivs N (order + 1) y ind grid size i) 0 x := by
        simp only [ih (by omega)]; exact hasDerivAt_const x 0
      exact d.unique c
  exact key order hN x

/-- C50: values and derivatives of order less than N agree at a node from both sides: the i-th function of segment ind+1
is the (i+1)-th function of segment ind, and the function that leaves (enters) the list vanishes there. Hence every
spline of degree N has N-1 continuous derivatives on the whole grid. -/
theorem C50_continuity (order N : ℕ) (hN : order < N) (grid : ℕ → ℝ) (size ind : ℕ) (hg : Grid grid size)
    (hi : ind + 2 < size) :
    (∀ i < N, derivs N order (grid (ind + 1)) ind grid size (i + 1) = derivs N order (grid (ind + 1)) (ind + 1) grid size i) ∧
    derivs N order (grid (ind + 1)) ind grid size 0 = 0 ∧ derivs N order (grid (ind + 1)) (ind + 1) grid size N = 0 := by
  have hk1 := knots hg (show ind + 1 < size by omega)
  have hk2 := knots hg (show ind + 1 + 1 < size by omega)
  have ex : node grid size ((ind : ℤ) + 1) = grid (ind + 1) := by
    have := node_nat (grid := grid) (size := size) (i := ind + 1) (by omega)
    push_cast at this; exact this
  induction order generalizing N with
  | zero =>
    obtain ⟨N, rfl⟩ : ∃ n, N = n + 1 := ⟨N - 1, by omega⟩
    have c : ∀ j, cox (node grid size) ind (grid (ind + 1)) (N + 1) j =
        cox (node grid size) ((ind : ℤ) + 1) (grid (ind + 1)) (N + 1) j := by
      intro j
      rw [← ex]
      exact cox_node hk1 (by have := hk2; push_cast at this; exact this) N j
    simp only [derivs]
    refine ⟨?_, ?_, ?_⟩
    · intro i hi'
      rw [values_cox hg (by omega) _ _ _ (by omega), values_cox hg (by omega) _ _ _ (by omega), c]
      push_cast
      congr 1
      ring
    · rw [values_cox hg (by omega) _ _ _ (by omega), c, cox_zero]
      left; push_cast; omega
    · rw [values_cox hg (by omega) _ _ _ (by omega)]
      have := c (((ind + 1 : ℕ) : ℤ) - ((N + 1 : ℕ) : ℤ) + ((N + 1 : ℕ) : ℤ))
      push_cast at this ⊢
      rw [← this, cox_zero]
      right; omega
  | succ order ih =>
    obtain ⟨N, rfl⟩ : ∃ n, N = n + 1 := ⟨N - 1, by omega⟩
    obtain ⟨a, b, c⟩ := ih N (by omega)
    refine ⟨?_, ?_, ?_⟩
    · intro i hi'
      rw [derivs_succ _ _ _ _ _ _ _ (by omega), derivs_succ _ _ _ _ _ _ _ (by omega)]
      have ej : ((ind + 1 : ℕ) : ℤ) - ((N + 1 : ℕ) : ℤ) + (i : ℤ) = (ind : ℤ) - ((N + 1 : ℕ) : ℤ) + ((i + 1 : ℕ) : ℤ) := by
        push_cast; ring
      rw [ej, if_neg (show ¬ i + 1 = 0 by omega), Nat.add_sub_cancel, if_pos (show i < N + 1 by omega)]
      congr 2
      · by_cases h0 : i = 0
        · rw [if_pos h0, h0, b]
        · rw [if_neg h0]
          have := a (i - 1) (by omega)
          rw [Nat.sub_add_cancel (by omega)] at this
          rw [this]
      · by_cases h1 : i + 1 < N + 1
        · rw [if_pos h1, a i (by omega)]
        · rw [if_neg h1, show i = N by omega, c, zero_mul]
    · rw [derivs_succ _ _ _ _ _ _ _ (by omega), if_pos rfl, if_pos (by omega), b]; simp
    · rw [derivs_succ _ _ _ _ _ _ _ (by omega), if_neg (by omega), if_neg (by omega), Nat.add_sub_cancel, c]; simp

/-- Non-vacuity: a non-uniform grid, an interior segment and a point in it. -/
example : Grid (fun i => (i : ℝ) ^ 2) 5 ∧ 1 + 2 < 5 ∧ (fun i : ℕ => (i : ℝ) ^ 2) 1 ≤ 2 ∧
    (2 : ℝ) ≤ (fun i : ℕ => (i : ℝ) ^ 2) (1 + 1) := by
  refine ⟨?_, by omega, by norm_num, by norm_num⟩
  intro i j h _
  have : (i : ℝ) < j := by exact_mod_cast h
  exact pow_lt_pow_left₀ this (by positivity) (by norm_num)

end
end Verif.BSpline
