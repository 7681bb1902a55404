import Verif.Spline.Natural

/-! C51: boundary conditions and smoothness of the natural cubic basis. -/
namespace Verif.BSpline

noncomputable section

/-- Second derivatives of the four cubic functions in terms of the degree 1 values. -/
theorem second_formula (x : ℝ) (ind : ℕ) (grid : ℕ → ℝ) (size : ℕ) :
    let t : ℤ → ℝ := node grid size
    let v0 := values 1 x ind grid size 0
    let v1 := values 1 x ind grid size 1
    let d (a b : ℤ) : ℝ := 1 / (t b - t a)
    let D0 := 2 * (v0 * d (ind + 1) (ind - 1))
    let D1 := 2 * (v0 * d (ind - 1) (ind + 1) + v1 * d (ind + 2) ind)
    let D2 := 2 * (v1 * d ind (ind + 2))
    derivs 3 2 x ind grid size 0 = 3 * (D0 * d (ind + 1) (ind - 2)) ∧
    derivs 3 2 x ind grid size 1 = 3 * (D0 * d (ind - 2) (ind + 1) + D1 * d (ind + 2) (ind - 1)) ∧
    derivs 3 2 x ind grid size 2 = 3 * (D1 * d (ind - 1) (ind + 2) + D2 * d (ind + 3) ind) ∧
    derivs 3 2 x ind grid size 3 = 3 * (D2 * d ind (ind + 3)) := by
  have e0 : derivs 2 1 x ind grid size 0 = 2 * (values 1 x ind grid size 0 * denom grid size (ind + 1) (ind - 1)) := by
    rw [derivs_succ _ _ _ _ _ _ _ (by omega),
      show (ind : ℤ) - ((1 + 1 : ℕ) : ℤ) + ((0 : ℕ) : ℤ) + ((1 + 1 : ℕ) : ℤ) + 1 = ind + 1 by push_cast; ring,
      show (ind : ℤ) - ((1 + 1 : ℕ) : ℤ) + ((0 : ℕ) : ℤ) + 1 = ind - 1 by push_cast; ring]
    simp [derivs]
  have e1 : derivs 2 1 x ind grid size 1 = 2 * (values 1 x ind grid size 0 * denom grid size (ind - 1) (ind + 1) +
      values 1 x ind grid size 1 * denom grid size (ind + 2) ind) := by
    rw [derivs_succ _ _ _ _ _ _ _ (by omega),
      show (ind : ℤ) - ((1 + 1 : ℕ) : ℤ) + ((1 : ℕ) : ℤ) + ((1 + 1 : ℕ) : ℤ) + 1 = ind + 2 by push_cast; ring,
      show (ind : ℤ) - ((1 + 1 : ℕ) : ℤ) + ((1 : ℕ) : ℤ) + 1 = ind by push_cast; ring,
      show (ind : ℤ) - ((1 + 1 : ℕ) : ℤ) + ((1 : ℕ) : ℤ) + ((1 + 1 : ℕ) : ℤ) = ind + 1 by push_cast; ring,
      show (ind : ℤ) - ((1 + 1 : ℕ) : ℤ) + ((1 : ℕ) : ℤ) = ind - 1 by push_cast; ring]
    simp [derivs]
  have e2 : derivs 2 1 x ind grid size 2 = 2 * (values 1 x ind grid size 1 * denom grid size ind (ind + 2)) := by
    rw [derivs_succ _ _ _ _ _ _ _ (by omega),
      show (ind : ℤ) - ((1 + 1 : ℕ) : ℤ) + ((2 : ℕ) : ℤ) + ((1 + 1 : ℕ) : ℤ) = ind + 2 by push_cast; ring,
      show (ind : ℤ) - ((1 + 1 : ℕ) : ℤ) + ((2 : ℕ) : ℤ) = ind by push_cast; ring]
    simp [derivs]
  simp only [← denom_eq, ← e0, ← e1, ← e2]
  refine ⟨?_, ?_, ?_, ?_⟩
  · rw [derivs_succ _ _ _ _ _ _ _ (by omega),
      show (ind : ℤ) - ((2 + 1 : ℕ) : ℤ) + ((0 : ℕ) : ℤ) + ((2 + 1 : ℕ) : ℤ) + 1 = ind + 1 by push_cast; ring,
      show (ind : ℤ) - ((2 + 1 : ℕ) : ℤ) + ((0 : ℕ) : ℤ) + 1 = ind - 2 by push_cast; ring]
    simp
  · rw [derivs_succ _ _ _ _ _ _ _ (by omega),
      show (ind : ℤ) - ((2 + 1 : ℕ) : ℤ) + ((1 : ℕ) : ℤ) + ((2 + 1 : ℕ) : ℤ) + 1 = ind + 2 by push_cast; ring,
      show (ind : ℤ) - ((2 + 1 : ℕ) : ℤ) + ((1 : ℕ) : ℤ) + 1 = ind - 1 by push_cast; ring,
      show (ind : ℤ) - ((2 + 1 : ℕ) : ℤ) + ((1 : ℕ) : ℤ) + ((2 + 1 : ℕ) : ℤ) = ind + 1 by push_cast; ring,
      show (ind : ℤ) - ((2 + 1 : ℕ) : ℤ) + ((1 : ℕ) : ℤ) = ind - 2 by push_cast; ring]
    simp
  · rw [derivs_succ _ _ _ _ _ _ _ (by omega),
      show (ind : ℤ) - ((2 + 1 : ℕ) : ℤ) + ((2 : ℕ) : ℤ) + ((2 + 1 : ℕ) : ℤ) + 1 = ind + 3 by push_cast; ring,
      show (ind : ℤ) - ((2 + 1 : ℕ) : ℤ) + ((2 : ℕ) : ℤ) + 1 = ind by push_cast; ring,
      show (ind : ℤ) - ((2 + 1 : ℕ) : ℤ) + ((2 : ℕ) : ℤ) + ((2 + 1 : ℕ) : ℤ) = ind + 2 by push_cast; ring,
      show (ind : ℤ) - ((2 + 1 : ℕ) : ℤ) + ((2 : ℕ) : ℤ) = ind - 1 by push_cast; ring]
    simp
  · rw [derivs_succ _ _ _ _ _ _ _ (by omega),
      show (ind : ℤ) - ((2 + 1 : ℕ) : ℤ) + ((3 : ℕ) : ℤ) + ((2 + 1 : ℕ) : ℤ) = ind + 3 by push_cast; ring,
      show (ind : ℤ) - ((2 + 1 : ℕ) : ℤ) + ((3 : ℕ) : ℤ) = ind by push_cast; ring]
    simp

theorem second_left {grid : ℕ → ℝ} {size : ℕ} (hg : Grid grid size) (h2 : 2 ≤ size) (g : ℝ) (hgg : g = node grid size 2) :
    derivs 3 2 (grid 0) 0 grid size 0 = 6 / (grid 1 - grid 0) ^ 2 ∧
    derivs 3 2 (grid 0) 0 grid size 1 = - 6 / (grid 1 - grid 0) ^ 2 - 6 / ((grid 1 - grid 0) * (g - grid 0)) ∧
    derivs 3 2 (grid 0) 0 grid size 2 = 6 / ((grid 1 - grid 0) * (g - grid 0)) ∧
    derivs 3 2 (grid 0) 0 grid size 3 = 0 := by
  obtain ⟨a, b, _, _⟩ := values_one_ends hg (show 0 + 1 < size by omega)
  have n1 : node grid size 1 = grid 1 := by
    have := node_nat (grid := grid) (size := size) (i := 1) (by omega); exact_mod_cast this
  have n0 : node grid size 0 = grid 0 := by
    have := node_nat (grid := grid) (size := size) (i := 0) (by omega); exact_mod_cast this
  have m1 : node grid size (-1) = grid 0 := by simp [node]
  have m2 : node grid size (-2) = grid 0 := by simp [node]
  have hgl : grid 0 < g := by
    rw [hgg, node, if_neg (by omega)]
    split_ifs with h
    · exact hg 0 (size - 1) (by omega) (by omega)
    · exact hg 0 2 (by omega) (by push_cast at h; omega)
  have h := hg 0 1 (by omega) (by omega)
  have s1 : grid 1 - grid 0 ≠ 0 := by linarith
  have s2 : grid 0 - grid 1 ≠ 0 := by linarith
  have s3 : g - grid 0 ≠ 0 := by linarith
  have s4 : grid 0 - g ≠ 0 := by linarith
  have t1 : grid 0 - grid 1 = - (grid 1 - grid 0) := by ring
  have t2 : grid 0 - g = - (g - grid 0) := by ring
  obtain ⟨f0, f1, f2, f3⟩ := second_formula (grid 0) 0 grid size
  simp only [a, b] at f0 f1 f2 f3
  simp [n0, n1, m1, m2, ← hgg] at f0 f1 f2 f3
  rw [f0, f1, f2, f3, t1, t2]
  refine ⟨?_, ?_, ?_, rfl⟩ <;> field_simp <;> ring

theorem second_right {grid : ℕ → ℝ} {n : ℕ} (hg : Grid grid (n + 2)) (g : ℝ) (hgg : g = node grid (n + 2) (n - 1)) :
    derivs 3 2 (grid (n + 1)) n grid (n + 2) 3 = 6 / (grid (n + 1) - grid n) ^ 2 ∧
    derivs 3 2 (grid (n + 1)) n grid (n + 2) 2 = - 6 / (grid (n + 1) - grid n) ^ 2 -
      6 / ((grid (n + 1) - grid n) * (grid (n + 1) - g)) ∧
    derivs 3 2 (grid (n + 1)) n grid (n + 2) 1 = 6 / ((grid (n + 1) - grid n) * (grid (n + 1) - g)) ∧
    derivs 3 2 (grid (n + 1)) n grid (n + 2) 0 = 0 := by
  obtain ⟨_, _, a, b⟩ := values_one_ends hg (show n + 1 < n + 2 by omega)
  have n0 : node grid (n + 2) n = grid n := node_nat (grid := grid) (size := n + 2) (i := n) (by omega)
  have n1 : ∀ i : ℤ, i ≥ n + 2 → node grid (n + 2) i = grid (n + 1) := by
    intro i hi
    rw [node, if_neg (by omega), if_pos (by push_cast; omega)]; rfl
  have h := hg n (n + 1) (by omega) (by omega)
  have hgl : g < grid (n + 1) := by
    rw [hgg, node]
    split_ifs with h1 h2
    · exact hg 0 (n + 1) (by omega) (by omega)
    · push_cast at h2; omega
    · exact hg _ (n + 1) (by omega) (by omega)
  have s1 : grid (n + 1) - grid n ≠ 0 := by linarith
  have s3 : grid (n + 1) - g ≠ 0 := by linarith
  have t1 : grid n - grid (n + 1) = - (grid (n + 1) - grid n) := by ring
  have t2 : g - grid (n + 1) = - (grid (n + 1) - g) := by ring
  obtain ⟨f0, f1, f2, f3⟩ := second_formula (grid (n + 1)) n grid (n + 2)
  simp only [a, b] at f0 f1 f2 f3
  rw [n1 (n + 2) (by omega), n1 (n + 3) (by omega), n0, ← hgg] at f2
  rw [n1 (n + 2) (by omega), n1 (n + 3) (by omega), n0] at f3
  rw [n1 (n + 2) (by omega), n0, ← hgg] at f1
  rw [f0, f1, f2, f3, t1, t2]
  refine ⟨?_, ?_, ?_, by ring⟩ <;> field_simp <;> ring

/-- C51: every function of the natural basis has zero second derivative at both ends of the grid. -/
theorem C51_second_derivative_ends (grid : ℕ → ℝ) (size : ℕ) (hg : Grid grid size) (h2 : 2 ≤ size) (k : ℕ) (hk : k < size) :
    code grid size 0 (derivs 3 2 (grid 0) 0 grid size) k = 0 ∧
    code grid size (size - 2) (derivs 3 2 (grid (size - 1)) (size - 2) grid size) k = 0 := by
  obtain ⟨n, rfl⟩ : ∃ n, size = n + 2 := ⟨size - 2, by omega⟩
  obtain ⟨a0, a1, a2, a3⟩ := second_left hg h2 _ rfl
  obtain ⟨b3, b2, b1, b0⟩ := second_right hg _ rfl
  rw [code, ← C51_naturalCubic _ _ _ _ hg (by omega) k hk, code, ← C51_naturalCubic _ _ _ _ hg (by omega) k hk]
  simp only [natural, show n + 2 - 2 = n by omega, show n + 2 - 1 = n + 1 by omega]
  by_cases hn : n = 0
  · subst hn
    have e0 : node grid 2 2 = grid 1 := by simp [node]
    have e1 : node grid 2 (-1) = grid 0 := by simp [node]
    have h := hg 0 1 (by omega) (by omega)
    have s1 : grid 1 - grid 0 ≠ 0 := by linarith
    simp [e0, e1] at a0 a1 a2 a3 b0 b1 b2 b3
    have : k = 0 ∨ k = 1 := by omega
    rcases this with rfl | rfl
    · simp [spread, a0, a1, a2, a3, b0, b1, b2, b3]
      constructor <;> field_simp <;> ring
    · simp [spread, a0, a1, a2, a3, b0, b1, b2, b3]
      constructor <;> field_simp <;> ring
  · obtain ⟨m, rfl⟩ : ∃ m, n = m + 1 := ⟨n - 1, by omega⟩
    have e0 : node grid (m + 1 + 2) 2 = grid 2 := by
      have := node_nat (grid := grid) (size := m + 1 + 2) (i := 2) (by omega); exact_mod_cast this
    have e1 : node grid (m + 1 + 2) (((m + 1 : ℕ) : ℤ) - 1) = grid m := by
      rw [show ((m + 1 : ℕ) : ℤ) - 1 = (m : ℕ) by push_cast; ring]
      exact node_nat (by omega)
    rw [e0] at a1 a2
    rw [e1] at b1 b2
    have g1 := hg 0 1 (by omega) (by omega)
    have g2 := hg 0 2 (by omega) (by omega)
    have g3 := hg (m + 1) (m + 2) (by omega) (by omega)
    have g4 := hg m (m + 2) (by omega) (by omega)
    have s1 : grid 1 - grid 0 ≠ 0 := by linarith
    have s2 : grid 2 - grid 0 ≠ 0 := by linarith
    have s12 : grid 1 - grid 0 + (grid 2 - grid 0) ≠ 0 := by linarith
    have s3 : grid (m + 2) - grid (m + 1) ≠ 0 := by linarith
    have s4 : grid (m + 2) - grid m ≠ 0 := by linarith
    have s34 : grid (m + 2) - grid (m + 1) + (grid (m + 2) - grid m) ≠ 0 := by linarith
    rw [show m + 1 + 1 = m + 2 by omega] at b1 b2 b3 b0 ⊢
    rw [if_neg (show ¬ m + 1 + 2 = 2 by omega)]
    rw [if_neg (show ¬ m + 1 + 2 = 2 by omega)]
    rw [show m + 1 + 2 - 3 = m by omega]
    constructor
    · generalize derivs 3 2 (grid 0) 0 grid (m + 1 + 2) = B at *
      have z : ∀ j, 3 ≤ j → spread 0 B j = 0 := by
        intro j hj; rw [spread]; split_ifs with hh
        · rw [show j - 0 = 3 by omega, a3]
        · rfl
      have z0 : spread 0 B 0 = B 0 := by simp [spread]
      have z1 : spread 0 B 1 = B 1 := by simp [spread]
      have z2 : spread 0 B 2 = B 2 := by simp [spread]
      rw [z (m + 1 + 2 + 1) (by omega), z (m + 1 + 2) (by omega), z0, z1, a0, a1]
      by_cases h0 : k = 0
      · rw [if_pos h0, if_neg (show ¬ k = 1 by omega), mul_zero, ite_self]
        field_simp; ring
      · rw [if_neg h0]
        by_cases h1 : k = 1
        · rw [if_pos h1, if_neg (show ¬ k + 1 = m + 1 + 2 by omega), h1, z2, a2, mul_zero, ite_self]
          field_simp; ring
        · rw [if_neg h1, z (k + 1) (by omega)]; simp
    · generalize derivs 3 2 (grid (m + 2)) (m + 1) grid (m + 1 + 2) = B at *
      have z : ∀ j, j ≤ m + 1 → spread (m + 1) B j = 0 := by
        intro j hj; rw [spread]; split_ifs with hh
        · rw [show j - (m + 1) = 0 by omega, b0]
        · rfl
      have z0 : spread (m + 1) B (m + 1 + 2 + 1) = B 3 := by
        rw [spread, if_pos (by omega), show m + 1 + 2 + 1 - (m + 1) = 3 by omega]
      have z1 : spread (m + 1) B (m + 1 + 2) = B 2 := by
        rw [spread, if_pos (by omega), show m + 1 + 2 - (m + 1) = 2 by omega]
      have z2 : spread (m + 1) B (m + 2) = B 1 := by
        rw [spread, if_pos (by omega), show m + 2 - (m + 1) = 1 by omega]
      rw [z 0 (by omega), z 1 (by omega), z0, z1, b3, b2]
      by_cases h0 : k + 1 = m + 1 + 2
      · rw [if_neg (show ¬ k = 0 by omega), if_pos h0, mul_zero, ite_self, if_neg (show ¬ k + 2 = m + 1 + 2 by omega)]
        field_simp; ring
      · by_cases h1 : k + 2 = m + 1 + 2
        · have hk1 : k + 1 = m + 2 := by omega
          rw [if_neg (show ¬ k = 0 by omega), if_neg h0, if_pos h1, hk1, z2, b1, mul_zero, ite_self]
          field_simp; ring
        · rw [if_neg h0, if_neg h1, z (k + 1) (by omega)]; simp

/-- C51: each function of the natural basis and its first two derivatives agree at every interior node from both sides. -/
theorem C51_continuity (grid : ℕ → ℝ) (size ind order : ℕ) (ho : order < 3) (hg : Grid grid size) (hi : ind + 2 < size)
    (k : ℕ) (hk : k < size) :
    code grid size ind (derivs 3 order (grid (ind + 1)) ind grid size) k =
      code grid size (ind + 1) (derivs 3 order (grid (ind + 1)) (ind + 1) grid size) k := by
  obtain ⟨a, b, c⟩ := C50_continuity order 3 ho grid size ind hg hi
  rw [code, ← C51_naturalCubic _ _ _ _ hg (by omega) k hk, code, ← C51_naturalCubic _ _ _ _ hg (by omega) k hk]
  congr 1
  funext j
  simp only [spread]
  by_cases h0 : j = ind
  · rw [if_pos (by omega), if_neg (by omega), h0, Nat.sub_self, b]
  · by_cases h1 : ind + 1 ≤ j ∧ j ≤ ind + 3
    · rw [if_pos (by omega), if_pos (by omega)]
      have := a (j - (ind + 1)) (by omega)
      rw [← this]; congr 1; omega
    · rw [if_neg (by omega)]
      by_cases h4 : j = ind + 4
      · rw [if_pos (by omega), h4, show ind + 4 - (ind + 1) = 3 by omega, c]
      · rw [if_neg (by omega)]

theorem code_linear (grid : ℕ → ℝ) (size ind : ℕ) (hg : Grid grid size) (hi : ind + 1 < size) (B C : ℕ → ℝ) (t : ℝ) (k : ℕ)
    (hk : k < size) : code grid size ind (fun i => B i + C i * t) k = code grid size ind B k + code grid size ind C k * t := by
  simp only [code]
  rw [← C51_naturalCubic _ _ _ _ hg hi k hk, ← C51_naturalCubic _ _ _ _ hg hi k hk, ← C51_naturalCubic _ _ _ _ hg hi k hk]
  have e : ∀ j, spread ind (fun i => B i + C i * t) j = spread ind B j + spread ind C j * t := by
    intro j; simp only [spread]; split_ifs <;> ring
  simp only [natural, e]
  by_cases h2 : size = 2
  · rw [if_pos h2, if_pos h2, if_pos h2]
    split_ifs <;> ring
  · rw [if_neg h2, if_neg h2, if_neg h2]
    have i1 : ∀ (c : Prop) [Decidable c] (x y : ℝ), (if c then x + y * t else 0) = (if c then x else 0) + (if c then y else 0) * t := by
      intro c _ x y; split_ifs <;> ring
    generalize (grid 1 - grid 0) / (grid 1 - grid 0 + (grid 2 - grid 0)) = l
    generalize (grid (size - 1) - grid (size - 2)) / (grid (size - 1) - grid (size - 2) + (grid (size - 1) - grid (size - 3))) = r
    rw [mul_add l, ← mul_assoc l, i1, mul_add r, ← mul_assoc r, i1]
    split_ifs <;> ring

/-- C51: outside the grid each function is continued linearly with the value and slope of the end point, so the first two
derivatives (the second one is zero by the previous theorem) are continuous there as well. -/
theorem C51_extrapolation (grid : ℕ → ℝ) (size ind : ℕ) (hg : Grid grid size) (hi : ind + 1 < size) (x x0 : ℝ) (k : ℕ)
    (hk : k < size) :
    code grid size ind (extrapolated 3 x x0 ind grid size) k =
      code grid size ind (values 3 x0 ind grid size) k + code grid size ind (derivs 3 1 x0 ind grid size) k * (x - x0) :=
  code_linear grid size ind hg hi _ _ _ k hk

/-- C51: the derivative arrays of the natural basis are the derivatives of its value arrays within a segment. -/
theorem C51_derivative (grid : ℕ → ℝ) (size ind order : ℕ) (ho : order < 3) (hg : Grid grid size) (hi : ind + 1 < size)
    (x : ℝ) (k : ℕ) (hk : k < size) :
    HasDerivAt (fun x => code grid size ind (derivs 3 order x ind grid size) k)
      (code grid size ind (derivs 3 (order + 1) x ind grid size) k) x := by
  have e : ∀ B, code grid size ind B k = natural grid size (spread ind B) k := by
    intro B; rw [code, ← C51_naturalCubic _ _ _ _ hg hi k hk]
  simp only [e]
  have hs : ∀ j, HasDerivAt (fun x => spread ind (derivs 3 order x ind grid size) j)
      (spread ind (derivs 3 (order + 1) x ind grid size) j) x := by
    intro j
    simp only [spread]
    split_ifs with h
    · exact C50_derivative order 3 ho grid size ind hg hi x _ (by omega)
    · exact hasDerivAt_const x _
  simp only [natural]
  by_cases h2 : size = 2
  · simp only [if_pos h2]
    split_ifs
    · exact ((hs 0).add ((hs 1).const_mul _)).add ((hs 2).const_mul _)
    · exact ((hs 3).add ((hs 2).const_mul _)).add ((hs 1).const_mul _)
    · exact hasDerivAt_const x _
  · simp only [if_neg h2]
    refine HasDerivAt.add (HasDerivAt.add ?_ ?_) ?_
    · split_ifs
      · exact (hs 0).add ((hs 1).const_mul _)
      · exact (hs (size + 1)).add ((hs size).const_mul _)
      · exact hs (k + 1)
    · split_ifs
      · exact (hs 1).const_mul _
      · exact hasDerivAt_const x _
    · split_ifs
      · exact (hs size).const_mul _
      · exact hasDerivAt_const x _

/-- Non-vacuity: the smallest and a larger grid. -/
example : Grid (fun i => (i : ℝ) ^ 2) 2 ∧ Grid (fun i => (i : ℝ) ^ 2) 6 ∧ 2 + 2 < 6 := by
  have : ∀ n, Grid (fun i => (i : ℝ) ^ 2) n := by
    intro n i j h _
    have : (i : ℝ) < j := by exact_mod_cast h
    exact pow_lt_pow_left₀ this (by positivity) (by norm_num)
  exact ⟨this 2, this 6, by omega⟩

end
end Verif.BSpline
