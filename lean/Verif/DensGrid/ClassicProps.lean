import Verif.DensGrid.Cont

/-! C91: Classic spatial discretization scheme (TargetDensityClassic) -/

namespace Verif.DensGrid

open Real Verif.Coord

noncomputable section

open Classical in
/-- The constructor accepts exactly the increasing grids of positive numbers (a non-positive first element is dropped), at least one strip per pane, and positive axis ratios; the axes have the requested ratios and unit product. -/
theorem C91_constructor (S : ℕ) (gridr : List ℝ) (yx zx : ℝ) :
    ((mkClassic S gridr yx zx).isSome ↔ okGrid (skipZero gridr) ∧ 1 ≤ S ∧ 0 < yx ∧ 0 < zx) ∧
    ∀ g, mkClassic S gridr yx zx = some g → g.Valid ∧ g.S = S ∧ g.radii = skipZero gridr ∧ g.axisY / g.axisX = yx ∧ g.axisZ / g.axisX = zx ∧ g.axisX * g.axisY * g.axisZ = 1 := by
  refine ⟨?_, fun g => mkClassic_valid⟩
  unfold mkClassic
  simp only
  split_ifs with h
  · simp only [Option.isSome_none, Bool.false_eq_true, false_iff]
    rintro ⟨h1, h2, h3, h4⟩
    have := h1.1
    rcases h with h | h | h | h | h
    · exact h h1
    · omega
    · omega
    · linarith
    · linarith
  · push Not at h
    simp only [Option.isSome_some, true_iff]
    exact ⟨h.1, h.2.1, h.2.2.2.1, h.2.2.2.2⟩

/-- Piecewise-constant elements (N=0): a point within the grid adds its weight to exactly one element of the output array; this element belongs to the cell (shell k, pane p, strips i,j) which contains the point, and different cells have different numbers. -/
theorem C91_cells {S : ℕ} {gridr : List ℝ} {yx zx : ℝ} {g : Classic} (hg : mkClassic S gridr yx zx = some g) :
    (∀ pt mult k, mult ≠ 0 → InSeg g.radii k (g.rad pt) →
      ∃ p i j, g.InPane pt p ∧ i < g.S ∧ j < g.S ∧
        (0 < g.rad pt → ((i : ℝ) ≤ g.t1 pt p ∧ g.t1 pt p ≤ i + 1) ∧ (j : ℝ) ≤ g.t2 pt p ∧ g.t2 pt p ≤ j + 1) ∧
        g.cellIdx k p i j < g.numValues 0 ∧ g.add0 pt mult = some [((g.cellIdx k p i j : ℤ), mult)]) ∧
    (∀ pt mult k p i j, mult ≠ 0 → InSeg g.radii k (g.rad pt) → 0 < g.rad pt → p < 3 → (g.pane pt p).2.1 < (g.pane pt p).1 → (g.pane pt p).2.2 < (g.pane pt p).1 →
      i < g.S → j < g.S → (i : ℝ) ≤ g.t1 pt p → g.t1 pt p < i + 1 → (j : ℝ) ≤ g.t2 pt p → g.t2 pt p < j + 1 →
      g.add0 pt mult = some [((g.cellIdx k p i j : ℤ), mult)]) ∧
    (∀ q, q < g.numValues 0 ↔ ∃ k p i j, k < g.radii.length ∧ p < 3 ∧ i < g.S ∧ j < g.S ∧ g.cellIdx k p i j = q) ∧
    (∀ k p i j k' p' i' j', p < 3 → i < g.S → j < g.S → p' < 3 → i' < g.S → j' < g.S → g.cellIdx k p i j = g.cellIdx k' p' i' j' → k = k' ∧ p = p' ∧ i = i' ∧ j = j') := by
  have hv := (mkClassic_valid hg).1
  refine ⟨fun pt mult k hm hk => ?_, fun pt mult k p i j hm hk hr hp h1 h2 hi hj a1 a2 b1 b2 => add0_interior hv hm hk hr hp h1 h2 hi hj a1 a2 b1 b2, fun q => ⟨cellIdx_surj hv, ?_⟩, ?_⟩
  · obtain ⟨p, i, j, h1, h2, h3, h4, h5⟩ := add0_eq hv hm hk
    exact ⟨p, i, j, h1, h2, h3, fun hr => ⟨⟨(h4 hr).1.1, (h4 hr).1.2.1⟩, (h4 hr).2.1, (h4 hr).2.2.1⟩, cellIdx_lt g hk.lt h1.1 h2 h3, h5⟩
  · rintro ⟨k, p, i, j, h1, h2, h3, h4, rfl⟩
    exact cellIdx_lt g h1 h2 h3 h4
  · intro k p i j k' p' i' j' h1 h2 h3 h4 h5 h6 e
    obtain ⟨a1, a2, a3, a4⟩ := cellIdx_decode g (k := k) h1 h2 h3
    obtain ⟨b1, b2, b3, b4⟩ := cellIdx_decode g (k := k') h4 h5 h6
    rw [e] at a1 a2 a3 a4
    exact ⟨a1.symm.trans b1, a4.symm.trans b4, a2.symm.trans b2, a3.symm.trans b3⟩

/-- N=0: coefName of a valid index is a point at the centre of the cell with this index (so that addPoint at this point changes the element with this index), and any other index is rejected. -/
theorem C91_cell_names {S : ℕ} {gridr : List ℝ} {yx zx : ℝ} {g : Classic} (hg : mkClassic S gridr yx zx = some g) :
    (∀ q, g.numValues 0 ≤ q → g.name0 q = none) ∧
    ∀ k p i j, k < g.radii.length → p < 3 → i < g.S → j < g.S →
      ∃ pt, g.name0 (g.cellIdx k p i j) = some pt ∧ g.At pt ((node g.radii k + node g.radii (k + 1)) / 2) p (i + 1 / 2) (j + 1 / 2) ∧
        ∀ mult, mult ≠ 0 → g.add0 pt mult = some [((g.cellIdx k p i j : ℤ), mult)] := by
  have hv := (mkClassic_valid hg).1
  refine ⟨fun q hq => by rw [Classic.name0, if_pos hq], fun k p i j h1 h2 h3 h4 => ?_⟩
  obtain ⟨pt, e1, e2⟩ := name0_cell hv h1 h2 h3 h4
  exact ⟨pt, e1, e2, fun mult hm => add0_centre hv h1 h2 h3 h4 e2 hm⟩

/-- Trilinear elements (N=1): a point within the grid adds `mult` times the value of the basis function to each element of the output array, and only to valid elements; the values of basis functions are non-negative and their sum is unity, so that the weight of the point is conserved. If the point belongs to several panes, it does not matter which one is used. -/
theorem C91_elements {S : ℕ} {gridr : List ℝ} {yx zx : ℝ} {g : Classic} (hg : mkClassic S gridr yx zx = some g) {pt : PosCar} {mult : ℝ} (hm : mult ≠ 0) {k : ℕ} (hk : InSeg g.radii k (g.rad pt)) :
    ∃ u, g.add1 pt mult = some u ∧ (∀ e ∈ u, 0 ≤ e.1 ∧ e.1 < g.numValues 1) ∧
      (∀ p, g.InPane pt p → ∀ (v : ℤ → ℝ) (q : ℕ), applyUpd v u q = v q + mult * g.basis p (g.rad pt) (g.t1 pt p) (g.t2 pt p) q) ∧
      (∀ v : ℤ → ℝ, ∑ q ∈ Finset.range (g.numValues 1), applyUpd v u q = ∑ q ∈ Finset.range (g.numValues 1), v q + mult) ∧
      (0 ≤ mult → ∀ (v : ℤ → ℝ) (q : ℕ), v q ≤ applyUpd v u q) := by
  have hv := (mkClassic_valid hg).1
  obtain ⟨u, e1, e2, e3⟩ := add1_eq hv hm hk
  obtain ⟨p, hp⟩ := exists_pane g pt
  obtain ⟨⟨a1, a2⟩, a3, a4⟩ := t_range hv hp
  have hle : g.rad pt ≤ node g.radii g.radii.length := hk.hi.trans (hv.grid.le hk.lt le_rfl)
  refine ⟨u, e1, e2, fun p hp v q => by rw [applyUpd_eq, e3 p hp q], fun v => ?_, fun h0 v q => ?_⟩
  · simp only [applyUpd_eq, e3 p hp]
    rw [Finset.sum_add_distrib, ← Finset.mul_sum, basis_sum hv hp.1 (rad_nonneg g pt) hle a1 a2 a3 a4, mul_one]
  · rw [applyUpd_eq, e3 p hp]
    have := mul_nonneg h0 (basis_nonneg g p (g.rad pt) (g.t1 pt p) (g.t2 pt p) q)
    linarith

/-- N=1: coefName of a valid index is the position of the node with this index; each basis function is unity at its node and zero at all other nodes (the nodes at the outer boundary are inside the grid only if it has more than one shell). Every valid index is the index of some node, which is described in two or three ways if it belongs to several panes. -/
theorem C91_nodes {S : ℕ} {gridr : List ℝ} {yx zx : ℝ} {g : Classic} (hg : mkClassic S gridr yx zx = some g) :
    (∀ q, g.numValues 1 ≤ q → g.name1 q = none) ∧
    (∀ q, q < g.numValues 1 ↔ ∃ k p i j, k ≤ g.radii.length ∧ p < 3 ∧ i ≤ g.S ∧ j ≤ g.S ∧ g.nodeIdx k p i j = q) ∧
    ∀ k p i j, k ≤ g.radii.length → p < 3 → i ≤ g.S → j ≤ g.S →
      ∃ pt, g.name1 (g.nodeIdx k p i j) = some pt ∧ g.At pt (node g.radii k) p i j ∧
        (k < g.radii.length ∨ 2 ≤ g.radii.length → ∀ mult, mult ≠ 0 → ∃ u, g.add1 pt mult = some u ∧ ∀ (v : ℤ → ℝ) (q : ℕ), applyUpd v u q = v q + if q = g.nodeIdx k p i j then mult else 0) := by
  have hv := (mkClassic_valid hg).1
  refine ⟨fun q hq => by rw [Classic.name1, if_pos hq], fun q => ⟨nodeIdx_surj hv, ?_⟩, fun k p i j hk hp hi hj => ?_⟩
  · rintro ⟨k, p, i, j, h1, h2, h3, -, rfl⟩
    exact nodeIdx_lt g h1 h2 h3
  obtain ⟨pt, e1, e2⟩ := name1_node hv hk hp hi hj
  refine ⟨pt, e1, e2, fun hn mult hm => ?_⟩
  have h0 := node_nonneg hv.grid hk
  obtain ⟨s, hs⟩ : ∃ s, InSeg g.radii s (g.rad pt) := by
    rw [e2.radius]
    rcases hn with hn | hn
    · exact inSeg_of_lt hv h0 (hv.grid.mono hn le_rfl)
    · exact inSeg_of_le hv hn h0 (hv.grid.le hk le_rfl)
  obtain ⟨u, f1, -, f2⟩ := add1_eq hv hm hs
  refine ⟨u, f1, fun v q => ?_⟩
  rw [applyUpd_eq]
  congr 1
  rcases h0.eq_or_lt with h | h
  · have hk0 : k = 0 := by
      by_contra hne
      have := hv.grid.mono (Nat.pos_of_ne_zero hne) hk
      rw [node_zero] at this; linarith
    obtain ⟨p', hp'⟩ := exists_pane g pt
    obtain ⟨⟨a1, a2⟩, a3, a4⟩ := t_range hv hp'
    rw [f2 p' hp', e2.radius, ← h, basis_origin hv p' a1 a2 a3 a4]
    have : g.nodeIdx k p i j = 0 := by rw [hk0]; simp [Classic.nodeIdx]
    rw [this, mul_ite, mul_one, mul_zero]
  · obtain ⟨g1, g2, g3⟩ := e2.pane h
    rw [f2 p g1, g2, g3, e2.radius, basis_node hv hk hi hj, mul_ite, mul_one, mul_zero]
    simp only [eq_comm]

/-- N=1: each basis function is a continuous function of position within the grid (which has at least two shells), including the boundaries of cells, shells and panes, and the origin. -/
theorem C91_continuous {S : ℕ} {gridr : List ℝ} {yx zx : ℝ} {g : Classic} (hg : mkClassic S gridr yx zx = some g) (hn : 2 ≤ g.radii.length) (q : ℕ) :
    ContinuousOn (fun v : ℝ × ℝ × ℝ => contrib ((g.add1 ⟨v.1, v.2.1, v.2.2⟩ 1).getD []) q) {v | g.rad ⟨v.1, v.2.1, v.2.2⟩ ≤ node g.radii g.radii.length} :=
  value_cont (mkClassic_valid hg).1 hn q

/-- Both schemes: points outside the grid, as well as points with zero weight, do not change anything; the eight points which differ by the signs of the coordinates are equivalent; there are no exceptions. -/
theorem C91_outside {S : ℕ} {gridr : List ℝ} {yx zx : ℝ} {g : Classic} (hg : mkClassic S gridr yx zx = some g) :
    (∀ pt mult, mult = 0 ∨ Outside g.radii (g.rad pt) → g.add0 pt mult = some [] ∧ g.add1 pt mult = some []) ∧
    (∀ pt, (∃ k, InSeg g.radii k (g.rad pt)) ∨ Outside g.radii (g.rad pt)) ∧
    (∀ pt mult, (g.add0 pt mult).isSome ∧ (g.add1 pt mult).isSome) ∧
    (∀ x y z x' y' z' mult, |x'| = |x| → |y'| = |y| → |z'| = |z| → g.add0 ⟨x', y', z'⟩ mult = g.add0 ⟨x, y, z⟩ mult ∧ g.add1 ⟨x', y', z'⟩ mult = g.add1 ⟨x, y, z⟩ mult) := by
  have hv := (mkClassic_valid hg).1
  have hcase : ∀ pt, (∃ k, InSeg g.radii k (g.rad pt)) ∨ Outside g.radii (g.rad pt) := by
    intro pt
    obtain ⟨k, -, h | h⟩ := locate_spec hv.grid (rad_nonneg g pt)
    · exact Or.inl ⟨k, h⟩
    · exact Or.inr h.2
  refine ⟨?_, hcase, ?_, ?_⟩
  · rintro pt mult (h | h)
    · rw [h]; exact add_zero g pt
    · exact add_outside hv mult h
  · intro pt mult
    by_cases hm : mult = 0
    · rw [hm, (add_zero g pt).1, (add_zero g pt).2]; exact ⟨rfl, rfl⟩
    · rcases hcase pt with ⟨k, hk⟩ | h
      · obtain ⟨_, _, _, -, -, -, -, e⟩ := add0_eq hv hm hk
        obtain ⟨u, e', -⟩ := add1_eq hv hm hk
        rw [e, e']; exact ⟨rfl, rfl⟩
      · rw [(add_outside hv mult h).1, (add_outside hv mult h).2]; exact ⟨rfl, rfl⟩
  · intro x y z x' y' z' mult hx hy hz
    have sx : g.sx ⟨x', y', z'⟩ = g.sx ⟨x, y, z⟩ := by simp only [Classic.sx, abs_div, hx]
    have sy : g.sy ⟨x', y', z'⟩ = g.sy ⟨x, y, z⟩ := by simp only [Classic.sy, hy]
    have sz : g.sz ⟨x', y', z'⟩ = g.sz ⟨x, y, z⟩ := by simp only [Classic.sz, hz]
    have r : g.rad ⟨x', y', z'⟩ = g.rad ⟨x, y, z⟩ := by simp only [Classic.rad, sx, sy, sz]
    constructor
    · simp only [Classic.add0, sx, sy, sz, r]
    · simp only [Classic.add1, sx, sy, sz, r]

/-! ### an example: two shells, two strips per pane, axis ratios 1 and 1 -/

theorem okGrid_two : okGrid [1, 2] := by
  refine ⟨by simp, by simp [at', Verif.BinSearch.arrAt], fun i h1 h2 => ?_⟩
  have h3 : i = 1 := by simp at h2; omega
  subst h3
  simp [at', Verif.BinSearch.arrAt]

theorem example_mk : mkClassic 2 [0, 1, 2] 1 1 = some ⟨2, [1, 2], 1, 1, 1⟩ := by
  have : skipZero [0, 1, 2] = [1, 2] := by simp [skipZero]
  unfold mkClassic
  simp only [this]
  rw [if_neg]
  · norm_num
  · push Not
    rw [this]
    exact ⟨okGrid_two, by norm_num, by simp, by norm_num, by norm_num⟩

theorem example_rad (x y z : ℝ) : (⟨2, [1, 2], 1, 1, 1⟩ : Classic).rad ⟨x, y, z⟩ = √(x ^ 2 + y ^ 2 + z ^ 2) := by
  simp only [Classic.rad, Classic.sx, Classic.sy, Classic.sz, div_one, abs_mul_abs_self]
  congr 1; ring

/-- the point (0.5,0.5,-1) is in the second shell, in the pane z -/
example : InSeg [1, 2] 1 ((⟨2, [1, 2], 1, 1, 1⟩ : Classic).rad ⟨0.5, 0.5, -1⟩) ∧ (⟨2, [1, 2], 1, 1, 1⟩ : Classic).InPane ⟨0.5, 0.5, -1⟩ 2 := by
  constructor
  · rw [example_rad]
    have h1 : 1 ≤ √((0.5 : ℝ) ^ 2 + 0.5 ^ 2 + (-1) ^ 2) := by rw [Real.one_le_sqrt]; norm_num
    have h2 : √((0.5 : ℝ) ^ 2 + 0.5 ^ 2 + (-1) ^ 2) < 2 := by rw [Real.sqrt_lt' (by norm_num)]; norm_num
    exact ⟨by simp, by simpa [node] using h1, by simpa [node] using h2.le, fun h => by simp only [node] at h; norm_num at h h2; linarith⟩
  · refine ⟨by omega, ?_, ?_⟩ <;> norm_num [cyc, Classic.sx, Classic.sy, Classic.sz, abs_of_nonneg]

/-- The last radius belongs to the grid (and a point at this radius is added to the array) if there are at least two shells, but not if there is only one: the same point in the same outer shell is lost. -/
theorem C91_refuted_single_shell : ∃ g1 g2 : Classic, mkClassic 2 [0, 1, 2] 1 1 = some g2 ∧ mkClassic 2 [0, 2] 1 1 = some g1 ∧
    g1.add0 ⟨2, 0, 0⟩ 1 = some [] ∧ g1.add1 ⟨2, 0, 0⟩ 1 = some [] ∧ (∃ q, g2.add0 ⟨2, 0, 0⟩ 1 = some [(q, 1)]) ∧ ∃ u, g2.add1 ⟨2, 0, 0⟩ 1 = some u ∧ u ≠ [] := by
  have h1 : mkClassic 2 [0, 2] 1 1 = some ⟨2, [2], 1, 1, 1⟩ := by
    have hs : skipZero [0, 2] = [2] := by simp [skipZero]
    unfold mkClassic
    simp only [hs]
    rw [if_neg]
    · norm_num
    · push Not
      rw [hs]
      refine ⟨⟨by simp, by simp [at', Verif.BinSearch.arrAt], fun i h1 h2 => ?_⟩, by norm_num, by simp, by norm_num, by norm_num⟩
      simp at h2; omega
  have r1 : (⟨2, [2], 1, 1, 1⟩ : Classic).rad ⟨2, 0, 0⟩ = 2 := by
    simp only [Classic.rad, Classic.sx, Classic.sy, Classic.sz, div_one, abs_mul_abs_self]
    rw [show (2 : ℝ) * 2 + 0 * 0 + 0 * 0 = 2 ^ 2 by norm_num, sqrt_sq (by norm_num)]
  have r2 : (⟨2, [1, 2], 1, 1, 1⟩ : Classic).rad ⟨2, 0, 0⟩ = 2 := by
    rw [example_rad, show (2 : ℝ) ^ 2 + 0 ^ 2 + 0 ^ 2 = 2 ^ 2 by norm_num, sqrt_sq (by norm_num)]
  have ho : Outside [2] ((⟨2, [2], 1, 1, 1⟩ : Classic).rad ⟨2, 0, 0⟩) := by
    rw [r1]; exact ⟨by simp [node], fun _ => by simp⟩
  have hi : InSeg (⟨2, [1, 2], 1, 1, 1⟩ : Classic).radii 1 ((⟨2, [1, 2], 1, 1, 1⟩ : Classic).rad ⟨2, 0, 0⟩) := by
    rw [r2]; exact ⟨by simp, by simp [node], by simp [node], fun _ => ⟨by simp, by simp⟩⟩
  have v1 := (mkClassic_valid h1).1
  have v2 := (mkClassic_valid example_mk).1
  refine ⟨_, _, example_mk, h1, (add_outside v1 1 ho).1, (add_outside v1 1 ho).2, ?_, ?_⟩
  · obtain ⟨p, i, j, -, -, -, -, e⟩ := add0_eq v2 one_ne_zero hi
    exact ⟨_, e⟩
  · obtain ⟨u, e1, -, -, e2, -⟩ := C91_elements example_mk (mult := 1) one_ne_zero hi
    refine ⟨u, e1, fun h => ?_⟩
    have := e2 (fun _ => 0)
    rw [h] at this
    simp [applyUpd] at this

end

end Verif.DensGrid
