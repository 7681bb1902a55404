import Verif.DensGrid.Names

/-! Classic scheme with N=0: cells -/

namespace Verif.DensGrid

open Real Verif.Coord

noncomputable section

theorem cellIdx_lt (g : Classic) {k p i j : ℕ} (hk : k < g.radii.length) (hp : p < 3) (hi : i < g.S) (hj : j < g.S) : g.cellIdx k p i j < g.numValues 0 := by
  unfold Classic.cellIdx Classic.numValues Classic.perShell
  have h1 : (p + k * 3 + 1) * g.S ≤ 3 * g.radii.length * g.S := Nat.mul_le_mul_right _ (by omega)
  have h2 : (j + (p + k * 3) * g.S + 1) * g.S ≤ 3 * g.radii.length * g.S * g.S := Nat.mul_le_mul_right _ (by nlinarith)
  nlinarith

theorem cellIdx_decode (g : Classic) {k p i j : ℕ} (hp : p < 3) (hi : i < g.S) (hj : j < g.S) :
    g.cellIdx k p i j / g.perShell 0 = k ∧ g.cellIdx k p i j % g.S = i ∧ g.cellIdx k p i j / g.S % g.S = j ∧ g.cellIdx k p i j % g.perShell 0 / (g.S * g.S) = p := by
  have hps : g.perShell 0 = 3 * g.S * g.S := rfl
  obtain ⟨a1, a2⟩ := div_mod_unique (a := g.cellIdx k p i j) (b := g.S) (q := j + (p + k * 3) * g.S) (r := i) (by rw [Classic.cellIdx]; ring) hi
  obtain ⟨a3, a4⟩ := div_mod_unique (a := j + (p + k * 3) * g.S) (b := g.S) (q := p + k * 3) (r := j) (by ring) hj
  have hb : i + j * g.S < g.S * g.S := by
    have : (j + 1) * g.S ≤ g.S * g.S := Nat.mul_le_mul_right _ hj
    nlinarith
  have hc : i + (j + p * g.S) * g.S < g.perShell 0 := by
    have : (j + p * g.S + 1) * g.S ≤ 3 * g.S * g.S := Nat.mul_le_mul_right _ (by nlinarith)
    rw [hps]; nlinarith
  obtain ⟨a5, a6⟩ := div_mod_unique (a := g.cellIdx k p i j) (b := g.perShell 0) (q := k) (r := i + (j + p * g.S) * g.S) (by rw [Classic.cellIdx, hps]; ring) hc
  obtain ⟨a7, a8⟩ := div_mod_unique (a := i + (j + p * g.S) * g.S) (b := g.S * g.S) (q := p) (r := i + j * g.S) (by ring) hb
  exact ⟨a5, a2, by rw [a1, a4], by rw [a6, a7]⟩

theorem cellIdx_surj {g : Classic} (hv : g.Valid) {q : ℕ} (hq : q < g.numValues 0) : ∃ k p i j, k < g.radii.length ∧ p < 3 ∧ i < g.S ∧ j < g.S ∧ g.cellIdx k p i j = q := by
  have hS := hv.strips
  have e1 := Nat.div_add_mod q g.S
  have e2 := Nat.mod_lt q hS
  have e3 := Nat.div_add_mod (q / g.S) g.S
  have e4 := Nat.mod_lt (q / g.S) hS
  have e5 := Nat.div_add_mod (q / g.S / g.S) 3
  have e6 := Nat.mod_lt (q / g.S / g.S) (by omega : 0 < 3)
  refine ⟨q / g.S / g.S / 3, q / g.S / g.S % 3, q % g.S, q / g.S % g.S, ?_, e6, e2, e4, ?_⟩
  · rw [Nat.div_div_eq_div_mul, Nat.div_div_eq_div_mul, Nat.div_lt_iff_lt_mul (by positivity)]
    unfold Classic.numValues Classic.perShell at hq
    nlinarith
  · rw [Classic.cellIdx, show q / g.S / g.S % 3 + q / g.S / g.S / 3 * 3 = q / g.S / g.S by omega,
      show q / g.S % g.S + q / g.S / g.S * g.S = q / g.S by rw [Nat.mul_comm]; omega, Nat.mul_comm]; omega

/-- addPoint for N=0: exactly one cell, which contains the point -/
theorem add0_eq {g : Classic} (hv : g.Valid) {pt : PosCar} {mult : ℝ} (hm : mult ≠ 0) {k : ℕ} (hk : InSeg g.radii k (g.rad pt)) :
    ∃ p i j, g.InPane pt p ∧ i < g.S ∧ j < g.S ∧ (0 < g.rad pt → ((i : ℝ) ≤ g.t1 pt p ∧ g.t1 pt p ≤ i + 1 ∧ (g.t1 pt p = i + 1 → i + 1 = g.S)) ∧ (j : ℝ) ≤ g.t2 pt p ∧ g.t2 pt p ≤ j + 1 ∧ (g.t2 pt p = j + 1 → j + 1 = g.S)) ∧
      g.add0 pt mult = some [((g.cellIdx k p i j : ℤ), mult)] := by
  obtain ⟨p0, hp0, hs⟩ := selectPane_spec (g.sx pt) (g.sy pt) (g.sz pt)
  have hn := cyc_nonneg (hv.snn pt) p0
  obtain ⟨b1, b2⟩ := ratio_range (S := g.S) hn.2.1 hp0.2.1
  obtain ⟨b3, b4⟩ := ratio_range (S := g.S) hn.2.2 hp0.2.2
  obtain ⟨i, i0, i1, i2, i3, i4⟩ := ind_range hv.strips b1 b2
  obtain ⟨j, j0, j1, j2, j3, j4⟩ := ind_range hv.strips b3 b4
  refine ⟨p0, i, j, hp0, i1, j1, fun hr => ?_, ?_⟩
  · have hz : 0 < (g.pane pt p0).1 := lt_of_le_of_ne hn.1 fun h => hr.ne' ((pane_zero hv hp0).1 h.symm)
    have r1 := ratio_angCoord (S := g.S) hz hp0.2.1
    have r2 := ratio_angCoord (S := g.S) hz hp0.2.2
    change ratioOf g.S (g.pane pt p0).1 (g.pane pt p0).2.1 = g.t1 pt p0 at r1
    change ratioOf g.S (g.pane pt p0).1 (g.pane pt p0).2.2 = g.t2 pt p0 at r2
    rw [← r1, ← r2]
    exact ⟨⟨i2, i3, i4⟩, j2, j3, j4⟩
  · unfold Classic.add0
    simp only
    rw [locate_seg hv.grid hk, if_neg, hs]
    · simp only [Option.bind_eq_bind, Option.bind_some]
      rw [i0, j0, cell0, Classic.cellIdx]
      have hps : g.perShell 0 = 3 * g.S * g.S := rfl
      rw [hps]
      push_cast
      have e : (i : ℤ) + (j + p0 * g.S) * g.S + k * (3 * g.S * g.S) = i + (j + (p0 + k * 3) * g.S) * g.S := by ring
      rw [e]
    · rintro (h | h)
      · have := hk.lt; omega
      · exact hm h

/-- a point in the interior of a pane does not belong to other panes -/
theorem pane_unique {g : Classic} {pt : PosCar} {p p' : ℕ} (hp : p < 3) (h1 : (g.pane pt p).2.1 < (g.pane pt p).1) (h2 : (g.pane pt p).2.2 < (g.pane pt p).1) (hp' : g.InPane pt p') : p' = p := by
  obtain ⟨h3, h4, h5⟩ := hp'
  unfold Classic.pane at h1 h2
  unfold cyc at *
  interval_cases p <;> interval_cases p' <;> first | rfl | (exfalso; norm_num at *; linarith)

/-- A point in the interior of a cell is assigned to this cell -/
theorem add0_interior {g : Classic} (hv : g.Valid) {pt : PosCar} {mult : ℝ} (hm : mult ≠ 0) {k p i j : ℕ} (hk : InSeg g.radii k (g.rad pt)) (hr : 0 < g.rad pt) (hp : p < 3)
    (h1 : (g.pane pt p).2.1 < (g.pane pt p).1) (h2 : (g.pane pt p).2.2 < (g.pane pt p).1) (hi : i < g.S) (hj : j < g.S) (a1 : (i : ℝ) ≤ g.t1 pt p) (a2 : g.t1 pt p < i + 1) (b1 : (j : ℝ) ≤ g.t2 pt p) (b2 : g.t2 pt p < j + 1) :
    g.add0 pt mult = some [((g.cellIdx k p i j : ℤ), mult)] := by
  obtain ⟨p', i', j', e1, e2, e3, e4, e5⟩ := add0_eq hv hm hk
  have := pane_unique hp h1 h2 e1
  subst this
  obtain ⟨⟨c1, c2, c3⟩, d1, d2, d3⟩ := e4 hr
  have key : ∀ (a b : ℕ) (t : ℝ), (a : ℝ) ≤ t → t < a + 1 → (b : ℝ) ≤ t → t ≤ b + 1 → (t = b + 1 → b + 1 = g.S) → a < g.S → b = a := by
    intro a b t h1 h2 h3 h4 h5 h6
    have x1 : (b : ℝ) < a + 1 := lt_of_le_of_lt h3 h2
    have x2 : b < a + 1 := by exact_mod_cast x1
    by_contra hne
    have x3 : (b : ℝ) + 1 ≤ a := by exact_mod_cast (by omega : b + 1 ≤ a)
    have := h5 (by linarith)
    omega
  rw [key i i' _ a1 a2 c1 c2 c3 hi, key j j' _ b1 b2 d1 d2 d3 hj] at e5
  exact e5

/-- the name of the coefficient is the centre of the cell -/
theorem name0_cell {g : Classic} (hv : g.Valid) {k p i j : ℕ} (hk : k < g.radii.length) (hp : p < 3) (hi : i < g.S) (hj : j < g.S) :
    ∃ pt, g.name0 (g.cellIdx k p i j) = some pt ∧ g.At pt ((node g.radii k + node g.radii (k + 1)) / 2) p (i + 1 / 2) (j + 1 / 2) := by
  obtain ⟨d1, d2, d3, d4⟩ := cellIdx_decode g (k := k) hp hi hj
  have hlt := cellIdx_lt g hk hp hi hj
  have hrad : (0.5 : ℝ) * (at' g.radii k + (if k > 0 then at' g.radii ((k : ℤ) - 1) else 0)) = (node g.radii k + node g.radii (k + 1)) / 2 := by
    split_ifs with h
    · rw [at'_succ, at'_pred _ h]; norm_num; ring
    · rw [at'_succ, show k = 0 by omega, node_zero]; norm_num; ring
  have hh : ∀ n : ℕ, ((n : ℝ) + 0.5) = n + 1 / 2 := fun n => by norm_num
  unfold Classic.name0
  rw [if_neg (by omega)]
  simp only
  rw [d1, d2, d3, d4, hrad, hh, hh]
  have h1 := node_nonneg hv.grid hk.le
  have h2 := node_nonneg hv.grid hk
  have h3 : (i : ℝ) + 1 ≤ g.S := by exact_mod_cast hi
  have h4 : (j : ℝ) + 1 ≤ g.S := by exact_mod_cast hj
  exact ⟨_, rfl, place_tan hv (by linarith) (by positivity) (by linarith) (by positivity) (by linarith) hp⟩

theorem angCoord_lt {S : ℕ} (hS : 1 ≤ S) {c0 c : ℝ} (h0 : 0 < c0) (h : angCoord S c0 c < S) : c < c0 := by
  have hS' : (0 : ℝ) < S := by exact_mod_cast hS
  have hpi := pi_pos
  rw [angCoord, mul_lt_iff_lt_one_right hS', div_lt_one (by positivity), ← arctan_one] at h
  have := arctan_strictMono.lt_iff_lt.1 h
  rwa [div_lt_one h0] at this

/-- and this centre is assigned to the cell -/
theorem add0_centre {g : Classic} (hv : g.Valid) {k p i j : ℕ} (hk : k < g.radii.length) (hp : p < 3) (hi : i < g.S) (hj : j < g.S) {pt : PosCar}
    (h : g.At pt ((node g.radii k + node g.radii (k + 1)) / 2) p (i + 1 / 2) (j + 1 / 2)) {mult : ℝ} (hm : mult ≠ 0) : g.add0 pt mult = some [((g.cellIdx k p i j : ℤ), mult)] := by
  have hs := hv.grid.step hk
  have h0 := node_nonneg hv.grid hk.le
  obtain ⟨e1, e2, e3⟩ := h.pane (by linarith)
  have hr : 0 < g.rad pt := by rw [h.radius]; linarith
  have hseg : InSeg g.radii k (g.rad pt) := by
    rw [h.radius]
    exact ⟨hk, by linarith, by linarith, fun h => by linarith⟩
  have h3 : (i : ℝ) + 1 ≤ g.S := by exact_mod_cast hi
  have h4 : (j : ℝ) + 1 ≤ g.S := by exact_mod_cast hj
  have hz : 0 < (g.pane pt p).1 := lt_of_le_of_ne (cyc_nonneg (hv.snn pt) p).1 fun h => hr.ne' ((pane_zero hv e1).1 h.symm)
  exact add0_interior hv hm hseg hr hp (angCoord_lt hv.strips hz (by change g.t1 pt p < _; rw [e2]; linarith)) (angCoord_lt hv.strips hz (by change g.t2 pt p < _; rw [e3]; linarith)) hi hj
    (by rw [e2]; linarith) (by rw [e2]; linarith) (by rw [e3]; linarith) (by rw [e3]; linarith)

end

end Verif.DensGrid
