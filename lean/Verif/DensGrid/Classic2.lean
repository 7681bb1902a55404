import Verif.DensGrid.Classic

/-! Classic scheme: addPoint -/

namespace Verif.DensGrid

open Real Verif.Coord

noncomputable section

/-- specification: the three scaled coordinates in the order of the pane p -/
def Classic.pane (g : Classic) (pt : PosCar) (p : ℕ) : ℝ × ℝ × ℝ := cyc (g.sx pt) (g.sy pt) (g.sz pt) p

/-- specification: the point belongs to the (closed) pane p: its first coordinate is the largest -/
def Classic.InPane (g : Classic) (pt : PosCar) (p : ℕ) : Prop := DensGrid.InPane (g.sx pt) (g.sy pt) (g.sz pt) p

/-- specification: fractional indices of the strips in the pane p -/
def Classic.t1 (g : Classic) (pt : PosCar) (p : ℕ) : ℝ := angCoord g.S (g.pane pt p).1 (g.pane pt p).2.1
def Classic.t2 (g : Classic) (pt : PosCar) (p : ℕ) : ℝ := angCoord g.S (g.pane pt p).1 (g.pane pt p).2.2

theorem Classic.Valid.snn {g : Classic} (hv : g.Valid) (pt : PosCar) : 0 ≤ g.sx pt ∧ 0 ≤ g.sy pt ∧ 0 ≤ g.sz pt :=
  ⟨abs_nonneg _, div_nonneg (abs_nonneg _) hv.ay.le, div_nonneg (abs_nonneg _) hv.az.le⟩

theorem cyc_nonneg {X Y Z : ℝ} (h : 0 ≤ X ∧ 0 ≤ Y ∧ 0 ≤ Z) (p : ℕ) : 0 ≤ (cyc X Y Z p).1 ∧ 0 ≤ (cyc X Y Z p).2.1 ∧ 0 ≤ (cyc X Y Z p).2.2 := by
  obtain ⟨h1, h2, h3⟩ := h
  unfold cyc
  split_ifs
  · exact ⟨h1, h2, h3⟩
  · exact ⟨h2, h3, h1⟩
  · exact ⟨h3, h1, h2⟩

theorem cyc_sq (X Y Z : ℝ) (p : ℕ) : (cyc X Y Z p).1 ^ 2 + (cyc X Y Z p).2.1 ^ 2 + (cyc X Y Z p).2.2 ^ 2 = X * X + Y * Y + Z * Z := by
  unfold cyc
  split_ifs <;> simp only <;> ring

theorem rad_sq (g : Classic) (pt : PosCar) (p : ℕ) : g.rad pt = √((g.pane pt p).1 ^ 2 + (g.pane pt p).2.1 ^ 2 + (g.pane pt p).2.2 ^ 2) := by
  rw [Classic.pane, cyc_sq]; rfl

theorem rad_nonneg (g : Classic) (pt : PosCar) : 0 ≤ g.rad pt := sqrt_nonneg _

/-- in a pane, the first coordinate vanishes only at the origin -/
theorem pane_zero {g : Classic} (hv : g.Valid) {pt : PosCar} {p : ℕ} (hp : g.InPane pt p) : (g.pane pt p).1 = 0 ↔ g.rad pt = 0 := by
  have hn := cyc_nonneg (hv.snn pt) p
  have h2 := hp.2.1
  have h3 := hp.2.2
  rw [rad_sq g pt p, sqrt_eq_zero (by positivity)]
  change 0 ≤ (g.pane pt p).1 ∧ 0 ≤ (g.pane pt p).2.1 ∧ 0 ≤ (g.pane pt p).2.2 at hn
  change (g.pane pt p).2.1 ≤ (g.pane pt p).1 at h2
  change (g.pane pt p).2.2 ≤ (g.pane pt p).1 at h3
  generalize (g.pane pt p) = c at *
  constructor
  · intro h
    have e1 : c.2.1 = 0 := by linarith
    have e2 : c.2.2 = 0 := by linarith
    rw [h, e1, e2]; norm_num
  · intro h
    nlinarith [sq_nonneg c.1, sq_nonneg c.2.1, sq_nonneg c.2.2]

theorem ratio_angCoord {S : ℕ} {c0 c : ℝ} (hp : 0 < c0) (h1 : c ≤ c0) : ratioOf S c0 c = angCoord S c0 c := by
  rw [ratio_eq hp h1, angCoord]
  have := pi_pos
  field_simp

theorem angCoord_range {S : ℕ} {c0 c : ℝ} (h0 : 0 ≤ c) (h1 : c ≤ c0) : 0 ≤ angCoord S c0 c ∧ angCoord S c0 c ≤ S := by
  rcases (h0.trans h1).eq_or_lt with h | h
  · rw [angCoord, ← h]; simp
  · rw [← ratio_angCoord h h1]; exact ratio_range h0 h1

theorem t_range {g : Classic} (hv : g.Valid) {pt : PosCar} {p : ℕ} (hp : g.InPane pt p) : (0 ≤ g.t1 pt p ∧ g.t1 pt p ≤ g.S) ∧ 0 ≤ g.t2 pt p ∧ g.t2 pt p ≤ g.S := by
  have hn := cyc_nonneg (hv.snn pt) p
  exact ⟨angCoord_range hn.2.1 hp.2.1, angCoord_range hn.2.2 hp.2.2⟩

theorem adj_cases {p p' : ℕ} (hp : p < 3) (hp' : p' < 3) (hne : p ≠ p') : p' = (p + 2) % 3 ∨ p = (p' + 2) % 3 := by omega

theorem cyc_adj (X Y Z : ℝ) {p : ℕ} (hp : p < 3) : cyc X Y Z ((p + 2) % 3) = ((cyc X Y Z p).2.2, (cyc X Y Z p).1, (cyc X Y Z p).2.1) := by
  interval_cases p <;> simp [cyc]

theorem angCoord_one {S : ℕ} {c : ℝ} (h : c ≠ 0) : angCoord S c c = S := by
  rw [angCoord, div_self h, arctan_one, div_self (by have := pi_pos; positivity), mul_one]

/-- On the boundaries of the panes, the basis functions do not depend on the choice of the pane -/
theorem basis_pane {g : Classic} (hv : g.Valid) {pt : PosCar} {p p' : ℕ} (hp : g.InPane pt p) (hp' : g.InPane pt p') (q : ℕ) :
    g.basis p (g.rad pt) (g.t1 pt p) (g.t2 pt p) q = g.basis p' (g.rad pt) (g.t1 pt p') (g.t2 pt p') q := by
  by_cases hr : g.rad pt = 0
  · obtain ⟨⟨a1, a2⟩, a3, a4⟩ := t_range hv hp
    obtain ⟨⟨b1, b2⟩, b3, b4⟩ := t_range hv hp'
    rw [hr, basis_origin hv p a1 a2 a3 a4, basis_origin hv p' b1 b2 b3 b4]
  have key : ∀ p, p < 3 → g.InPane pt p → g.InPane pt ((p + 2) % 3) → g.basis p (g.rad pt) (g.t1 pt p) (g.t2 pt p) q = g.basis ((p + 2) % 3) (g.rad pt) (g.t1 pt ((p + 2) % 3)) (g.t2 pt ((p + 2) % 3)) q := by
    intro p hlt h1 h2
    have hz : (g.pane pt p).1 ≠ 0 := fun h => hr ((pane_zero hv h1).1 h)
    have e := cyc_adj (g.sx pt) (g.sy pt) (g.sz pt) hlt
    have e2 := h2.2.1
    rw [e] at e2
    have e3 : (g.pane pt p).2.2 = (g.pane pt p).1 := le_antisymm h1.2.2 e2
    have t2 : g.t2 pt p = g.S := by rw [Classic.t2, e3, angCoord_one hz]
    have e' : g.pane pt ((p + 2) % 3) = ((g.pane pt p).2.2, (g.pane pt p).1, (g.pane pt p).2.1) := e
    have t1' : g.t1 pt ((p + 2) % 3) = g.S := by rw [Classic.t1, e', e3, angCoord_one hz]
    have t2' : g.t2 pt ((p + 2) % 3) = g.t1 pt p := by rw [Classic.t2, e', e3, Classic.t1]
    rw [t2, t1', t2', basis_adj]
  by_cases hne : p = p'
  · rw [hne]
  · rcases adj_cases hp.1 hp'.1 hne with h | h
    · subst h; exact key p hp.1 hp hp'
    · subst h; exact (key p' hp'.1 hp' hp).symm

theorem exists_pane (g : Classic) (pt : PosCar) : ∃ p, g.InPane pt p := by
  obtain ⟨p, h, -⟩ := selectPane_spec (g.sx pt) (g.sy pt) (g.sz pt)
  exact ⟨p, h⟩

/-- ratios computed by the code give the same basis functions -/
theorem basis_ratio {g : Classic} (hv : g.Valid) {pt : PosCar} {p : ℕ} (hp : g.InPane pt p) (q : ℕ) :
    g.basis p (g.rad pt) (ratioOf g.S (g.pane pt p).1 (g.pane pt p).2.1) (ratioOf g.S (g.pane pt p).1 (g.pane pt p).2.2) q = g.basis p (g.rad pt) (g.t1 pt p) (g.t2 pt p) q := by
  have hn := cyc_nonneg (hv.snn pt) p
  by_cases hr : g.rad pt = 0
  · obtain ⟨⟨a1, a2⟩, a3, a4⟩ := t_range hv hp
    obtain ⟨b1, b2⟩ := ratio_range (S := g.S) hn.2.1 hp.2.1
    obtain ⟨b3, b4⟩ := ratio_range (S := g.S) hn.2.2 hp.2.2
    rw [hr, basis_origin hv p a1 a2 a3 a4]
    exact basis_origin hv p b1 b2 b3 b4 q
  · have hz : 0 < (g.pane pt p).1 := lt_of_le_of_ne hn.1 fun h => hr ((pane_zero hv hp).1 h.symm)
    have l1 : (g.pane pt p).2.1 ≤ (g.pane pt p).1 := hp.2.1
    have l2 : (g.pane pt p).2.2 ≤ (g.pane pt p).1 := hp.2.2
    rw [ratio_angCoord hz l1, ratio_angCoord hz l2]; rfl

/-- addPoint for N=1: the increments are the values of the basis functions -/
theorem add1_eq {g : Classic} (hv : g.Valid) {pt : PosCar} {mult : ℝ} (hm : mult ≠ 0) {k : ℕ} (hk : InSeg g.radii k (g.rad pt)) :
    ∃ u, g.add1 pt mult = some u ∧ (∀ e ∈ u, 0 ≤ e.1 ∧ e.1 < g.numValues 1) ∧ ∀ p, g.InPane pt p → ∀ q : ℕ, contrib u q = mult * g.basis p (g.rad pt) (g.t1 pt p) (g.t2 pt p) q := by
  obtain ⟨p0, hp0, hs⟩ := selectPane_spec (g.sx pt) (g.sy pt) (g.sz pt)
  have hn := cyc_nonneg (hv.snn pt) p0
  obtain ⟨b1, b2⟩ := ratio_range (S := g.S) hn.2.1 hp0.2.1
  obtain ⟨b3, b4⟩ := ratio_range (S := g.S) hn.2.2 hp0.2.2
  obtain ⟨i, i0, i1, i2, i3, -⟩ := ind_range hv.strips b1 b2
  obtain ⟨j, j0, j1, j2, j3, -⟩ := ind_range hv.strips b3 b4
  refine ⟨g.incr1 k p0 i j (g.rad pt) (ratioOf g.S (g.pane pt p0).1 (g.pane pt p0).2.1 - i) (ratioOf g.S (g.pane pt p0).1 (g.pane pt p0).2.2 - j) mult, ?_, ?_, ?_⟩
  · unfold Classic.add1
    simp only
    rw [locate_seg hv.grid hk, if_neg, hs]
    · simp only [Option.bind_eq_bind, Option.bind_some]
      rw [i0, j0]
      simp only [Classic.pane, Int.cast_natCast]
    · rintro (h | h)
      · have := hk.lt; omega
      · exact hm h
  · intro e he
    have hN : ∀ k' i' j' : ℕ, k' ≤ g.radii.length → i' ≤ g.S → (0 : ℤ) ≤ (g.nodeIdx k' p0 i' j' : ℤ) ∧ (g.nodeIdx k' p0 i' j' : ℤ) < g.numValues 1 := by
      intro k' i' j' h1 h2
      have := nodeIdx_lt g (j := j') h1 hp0.1 h2
      omega
    have hq : ∀ (k' : ℕ) (f1 f2 val : ℝ), k' < g.radii.length → ∀ e ∈ quad ((k' : ℤ) * g.perShell 1 + 1) (corners1 g.S p0 i j) f1 f2 val, 0 ≤ e.1 ∧ e.1 < g.numValues 1 := by
      intro k' f1 f2 val hk' e he
      rw [corners_eq i1 j1, quad] at he
      have hc : ∀ i' j', ((k' : ℤ) * g.perShell 1 + 1 + (angIdx g.S p0 i' j' : ℤ)) = g.nodeIdx (k' + 1) p0 i' j' := fun i' j' => (nodeIdx_cast g k' p0 i' j' _).2 rfl
      simp only [hc, List.mem_cons, List.not_mem_nil, or_false] at he
      rcases he with h | h | h | h <;> rw [h] <;> exact hN _ _ _ (by omega) (by omega)
    unfold Classic.incr1 at he
    simp only [List.mem_append] at he
    rcases he with he | he
    · exact hq k _ _ _ hk.lt e he
    · split_ifs at he with h0
      · simp only [List.mem_cons, List.not_mem_nil, or_false] at he
        rw [he]
        have : 0 < g.numValues 1 := by unfold Classic.numValues; omega
        simp only; omega
      · have hk0 : 0 < k := by omega
        rw [show (k : ℤ) * (g.perShell 1 : ℤ) + 1 - (g.perShell 1 : ℤ) = ((k - 1 : ℕ) : ℤ) * g.perShell 1 + 1 by push_cast [hk0]; ring] at he
        exact hq (k - 1) _ _ _ (by have := hk.lt; omega) e he
  · intro p hp q
    rw [basis_pane hv hp hp0, ← basis_ratio hv hp0]
    exact incr1_eq hv hk.lt hk.lo hk.hi i1 i2 i3 j1 j2 j3 q

/-- outside the grid nothing is added -/
theorem add_outside {g : Classic} (hv : g.Valid) {pt : PosCar} (mult : ℝ) (h : Outside g.radii (g.rad pt)) : g.add0 pt mult = some [] ∧ g.add1 pt mult = some [] := by
  have := locate_outside hv.grid h
  constructor
  · unfold Classic.add0
    simp only
    rw [if_pos (Or.inl (by rw [this]))]
  · unfold Classic.add1
    simp only
    rw [if_pos (Or.inl (by rw [this]))]

theorem add_zero (g : Classic) (pt : PosCar) : g.add0 pt 0 = some [] ∧ g.add1 pt 0 = some [] := by
  constructor
  · simp [Classic.add0]
  · simp [Classic.add1]

end

end Verif.DensGrid
