import Verif.DensGrid.Hat

/-! Classic scheme: the increments are the values of the basis functions -/

namespace Verif.DensGrid

open Real Verif.Coord

noncomputable section

/-- what the constructor guarantees -/
structure Classic.Valid (g : Classic) : Prop where
  grid : okGrid g.radii
  strips : 1 ≤ g.S
  ax : 0 < g.axisX
  ay : 0 < g.axisY
  az : 0 < g.axisZ

/-- specification: the number of the angular node (i,j), 0 ≤ i,j ≤ S, of the pane p; nodes at the boundaries belong to two panes, and the central one to all three -/
def angIdx (S p i j : ℕ) : ℕ :=
  if j < S then i + (j + p * S) * (S + 1)
  else if i < S then S + (i + (p + 2) % 3 * S) * (S + 1)
  else 3 * S * (S + 1)

/-- specification: the number of the node; k=0 is the origin, k>0 is the (k-1)-th shell -/
def Classic.nodeIdx (g : Classic) (k p i j : ℕ) : ℕ :=
  if k = 0 then 0 else (k - 1) * g.perShell 1 + 1 + angIdx g.S p i j

/-- specification: the number of the cell in the k-th shell -/
def Classic.cellIdx (g : Classic) (k p i j : ℕ) : ℕ := i + (j + (p + k * 3) * g.S) * g.S

/-- specification: trilinear basis function with the number q, as a function of the radius and the fractional indices in the pane p -/
def Classic.basis (g : Classic) (p : ℕ) (r t1 t2 : ℝ) (q : ℕ) : ℝ :=
  ∑ k ∈ Finset.range (g.radii.length + 1), hatR g.radii k r *
    ∑ i ∈ Finset.range (g.S + 1), hatA i t1 * ∑ j ∈ Finset.range (g.S + 1), hatA j t2 * (if g.nodeIdx k p i j = q then 1 else 0)

/-- specification: the fractional index of the strip, which is proportional to the angle and ranges from 0 to S -/
def angCoord (S : ℕ) (c0 c : ℝ) : ℝ := S * (arctan (c / c0) / (π / 4))

theorem mkClassic_valid {S : ℕ} {gridr : List ℝ} {yx zx : ℝ} {g : Classic} (h : mkClassic S gridr yx zx = some g) :
    g.Valid ∧ g.S = S ∧ g.radii = skipZero gridr ∧ g.axisY / g.axisX = yx ∧ g.axisZ / g.axisX = zx ∧ g.axisX * g.axisY * g.axisZ = 1 := by
  unfold mkClassic at h
  simp only at h
  split_ifs at h with hc
  push Not at hc
  obtain ⟨h1, h2, h3, h4, h5⟩ := hc
  cases h
  have hp : 0 < yx * zx := mul_pos h4 h5
  have ha : 0 < 1 / (yx * zx) ^ (1 / 3 : ℝ) := by positivity
  refine ⟨⟨h1, h2, ha, mul_pos h4 ha, mul_pos h5 ha⟩, rfl, rfl, ?_, ?_, ?_⟩
  · exact mul_div_cancel_right₀ _ ha.ne'
  · exact mul_div_cancel_right₀ _ ha.ne'
  · have e : ((yx * zx) ^ (1 / 3 : ℝ)) ^ 3 = yx * zx := by
      rw [← rpow_natCast, ← rpow_mul hp.le]; norm_num
    have hq : 0 < (yx * zx) ^ (1 / 3 : ℝ) := by positivity
    simp only
    generalize (yx * zx) ^ (1 / 3 : ℝ) = q at e hq
    field_simp
    linarith

theorem corners_eq {S p i j : ℕ} (hi : i < S) (hj : j < S) :
    corners1 S p i j = ((angIdx S p i j : ℤ), (angIdx S p (i + 1) j : ℤ), (angIdx S p i (j + 1) : ℤ), (angIdx S p (i + 1) (j + 1) : ℤ)) := by
  unfold corners1 angIdx
  rw [if_pos hj, if_pos hj]
  by_cases h : j + 1 < S
  · rw [if_pos (by omega), if_pos h, if_pos h]
    push_cast
    refine Prod.ext rfl (Prod.ext ?_ (Prod.ext ?_ ?_)) <;> simp only <;> ring
  · rw [if_neg (by omega), if_neg h, if_neg h, if_pos hi]
    by_cases h' : i + 1 < S
    · have h2 : (i : ℤ) < S - 1 := by omega
      simp only [if_pos h', if_pos h2]
      push_cast
      refine Prod.ext rfl (Prod.ext ?_ (Prod.ext ?_ ?_)) <;> simp only <;> ring
    · have h2 : ¬ (i : ℤ) < S - 1 := by omega
      simp only [if_neg h', if_neg h2]
      push_cast
      refine Prod.ext rfl (Prod.ext ?_ (Prod.ext ?_ ?_)) <;> simp only <;> ring

theorem angIdx_lt {S p i j : ℕ} (hp : p < 3) (hi : i ≤ S) : angIdx S p i j < 3 * S * (S + 1) + 1 := by
  unfold angIdx
  split_ifs with h1 h2
  · have : (j + p * S + 1) * (S + 1) ≤ 3 * S * (S + 1) := Nat.mul_le_mul_right _ (by nlinarith)
    nlinarith
  · have h3 : (p + 2) % 3 < 3 := Nat.mod_lt _ (by omega)
    have : (i + (p + 2) % 3 * S + 1) * (S + 1) ≤ 3 * S * (S + 1) := Nat.mul_le_mul_right _ (by nlinarith)
    nlinarith
  · omega

theorem nodeIdx_lt (g : Classic) {k p i j : ℕ} (hk : k ≤ g.radii.length) (hp : p < 3) (hi : i ≤ g.S) : g.nodeIdx k p i j < g.numValues 1 := by
  unfold Classic.nodeIdx Classic.numValues
  split_ifs with h
  · omega
  · have h1 := angIdx_lt (j := j) hp hi
    have h2 : g.perShell 1 = 3 * g.S * (g.S + 1) + 1 := rfl
    have : (k - 1 + 1) * g.perShell 1 ≤ g.radii.length * g.perShell 1 := Nat.mul_le_mul_right _ (by omega)
    nlinarith

/-- the nodes at the boundary of two panes -/
theorem angIdx_adj (S p i : ℕ) : angIdx S p i S = angIdx S ((p + 2) % 3) S i := by
  unfold angIdx
  rw [if_neg (lt_irrefl S)]
  by_cases h : i < S
  · rw [if_pos h, if_pos h]
  · rw [if_neg h, if_neg h, if_neg (lt_irrefl S)]

theorem nodeIdx_adj (g : Classic) (k p i : ℕ) : g.nodeIdx k p i g.S = g.nodeIdx k ((p + 2) % 3) g.S i := by
  unfold Classic.nodeIdx; rw [angIdx_adj]

/-! ### the sum over nodes -/

theorem basis_eq {g : Classic} (hv : g.Valid) {p k i j : ℕ} {r t1 t2 : ℝ} (hk : k < g.radii.length) (r1 : node g.radii k ≤ r) (r2 : r ≤ node g.radii (k + 1))
    (hi : i < g.S) (a1 : (i : ℝ) ≤ t1) (a2 : t1 ≤ i + 1) (hj : j < g.S) (b1 : (j : ℝ) ≤ t2) (b2 : t2 ≤ j + 1) (q : ℕ) :
    g.basis p r t1 t2 q =
      (1 - frac g.radii k r) * ((1 - (t1 - i)) * ((1 - (t2 - j)) * (if g.nodeIdx k p i j = q then 1 else 0) + (t2 - j) * (if g.nodeIdx k p i (j + 1) = q then 1 else 0)) +
          (t1 - i) * ((1 - (t2 - j)) * (if g.nodeIdx k p (i + 1) j = q then 1 else 0) + (t2 - j) * (if g.nodeIdx k p (i + 1) (j + 1) = q then 1 else 0))) +
      frac g.radii k r * ((1 - (t1 - i)) * ((1 - (t2 - j)) * (if g.nodeIdx (k + 1) p i j = q then 1 else 0) + (t2 - j) * (if g.nodeIdx (k + 1) p i (j + 1) = q then 1 else 0)) +
          (t1 - i) * ((1 - (t2 - j)) * (if g.nodeIdx (k + 1) p (i + 1) j = q then 1 else 0) + (t2 - j) * (if g.nodeIdx (k + 1) p (i + 1) (j + 1) = q then 1 else 0))) := by
  unfold Classic.basis
  rw [hatR_sum hv.grid hk r1 r2 (fun k => ∑ i ∈ Finset.range (g.S + 1), hatA i t1 * ∑ j ∈ Finset.range (g.S + 1), hatA j t2 * (if g.nodeIdx k p i j = q then 1 else 0))]
  simp only [hatA_sum hi a1 a2, hatA_sum hj b1 b2]

theorem contrib_quad (off : ℤ) (S p i j : ℕ) (hi : i < S) (hj : j < S) (f1 f2 val : ℝ) (q : ℤ) :
    contrib (quad off (corners1 S p i j) f1 f2 val) q = val * ((1 - f1) * ((1 - f2) * (if off + (angIdx S p i j : ℤ) = q then 1 else 0) + f2 * (if off + (angIdx S p i (j + 1) : ℤ) = q then 1 else 0)) +
          f1 * ((1 - f2) * (if off + (angIdx S p (i + 1) j : ℤ) = q then 1 else 0) + f2 * (if off + (angIdx S p (i + 1) (j + 1) : ℤ) = q then 1 else 0))) := by
  rw [corners_eq hi hj, quad]
  simp only [contrib_cons, contrib_nil]
  split_ifs <;> ring

theorem nodeIdx_cast (g : Classic) (k p i j q : ℕ) : ((k : ℤ) * (g.perShell 1 : ℤ) + 1 + (angIdx g.S p i j : ℤ) = (q : ℤ)) ↔ g.nodeIdx (k + 1) p i j = q := by
  unfold Classic.nodeIdx
  rw [if_neg (by omega), Nat.add_sub_cancel]
  constructor
  · intro h; exact_mod_cast h
  · intro h; exact_mod_cast h

/-- The increments for a given cell -/
theorem incr1_eq {g : Classic} (hv : g.Valid) {p k i j : ℕ} {r t1 t2 mult : ℝ} (hk : k < g.radii.length) (r1 : node g.radii k ≤ r) (r2 : r ≤ node g.radii (k + 1))
    (hi : i < g.S) (a1 : (i : ℝ) ≤ t1) (a2 : t1 ≤ i + 1) (hj : j < g.S) (b1 : (j : ℝ) ≤ t2) (b2 : t2 ≤ j + 1) (q : ℕ) :
    contrib (g.incr1 k p i j r (t1 - i) (t2 - j) mult) q = mult * g.basis p r t1 t2 q := by
  rw [basis_eq hv hk r1 r2 hi a1 a2 hj b1 b2]
  unfold Classic.incr1
  simp only
  have hval : (if (k : ℤ) = 0 then mult * r / at' g.radii 0 else mult * (r - at' g.radii (k - 1)) / (at' g.radii k - at' g.radii (k - 1))) = mult * frac g.radii k r := by
    unfold frac
    split_ifs with h0
    · have : k = 0 := by omega
      rw [this, node_zero, show (0 : ℤ) = ((0 : ℕ) : ℤ) from rfl, at'_succ]; ring
    · rw [at'_pred _ (by omega : 0 < k), at'_succ]; ring
  rw [hval, contrib_append, contrib_quad _ _ _ _ _ hi hj]
  simp only [nodeIdx_cast]
  rcases Nat.eq_zero_or_pos k with h0 | h0
  · subst h0
    rw [if_pos (show ((0 : ℕ) : ℤ) = 0 from rfl)]
    rw [contrib_cons, contrib_nil]
    have e : ∀ i j, g.nodeIdx 0 p i j = 0 := fun i j => by simp [Classic.nodeIdx]
    simp only [e]
    have hq : (if (0 : ℤ) = (q : ℤ) then mult - mult * frac g.radii 0 r else 0) = (mult - mult * frac g.radii 0 r) * (if 0 = q then 1 else 0) := by
      by_cases h : 0 = q
      · rw [if_pos h, if_pos (by omega), mul_one]
      · rw [if_neg h, if_neg (by omega), mul_zero]
    rw [hq]
    ring
  · rw [if_neg (show ¬ (k : ℤ) = 0 by omega), contrib_quad _ _ _ _ _ hi hj]
    have e : ∀ i j, ((k : ℤ) * (g.perShell 1 : ℤ) + 1 - (g.perShell 1 : ℤ) + (angIdx g.S p i j : ℤ) = (q : ℤ)) ↔ g.nodeIdx k p i j = q := by
      intro i j
      have := nodeIdx_cast g (k - 1) p i j q
      rw [Nat.sub_add_cancel h0] at this
      rw [← this]
      push_cast [h0]
      rw [show ((k : ℤ) - 1) * (g.perShell 1 : ℤ) = k * g.perShell 1 - g.perShell 1 by ring]
      constructor <;> intro h <;> linarith
    simp only [e]
    ring

/-! ### properties of the basis functions -/

theorem basis_nonneg (g : Classic) (p : ℕ) (r t1 t2 : ℝ) (q : ℕ) : 0 ≤ g.basis p r t1 t2 q := by
  unfold Classic.basis
  refine Finset.sum_nonneg fun k _ => mul_nonneg (hatR_nonneg _ _ _) (Finset.sum_nonneg fun i _ => mul_nonneg (hatA_nonneg _ _) (Finset.sum_nonneg fun j _ => mul_nonneg (hatA_nonneg _ _) ?_))
  split_ifs <;> norm_num

/-- Partition of unity -/
theorem basis_sum {g : Classic} (hv : g.Valid) {p : ℕ} (hp : p < 3) {r t1 t2 : ℝ} (r1 : 0 ≤ r) (r2 : r ≤ node g.radii g.radii.length)
    (a1 : 0 ≤ t1) (a2 : t1 ≤ g.S) (b1 : 0 ≤ t2) (b2 : t2 ≤ g.S) : ∑ q ∈ Finset.range (g.numValues 1), g.basis p r t1 t2 q = 1 := by
  unfold Classic.basis
  rw [Finset.sum_comm]
  refine Eq.trans ?_ (hatR_sum_one hv.grid r1 r2)
  refine Finset.sum_congr rfl fun k hk => ?_
  rw [← Finset.mul_sum, Finset.sum_comm]
  have : ∑ i ∈ Finset.range (g.S + 1), ∑ q ∈ Finset.range (g.numValues 1), hatA i t1 * ∑ j ∈ Finset.range (g.S + 1), hatA j t2 * (if g.nodeIdx k p i j = q then 1 else 0) = 1 := by
    refine Eq.trans ?_ (hatA_sum_one hv.strips a1 a2)
    refine Finset.sum_congr rfl fun i hi => ?_
    rw [← Finset.mul_sum, Finset.sum_comm]
    have : ∑ j ∈ Finset.range (g.S + 1), ∑ q ∈ Finset.range (g.numValues 1), hatA j t2 * (if g.nodeIdx k p i j = q then 1 else 0) = 1 := by
      refine Eq.trans ?_ (hatA_sum_one hv.strips b1 b2)
      refine Finset.sum_congr rfl fun j hj => ?_
      rw [← Finset.mul_sum, Finset.sum_ite_eq, if_pos, mul_one]
      rw [Finset.mem_range] at *
      exact nodeIdx_lt g (by omega) hp (by omega)
    rw [this, mul_one]
  rw [this, mul_one]

theorem basis_origin {g : Classic} (hv : g.Valid) (p : ℕ) {t1 t2 : ℝ} (a1 : 0 ≤ t1) (a2 : t1 ≤ g.S) (b1 : 0 ≤ t2) (b2 : t2 ≤ g.S) (q : ℕ) :
    g.basis p 0 t1 t2 q = if q = 0 then 1 else 0 := by
  obtain ⟨i, -, hi, e1, e2, -⟩ := ind_range hv.strips a1 a2
  obtain ⟨j, -, hj, e3, e4, -⟩ := ind_range hv.strips b1 b2
  have hn := hv.grid.1
  rw [basis_eq hv (by omega : 0 < g.radii.length) (by rw [node_zero]) hv.grid.pos.le hi e1 e2 hj e3 e4]
  have f0 : frac g.radii 0 0 = 0 := by simp [frac, node_zero]
  have e : ∀ i j, g.nodeIdx 0 p i j = 0 := fun i j => by simp [Classic.nodeIdx]
  simp only [f0, e, eq_comm (a := 0) (b := q)]
  split_ifs <;> ring

/-- the two panes which share a boundary agree there -/
theorem basis_adj (g : Classic) (p : ℕ) (r t : ℝ) (q : ℕ) : g.basis p r t g.S q = g.basis ((p + 2) % 3) r g.S t q := by
  unfold Classic.basis
  refine Finset.sum_congr rfl fun k _ => ?_
  congr 1
  have hd : ∀ G : ℕ → ℝ, ∑ j ∈ Finset.range (g.S + 1), hatA j g.S * G j = G g.S := by
    intro G
    simp only [hatA_node, ite_mul, one_mul, zero_mul]
    rw [Finset.sum_ite_eq', if_pos (Finset.mem_range.2 (by omega))]
  rw [hd]
  refine Finset.sum_congr rfl fun i _ => ?_
  rw [hd, nodeIdx_adj g k p i]

end

end Verif.DensGrid
