import Verif.DensGrid.Names
import Mathlib.Analysis.SpecialFunctions.Trigonometric.Angle
import Verif.Coord.ConvProps

/-! Cylindrical scheme -/

namespace Verif.DensGrid

open Real Verif.Coord

noncomputable section

/-- what the constructor guarantees -/
structure Cyl.Valid (g : Cyl) : Prop where
  okR : okGrid g.gridR
  okz : okGrid g.gridz

theorem mkCyl_valid {mmax : ℤ} {gR gz : List ℝ} {g : Cyl} (h : mkCyl mmax gR gz = some g) : g.Valid ∧ (g.mmax : ℤ) = mmax ∧ g.gridR = skipZero gR ∧ g.gridz = skipZero gz := by
  unfold mkCyl at h
  split_ifs at h with hc
  cases h
  exact ⟨⟨hc.2.1, hc.2.2⟩, by simp only; omega, rfl, rfl⟩

/-- specification: the number of the cell (a,b) in the meridional plane, azimuthal harmonic 2μ -/
def Cyl.idx0 (g : Cyl) (μ a b : ℕ) : ℕ := a + (b + μ * g.gridz.length) * g.gridR.length

/-- specification: the number of the node (a,b) in the meridional plane, azimuthal harmonic 2μ (if μ>0, there are no nodes at R=0) -/
def Cyl.idx1 (g : Cyl) (μ a b : ℕ) : ℕ :=
  if μ = 0 then a + b * (g.gridR.length + 1)
  else (g.gridR.length + 1) * (g.gridz.length + 1) + (μ - 1) * (g.gridR.length * (g.gridz.length + 1)) + (a - 1) + b * g.gridR.length

/-- specification: azimuthal factor of the 2μ-th harmonic -/
def azim (μ : ℕ) (phi : ℝ) : ℝ := if μ = 0 then 1 else 2 * cos (2 * μ * phi)

/-- specification: basis function with the number q -/
def Cyl.basis (g : Cyl) (R z phi : ℝ) (q : ℕ) : ℝ :=
  ∑ μ ∈ Finset.range (g.mmax / 2 + 1), azim μ phi * ∑ a ∈ Finset.range (g.gridR.length + 1), hatR g.gridR a R * ∑ b ∈ Finset.range (g.gridz.length + 1), hatR g.gridz b z *
    (if (μ = 0 ∨ 0 < a) ∧ g.idx1 μ a b = q then 1 else 0)

theorem trigAt_eq {mmax m : ℕ} (phi : ℝ) (h1 : 1 ≤ m) (h2 : m ≤ mmax) : trigAt mmax phi m = cos (m * phi) := by
  rw [trigAt, (Verif.Fourier.C29_multiAngle phi mmax false).2.1 (m - 1) (by omega), Nat.sub_add_cancel h1, Option.getD_some]

theorem azim_eq {mmax μ : ℕ} (phi : ℝ) (h2 : 2 * μ ≤ mmax) : (if 2 * μ = 0 then (1 : ℝ) else 2 * trigAt mmax phi (2 * μ)) = azim μ phi := by
  unfold azim
  rcases Nat.eq_zero_or_pos μ with h | h
  · rw [if_pos h, if_pos (by omega)]
  · rw [if_neg (by omega), if_neg (by omega), trigAt_eq phi (by omega) h2]; push_cast; rfl

/-! ### N=0 -/

theorem loop0_eq (g : Cyl) (indR indz : ℤ) (mult : ℝ) (trig : ℕ → ℝ) : ∀ fuel μ, g.mmax / 2 + 1 ≤ fuel + μ →
    g.loop0 indR indz mult trig fuel (2 * μ) = (List.range' μ (g.mmax / 2 + 1 - μ)).map fun ν => (g.cell0 (2 * ν) indR indz, mult * (if 2 * ν = 0 then 1 else 2 * trig (2 * ν)))
  | 0, μ, h => by
    rw [show g.mmax / 2 + 1 - μ = 0 by omega]; simp [Cyl.loop0]
  | fuel + 1, μ, h => by
    rw [Cyl.loop0]
    by_cases hc : 2 * μ > g.mmax
    · rw [if_pos hc]
      rw [show g.mmax / 2 + 1 - μ = 0 by omega]; simp
    · rw [if_neg hc, show 2 * μ + 2 = 2 * (μ + 1) by ring, loop0_eq g indR indz mult trig fuel (μ + 1) (by omega), show g.mmax / 2 + 1 - μ = (g.mmax / 2 + 1 - (μ + 1)) + 1 by omega, List.range'_succ, List.map_cons]

theorem cell0_eq (g : Cyl) (μ a b : ℕ) : g.cell0 (2 * μ) a b = g.idx0 μ a b := by
  rw [Cyl.cell0, Cyl.idx0, Nat.mul_div_cancel_left _ (by omega : 0 < 2)]; push_cast; ring

theorem idx0_lt (g : Cyl) {μ a b : ℕ} (hμ : 2 * μ ≤ g.mmax) (ha : a < g.gridR.length) (hb : b < g.gridz.length) : g.idx0 μ a b < g.numValues 0 := by
  unfold Cyl.idx0 Cyl.numValues
  have h1 : (μ + 1) * g.gridz.length ≤ (g.mmax / 2 + 1) * g.gridz.length := Nat.mul_le_mul_right _ (by omega)
  have h2 : (b + μ * g.gridz.length + 1) * g.gridR.length ≤ (g.mmax / 2 + 1) * g.gridz.length * g.gridR.length := Nat.mul_le_mul_right _ (by nlinarith)
  nlinarith

/-- addPoint, N=0: one increment for each azimuthal harmonic -/
theorem cyl_add0 {g : Cyl} (hv : g.Valid) {pt : PosCar} {mult : ℝ} (hm : mult ≠ 0) {kR kz : ℕ} (hR : InSeg g.gridR kR (√(pt.x ^ 2 + pt.y ^ 2))) (hz : InSeg g.gridz kz |pt.z|) :
    g.add false pt mult = (List.range (g.mmax / 2 + 1)).map fun μ => ((g.idx0 μ kR kz : ℤ), mult * azim μ (atan2 pt.y pt.x)) := by
  have l1 : locate g.gridR (carToCyl ⟨pt.x, pt.y, |pt.z|⟩).R = kR := locate_seg hv.okR hR
  have l2 : locate g.gridz (carToCyl ⟨pt.x, pt.y, |pt.z|⟩).z = kz := locate_seg hv.okz hz
  unfold Cyl.add
  simp only
  rw [l1, l2, if_neg, if_neg (by simp)]
  · rw [show (0 : ℕ) = 2 * 0 from rfl, loop0_eq g kR kz mult _ _ _ (by omega), List.range_eq_range']
    apply List.map_congr_left
    intro μ hμ
    rw [List.mem_range'_1] at hμ
    rw [cell0_eq, azim_eq _ (by omega)]
    rfl
  · rintro (h | h | h)
    · have := hR.lt; omega
    · have := hz.lt; omega
    · exact hm h

/-! ### N=1 -/

/-- the increments for one azimuthal harmonic -/
def Cyl.step1 (g : Cyl) (indR indz : ℤ) (offR offz val : ℝ) (m : ℕ) : Upd :=
  [((g.corners1 m indR indz).2.1, val * offR * (1 - offz)), ((g.corners1 m indR indz).2.2.2, val * offR * offz)] ++
    (if m = 0 ∨ indR > 0 then [((g.corners1 m indR indz).1, val * (1 - offR) * (1 - offz)), ((g.corners1 m indR indz).2.2.1, val * (1 - offR) * offz)] else [])

theorem loop1_eq (g : Cyl) (indR indz : ℤ) (offR offz mult : ℝ) (trig : ℕ → ℝ) : ∀ fuel μ, g.mmax / 2 + 1 ≤ fuel + μ →
    g.loop1 indR indz offR offz mult trig fuel (2 * μ) = (List.range' μ (g.mmax / 2 + 1 - μ)).flatMap fun ν => g.step1 indR indz offR offz (mult * (if 2 * ν = 0 then 1 else 2 * trig (2 * ν))) (2 * ν)
  | 0, μ, h => by
    rw [show g.mmax / 2 + 1 - μ = 0 by omega]; simp [Cyl.loop1]
  | fuel + 1, μ, h => by
    rw [Cyl.loop1]
    by_cases hc : 2 * μ > g.mmax
    · rw [if_pos hc]
      rw [show g.mmax / 2 + 1 - μ = 0 by omega]; simp
    · rw [if_neg hc, show 2 * μ + 2 = 2 * (μ + 1) by ring, loop1_eq g indR indz offR offz mult trig fuel (μ + 1) (by omega), show g.mmax / 2 + 1 - μ = (g.mmax / 2 + 1 - (μ + 1)) + 1 by omega, List.range'_succ, List.flatMap_cons]
      rfl

theorem contrib_flatMap (l : List ℕ) (f : ℕ → Upd) (q : ℤ) : contrib (l.flatMap f) q = (l.map fun ν => contrib (f ν) q).sum := by
  induction l with
  | nil => rfl
  | cons a l ih => rw [List.flatMap_cons, contrib_append, ih]; rfl

theorem corners1_eq (g : Cyl) {μ a b : ℕ} (h : μ = 0 ∨ 0 < a) : (g.corners1 (2 * μ) a b).1 = g.idx1 μ a b ∧ (g.corners1 (2 * μ) a b).2.2.1 = g.idx1 μ a (b + 1) := by
  unfold Cyl.corners1 Cyl.idx1
  rcases Nat.eq_zero_or_pos μ with h0 | h0
  · subst h0; simp; ring
  · have ha : 0 < a := by omega
    have hm : 2 * μ > 0 := by omega
    have hne : μ ≠ 0 := by omega
    obtain ⟨ν, rfl⟩ : ∃ ν, μ = ν + 1 := ⟨μ - 1, by omega⟩
    simp only [if_pos hm, if_neg hne, Nat.mul_div_cancel_left _ (by omega : 0 < 2), Nat.add_sub_cancel]
    push_cast [ha]
    constructor <;> ring

theorem corners1_up (g : Cyl) {μ a b : ℕ} : (g.corners1 (2 * μ) a b).2.1 = g.idx1 μ (a + 1) b ∧ (g.corners1 (2 * μ) a b).2.2.2 = g.idx1 μ (a + 1) (b + 1) := by
  unfold Cyl.corners1 Cyl.idx1
  rcases Nat.eq_zero_or_pos μ with h0 | h0
  · subst h0; simp; constructor <;> ring
  · have hm : 2 * μ > 0 := by omega
    have hne : μ ≠ 0 := by omega
    obtain ⟨ν, rfl⟩ : ∃ ν, μ = ν + 1 := ⟨μ - 1, by omega⟩
    simp only [if_pos hm, if_neg hne, Nat.mul_div_cancel_left _ (by omega : 0 < 2), Nat.add_sub_cancel]
    push_cast
    constructor <;> ring

theorem idx1_lt (g : Cyl) {μ a b : ℕ} (hμ : 2 * μ ≤ g.mmax) (ha : a ≤ g.gridR.length) (hb : b ≤ g.gridz.length) (h : μ = 0 ∨ 0 < a) : g.idx1 μ a b < g.numValues 1 := by
  unfold Cyl.idx1 Cyl.numValues
  split_ifs with h0
  · have h1 : (b + 1) * (g.gridR.length + 1) ≤ (g.gridz.length + 1) * (g.gridR.length + 1) := Nat.mul_le_mul_right _ (by omega)
    have h2 : g.gridR.length * 1 ≤ g.gridR.length * (g.mmax / 2 + 1) := Nat.mul_le_mul_left _ (by omega)
    have h3 : (g.gridz.length + 1) * (g.gridR.length + 1) ≤ (g.gridz.length + 1) * (g.gridR.length * (g.mmax / 2 + 1) + 1) := Nat.mul_le_mul_left _ (by omega)
    nlinarith
  · obtain ⟨ν, rfl⟩ : ∃ ν, μ = ν + 1 := ⟨μ - 1, by omega⟩
    obtain ⟨a', rfl⟩ : ∃ a', a = a' + 1 := ⟨a - 1, by omega⟩
    simp only [Nat.add_sub_cancel]
    have h1 : (b + 1) * g.gridR.length ≤ (g.gridz.length + 1) * g.gridR.length := Nat.mul_le_mul_right _ (by omega)
    have h2 : (ν + 1) * (g.gridR.length * (g.gridz.length + 1)) ≤ g.mmax / 2 * (g.gridR.length * (g.gridz.length + 1)) := Nat.mul_le_mul_right _ (by omega)
    nlinarith

theorem step1_contrib (g : Cyl) {kR kz : ℕ} (offR offz val : ℝ) (μ q : ℕ) : contrib (g.step1 kR kz offR offz val (2 * μ)) q =
    val * ((1 - offR) * ((1 - offz) * (if (μ = 0 ∨ 0 < kR) ∧ g.idx1 μ kR kz = q then 1 else 0) + offz * (if (μ = 0 ∨ 0 < kR) ∧ g.idx1 μ kR (kz + 1) = q then 1 else 0)) +
      offR * ((1 - offz) * (if (μ = 0 ∨ 0 < kR + 1) ∧ g.idx1 μ (kR + 1) kz = q then 1 else 0) + offz * (if (μ = 0 ∨ 0 < kR + 1) ∧ g.idx1 μ (kR + 1) (kz + 1) = q then 1 else 0))) := by
  have hone : ∀ (i q : ℕ) (x : ℝ), (if (i : ℤ) = (q : ℤ) then x else 0) = x * (if i = q then 1 else 0) := by
    intro i q x
    by_cases h : i = q
    · rw [if_pos h, if_pos (by omega), mul_one]
    · rw [if_neg h, if_neg (by omega), mul_zero]
  unfold Cyl.step1
  obtain ⟨u1, u2⟩ := corners1_up g (μ := μ) (a := kR) (b := kz)
  simp only [u1, u2, contrib_append, contrib_cons, contrib_nil, hone]
  have hx : (μ = 0 ∨ 0 < kR + 1) := Or.inr (by omega)
  simp only [hx, true_and]
  by_cases h : μ = 0 ∨ 0 < kR
  · obtain ⟨l1, l2⟩ := corners1_eq g (b := kz) h
    rw [if_pos (show 2 * μ = 0 ∨ (kR : ℤ) > 0 by omega)]
    simp only [l1, l2, h, true_and, contrib_cons, contrib_nil, hone]
    ring
  · rw [if_neg (show ¬ (2 * μ = 0 ∨ (kR : ℤ) > 0) by omega)]
    simp only [h, false_and, if_false, contrib_nil]
    ring

theorem step1_range (g : Cyl) {kR kz : ℕ} (hR : kR < g.gridR.length) (hz : kz < g.gridz.length) (offR offz val : ℝ) {μ : ℕ} (hμ : 2 * μ ≤ g.mmax) :
    ∀ e ∈ g.step1 kR kz offR offz val (2 * μ), 0 ≤ e.1 ∧ e.1 < g.numValues 1 := by
  intro e he
  have hN : ∀ a b : ℕ, a ≤ g.gridR.length → b ≤ g.gridz.length → (μ = 0 ∨ 0 < a) → (0 : ℤ) ≤ (g.idx1 μ a b : ℤ) ∧ (g.idx1 μ a b : ℤ) < g.numValues 1 := by
    intro a b h1 h2 h3
    have := idx1_lt g hμ h1 h2 h3
    omega
  unfold Cyl.step1 at he
  obtain ⟨u1, u2⟩ := corners1_up g (μ := μ) (a := kR) (b := kz)
  simp only [u1, u2, List.mem_append, List.mem_cons, List.not_mem_nil, or_false] at he
  rcases he with (he | he) | he
  · rw [he]; exact hN _ _ (by omega) (by omega) (Or.inr (by omega))
  · rw [he]; exact hN _ _ (by omega) (by omega) (Or.inr (by omega))
  · split_ifs at he with h
    · have h' : μ = 0 ∨ 0 < kR := by omega
      obtain ⟨l1, l2⟩ := corners1_eq g (b := kz) h'
      simp only [l1, l2, List.mem_cons, List.not_mem_nil, or_false] at he
      rcases he with he | he
      · rw [he]; exact hN _ _ (by omega) (by omega) h'
      · rw [he]; exact hN _ _ (by omega) (by omega) h'
    · simp at he

/-- addPoint, N=1 -/
theorem cyl_add1 {g : Cyl} (hv : g.Valid) {pt : PosCar} {mult : ℝ} (hm : mult ≠ 0) {kR kz : ℕ} (hR : InSeg g.gridR kR (√(pt.x ^ 2 + pt.y ^ 2))) (hz : InSeg g.gridz kz |pt.z|) :
    (∀ e ∈ g.add true pt mult, 0 ≤ e.1 ∧ e.1 < g.numValues 1) ∧ ∀ q : ℕ, contrib (g.add true pt mult) q = mult * g.basis (√(pt.x ^ 2 + pt.y ^ 2)) |pt.z| (atan2 pt.y pt.x) q := by
  have hoff : ∀ (grid : List ℝ) (k : ℕ) (x : ℝ), (x - (if (k : ℤ) > 0 then at' grid ((k : ℤ) - 1) else 0)) / (at' grid k - (if (k : ℤ) > 0 then at' grid ((k : ℤ) - 1) else 0)) = frac grid k x := by
    intro grid k x
    unfold frac
    rw [at'_succ]
    rcases Nat.eq_zero_or_pos k with h | h
    · subst h; simp [node_zero]
    · rw [if_pos (by omega), at'_pred _ h]
  have e : g.add true pt mult = (List.range (g.mmax / 2 + 1)).flatMap fun μ => g.step1 kR kz (frac g.gridR kR (√(pt.x ^ 2 + pt.y ^ 2))) (frac g.gridz kz |pt.z|) (mult * (if 2 * μ = 0 then 1 else 2 * trigAt g.mmax (atan2 pt.y pt.x) (2 * μ))) (2 * μ) := by
    have l1 : locate g.gridR (carToCyl ⟨pt.x, pt.y, |pt.z|⟩).R = kR := locate_seg hv.okR hR
    have l2 : locate g.gridz (carToCyl ⟨pt.x, pt.y, |pt.z|⟩).z = kz := locate_seg hv.okz hz
    unfold Cyl.add
    simp only
    rw [l1, l2, if_neg, if_pos trivial, hoff, hoff]
    · have := loop1_eq g kR kz (frac g.gridR kR (√(pt.x ^ 2 + pt.y ^ 2))) (frac g.gridz kz |pt.z|) mult (trigAt g.mmax (atan2 pt.y pt.x)) (g.mmax + 1) 0 (by omega)
      rw [List.range_eq_range']
      exact this
    · rintro (h | h | h)
      · have := hR.lt; omega
      · have := hz.lt; omega
      · exact hm h
  constructor
  · intro x hx
    rw [e, List.mem_flatMap] at hx
    obtain ⟨μ, h1, h2⟩ := hx
    rw [List.mem_range] at h1
    exact step1_range g hR.lt hz.lt _ _ _ (by omega) x h2
  · intro q
    rw [e, contrib_flatMap, Cyl.basis, Finset.mul_sum]
    have hl : ∀ f : ℕ → ℝ, ((List.range (g.mmax / 2 + 1)).map f).sum = ∑ μ ∈ Finset.range (g.mmax / 2 + 1), f μ := by
      intro f; rw [Finset.sum_range, ← List.sum_ofFn]; congr 1
      rw [List.ofFn_eq_map]; simp [← List.map_coe_finRange_eq_range, Function.comp_def]
    rw [hl]
    refine Finset.sum_congr rfl fun μ hμ => ?_
    rw [Finset.mem_range] at hμ
    rw [step1_contrib, azim_eq _ (by omega)]
    simp only [hatR_sum hv.okR hR.lt hR.lo hR.hi, hatR_sum hv.okz hz.lt hz.lo hz.hi]
    ring

end

end Verif.DensGrid
