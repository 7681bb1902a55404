import Verif.DensGrid.Cyl
import Verif.DensGrid.ClassicProps

/-! C92: cylindrical spatial discretization scheme (TargetDensityCylindrical) -/

namespace Verif.DensGrid

open Real Verif.Coord

noncomputable section

/-! ### numbering -/

theorem idx0_decode (g : Cyl) {μ a b : ℕ} (ha : a < g.gridR.length) (hb : b < g.gridz.length) :
    g.idx0 μ a b % g.gridR.length = a ∧ g.idx0 μ a b / g.gridR.length % g.gridz.length = b ∧ g.idx0 μ a b / g.gridR.length / g.gridz.length = μ := by
  obtain ⟨a1, a2⟩ := div_mod_unique (a := g.idx0 μ a b) (b := g.gridR.length) (q := b + μ * g.gridz.length) (r := a) (by rw [Cyl.idx0]; ring) ha
  obtain ⟨a3, a4⟩ := div_mod_unique (a := b + μ * g.gridz.length) (b := g.gridz.length) (q := μ) (r := b) (by ring) hb
  exact ⟨a2, by rw [a1, a4], by rw [a1, a3]⟩

theorem idx0_surj {g : Cyl} (hv : g.Valid) {q : ℕ} (hq : q < g.numValues 0) : ∃ μ a b, 2 * μ ≤ g.mmax ∧ a < g.gridR.length ∧ b < g.gridz.length ∧ g.idx0 μ a b = q := by
  have hR := hv.okR.1
  have hz := hv.okz.1
  have e1 := Nat.div_add_mod q g.gridR.length
  have e2 := Nat.mod_lt q hR
  have e3 := Nat.div_add_mod (q / g.gridR.length) g.gridz.length
  have e4 := Nat.mod_lt (q / g.gridR.length) hz
  refine ⟨q / g.gridR.length / g.gridz.length, q % g.gridR.length, q / g.gridR.length % g.gridz.length, ?_, e2, e4, ?_⟩
  · have : q / g.gridR.length / g.gridz.length < g.mmax / 2 + 1 := by
      rw [Nat.div_div_eq_div_mul, Nat.div_lt_iff_lt_mul (by positivity)]
      unfold Cyl.numValues at hq
      nlinarith
    omega
  · rw [Cyl.idx0, show q / g.gridR.length % g.gridz.length + q / g.gridR.length / g.gridz.length * g.gridz.length = q / g.gridR.length by rw [Nat.mul_comm]; omega, Nat.mul_comm]; omega

theorem idx1_name (g : Cyl) {μ a b : ℕ} (hμ : 2 * μ ≤ g.mmax) (ha : a ≤ g.gridR.length) (hb : b ≤ g.gridz.length) (h : μ = 0 ∨ 0 < a) :
    g.name1 (g.idx1 μ a b) = some (node g.gridR a, node g.gridz b, 2 * μ) := by
  have hlt := idx1_lt g hμ ha hb h
  have hnode : ∀ (grid : List ℝ) (k : ℕ), (if k = 0 then 0 else at' grid ((k : ℤ) - 1)) = node grid k := by
    intro grid k
    split_ifs with h0
    · rw [h0, node_zero]
    · exact at'_pred _ (by omega)
  unfold Cyl.name1
  rw [if_neg (by omega)]
  simp only
  by_cases h0 : μ = 0
  · subst h0
    have e : g.idx1 0 a b = b * (g.gridR.length + 1) + a := by rw [Cyl.idx1, if_pos rfl]; ring
    obtain ⟨d1, d2⟩ := div_mod_unique e (by omega)
    have hlt' : g.idx1 0 a b < (g.gridR.length + 1) * (g.gridz.length + 1) := by
      have : (b + 1) * (g.gridR.length + 1) ≤ (g.gridz.length + 1) * (g.gridR.length + 1) := Nat.mul_le_mul_right _ (by omega)
      rw [e]; nlinarith
    rw [if_pos hlt', if_pos hlt', if_pos hlt', d1, d2, hnode, hnode]
  · have ha' : 0 < a := by omega
    obtain ⟨ν, rfl⟩ : ∃ ν, μ = ν + 1 := ⟨μ - 1, by omega⟩
    obtain ⟨a', rfl⟩ : ∃ a', a = a' + 1 := ⟨a - 1, by omega⟩
    have e : g.idx1 (ν + 1) (a' + 1) b - (g.gridR.length + 1) * (g.gridz.length + 1) = ν * (g.gridR.length * (g.gridz.length + 1)) + (b * g.gridR.length + a') := by
      rw [Cyl.idx1, if_neg (by omega)]; simp only [Nat.add_sub_cancel]; omega
    have hlt' : ¬ g.idx1 (ν + 1) (a' + 1) b < (g.gridR.length + 1) * (g.gridz.length + 1) := by
      rw [Cyl.idx1, if_neg (by omega)]; omega
    have hb' : b * g.gridR.length + a' < g.gridR.length * (g.gridz.length + 1) := by
      have : (b + 1) * g.gridR.length ≤ (g.gridz.length + 1) * g.gridR.length := Nat.mul_le_mul_right _ (by omega)
      nlinarith
    obtain ⟨d1, d2⟩ := div_mod_unique e hb'
    have e' : g.idx1 (ν + 1) (a' + 1) b - (g.gridR.length + 1) * (g.gridz.length + 1) = (ν * (g.gridz.length + 1) + b) * g.gridR.length + a' := by rw [e]; ring
    obtain ⟨d3, d4⟩ := div_mod_unique e' (by omega)
    obtain ⟨d5, d6⟩ := div_mod_unique (a := ν * (g.gridz.length + 1) + b) (b := g.gridz.length + 1) rfl (by omega)
    rw [if_neg hlt', if_neg hlt', if_neg hlt', d1, d3, d4, d6, hnode, hnode, Nat.mul_comm]

theorem idx1_surj {g : Cyl} (hv : g.Valid) {q : ℕ} (hq : q < g.numValues 1) : ∃ μ a b, 2 * μ ≤ g.mmax ∧ a ≤ g.gridR.length ∧ b ≤ g.gridz.length ∧ (μ = 0 ∨ 0 < a) ∧ g.idx1 μ a b = q := by
  have hR := hv.okR.1
  by_cases h : q < (g.gridR.length + 1) * (g.gridz.length + 1)
  · have e1 := Nat.div_add_mod q (g.gridR.length + 1)
    have e2 := Nat.mod_lt q (by omega : 0 < g.gridR.length + 1)
    have e3 : q / (g.gridR.length + 1) < g.gridz.length + 1 := by
      rw [Nat.div_lt_iff_lt_mul (by omega), Nat.mul_comm]; exact h
    refine ⟨0, q % (g.gridR.length + 1), q / (g.gridR.length + 1), by omega, by omega, by omega, Or.inl rfl, ?_⟩
    rw [Cyl.idx1, if_pos rfl, Nat.mul_comm]; omega
  · obtain ⟨q', rfl⟩ : ∃ q', q = (g.gridR.length + 1) * (g.gridz.length + 1) + q' := ⟨q - (g.gridR.length + 1) * (g.gridz.length + 1), by omega⟩
    have hp : 0 < g.gridR.length * (g.gridz.length + 1) := by positivity
    have e1 := Nat.div_add_mod q' (g.gridR.length * (g.gridz.length + 1))
    have e2 := Nat.mod_lt q' hp
    have e3 : q' / (g.gridR.length * (g.gridz.length + 1)) < g.mmax / 2 := by
      rw [Nat.div_lt_iff_lt_mul hp]
      unfold Cyl.numValues at hq
      nlinarith
    generalize q' / (g.gridR.length * (g.gridz.length + 1)) = ν at *
    generalize q' % (g.gridR.length * (g.gridz.length + 1)) = c at *
    have e4 := Nat.div_add_mod c g.gridR.length
    have e5 := Nat.mod_lt c hR
    have e6 : c / g.gridR.length < g.gridz.length + 1 := by
      rw [Nat.div_lt_iff_lt_mul (by omega), Nat.mul_comm]; exact e2
    refine ⟨ν + 1, c % g.gridR.length + 1, c / g.gridR.length, by omega, by omega, by omega, Or.inr (by omega), ?_⟩
    rw [Cyl.idx1, if_neg (by omega)]
    simp only [Nat.add_sub_cancel]
    rw [← e1, Nat.mul_comm ν, Nat.mul_comm (c / g.gridR.length)]
    omega

/-- the azimuthal factor does not depend on the choice of the polar angle -/
theorem azim_unique {x y phi phi' : ℝ} (hx : x = √(x ^ 2 + y ^ 2) * cos phi) (hy : y = √(x ^ 2 + y ^ 2) * sin phi) (hx' : x = √(x ^ 2 + y ^ 2) * cos phi') (hy' : y = √(x ^ 2 + y ^ 2) * sin phi')
    (hR : 0 < √(x ^ 2 + y ^ 2)) (μ : ℕ) : azim μ phi = azim μ phi' := by
  generalize √(x ^ 2 + y ^ 2) = R at *
  have hc : cos phi = cos phi' := mul_left_cancel₀ hR.ne' (hx.symm.trans hx')
  have hs : sin phi = sin phi' := mul_left_cancel₀ hR.ne' (hy.symm.trans hy')
  have h := Real.Angle.cos_sin_inj hc hs
  obtain ⟨k, hk⟩ := Real.Angle.angle_eq_iff_two_pi_dvd_sub.1 h
  unfold azim
  split_ifs
  · rfl
  · rw [show (2 : ℝ) * μ * phi = 2 * μ * phi' + ((2 * μ * k : ℤ) : ℝ) * (2 * π) by push_cast; linear_combination (2 * (μ : ℝ)) * hk, cos_add_int_mul_two_pi]

/-- the m=0 block of basis functions is a partition of unity -/
theorem cyl_basis_sum {g : Cyl} (hv : g.Valid) {R z : ℝ} (phi : ℝ) (r1 : 0 ≤ R) (r2 : R ≤ node g.gridR g.gridR.length) (z1 : 0 ≤ z) (z2 : z ≤ node g.gridz g.gridz.length) :
    ∑ q ∈ Finset.range ((g.gridR.length + 1) * (g.gridz.length + 1)), g.basis R z phi q = 1 := by
  unfold Cyl.basis
  rw [Finset.sum_comm, Finset.sum_range_succ']
  have h0 : ∑ μ ∈ Finset.range (g.mmax / 2), ∑ q ∈ Finset.range ((g.gridR.length + 1) * (g.gridz.length + 1)), azim (μ + 1) phi * ∑ a ∈ Finset.range (g.gridR.length + 1), hatR g.gridR a R * ∑ b ∈ Finset.range (g.gridz.length + 1), hatR g.gridz b z *
      (if (μ + 1 = 0 ∨ 0 < a) ∧ g.idx1 (μ + 1) a b = q then (1 : ℝ) else 0) = 0 := by
    refine Finset.sum_eq_zero fun μ _ => Finset.sum_eq_zero fun q hq => ?_
    rw [Finset.mem_range] at hq
    have : ∀ a b, ¬ ((μ + 1 = 0 ∨ 0 < a) ∧ g.idx1 (μ + 1) a b = q) := by
      rintro a b ⟨-, h⟩
      rw [Cyl.idx1, if_neg (by omega)] at h
      omega
    simp only [this, if_false, mul_zero, Finset.sum_const_zero]
  rw [h0, zero_add]
  simp only [azim, if_true, one_mul, true_or, true_and]
  rw [Finset.sum_comm]
  refine Eq.trans ?_ (hatR_sum_one hv.okR r1 r2)
  refine Finset.sum_congr rfl fun a ha => ?_
  rw [← Finset.mul_sum, Finset.sum_comm]
  have : ∑ b ∈ Finset.range (g.gridz.length + 1), ∑ q ∈ Finset.range ((g.gridR.length + 1) * (g.gridz.length + 1)), hatR g.gridz b z * (if g.idx1 0 a b = q then (1 : ℝ) else 0) = 1 := by
    refine Eq.trans ?_ (hatR_sum_one hv.okz z1 z2)
    refine Finset.sum_congr rfl fun b hb => ?_
    rw [← Finset.mul_sum, Finset.sum_ite_eq, if_pos, mul_one]
    rw [Finset.mem_range] at *
    rw [Cyl.idx1, if_pos rfl]
    have : (b + 1) * (g.gridR.length + 1) ≤ (g.gridz.length + 1) * (g.gridR.length + 1) := Nat.mul_le_mul_right _ (by omega)
    nlinarith
  rw [this, mul_one]

/-! ### theorems -/

open Classical in
/-- The constructor accepts exactly the non-negative orders and increasing grids of positive numbers (a non-positive first element is dropped). -/
theorem C92_cyl_constructor (mmax : ℤ) (gR gz : List ℝ) :
    ((mkCyl mmax gR gz).isSome ↔ 0 ≤ mmax ∧ okGrid (skipZero gR) ∧ okGrid (skipZero gz)) ∧
    ∀ g, mkCyl mmax gR gz = some g → (g.mmax : ℤ) = mmax ∧ g.gridR = skipZero gR ∧ g.gridz = skipZero gz := by
  refine ⟨?_, fun g h => (mkCyl_valid h).2⟩
  unfold mkCyl
  split_ifs with h
  · simp only [Option.isSome_some, true_iff]; exact h
  · simp only [Option.isSome_none, Bool.false_eq_true, false_iff]; exact h

/-- N=0: for every even azimuthal harmonic m=2μ ≤ mmax, a point within the grid adds its weight times 1 (m=0) or 2cos(mφ) to the element of the cell which contains this point in the meridional plane; these elements have different numbers, every number describes one harmonic of one cell, and coefName returns its centre and m. -/
theorem C92_cyl_cells {mmax : ℤ} {gR gz : List ℝ} {g : Cyl} (hg : mkCyl mmax gR gz = some g) :
    (∀ pt mult kR kz phi, mult ≠ 0 → InSeg g.gridR kR (√(pt.x ^ 2 + pt.y ^ 2)) → InSeg g.gridz kz |pt.z| →
      pt.x = √(pt.x ^ 2 + pt.y ^ 2) * cos phi → pt.y = √(pt.x ^ 2 + pt.y ^ 2) * sin phi → 0 < √(pt.x ^ 2 + pt.y ^ 2) →
      g.add false pt mult = (List.range (g.mmax / 2 + 1)).map fun μ => ((g.idx0 μ kR kz : ℤ), mult * azim μ phi)) ∧
    (∀ q, g.numValues 0 ≤ q → g.name0 q = none) ∧
    (∀ q, q < g.numValues 0 ↔ ∃ μ a b, 2 * μ ≤ g.mmax ∧ a < g.gridR.length ∧ b < g.gridz.length ∧ g.idx0 μ a b = q) ∧
    (∀ μ a b, 2 * μ ≤ g.mmax → a < g.gridR.length → b < g.gridz.length →
      g.name0 (g.idx0 μ a b) = some ((node g.gridR a + node g.gridR (a + 1)) / 2, (node g.gridz b + node g.gridz (b + 1)) / 2, 2 * μ)) ∧
    (∀ μ a b μ' a' b', a < g.gridR.length → b < g.gridz.length → a' < g.gridR.length → b' < g.gridz.length → g.idx0 μ a b = g.idx0 μ' a' b' → μ = μ' ∧ a = a' ∧ b = b') := by
  have hv := (mkCyl_valid hg).1
  refine ⟨fun pt mult kR kz phi hm hR hz hx hy h0 => ?_, fun q hq => by rw [Cyl.name0, if_pos hq], fun q => ⟨idx0_surj hv, ?_⟩, fun μ a b h1 h2 h3 => ?_, ?_⟩
  · rw [cyl_add0 hv hm hR hz]
    have e := C54_car_cyl_car pt
    have ex : √(pt.x ^ 2 + pt.y ^ 2) * cos (atan2 pt.y pt.x) = pt.x := congrArg PosCar.x e
    have ey : √(pt.x ^ 2 + pt.y ^ 2) * sin (atan2 pt.y pt.x) = pt.y := congrArg PosCar.y e
    simp only [fun μ => azim_unique ex.symm ey.symm hx hy h0 μ]
  · rintro ⟨μ, a, b, h1, h2, h3, rfl⟩
    exact idx0_lt g h1 h2 h3
  · obtain ⟨d1, d2, d3⟩ := idx0_decode g (μ := μ) h2 h3
    have hmid : ∀ (grid : List ℝ) (k : ℕ), (0.5 : ℝ) * (at' grid k + (if k > 0 then at' grid ((k : ℤ) - 1) else 0)) = (node grid k + node grid (k + 1)) / 2 := by
      intro grid k
      split_ifs with h
      · rw [at'_succ, at'_pred _ h]; norm_num; ring
      · rw [at'_succ, show k = 0 by omega, node_zero]; norm_num; ring
    have hlt := idx0_lt g h1 h2 h3
    unfold Cyl.name0
    rw [if_neg (by omega)]
    simp only
    rw [d1, d2, d3, hmid, hmid, Nat.mul_comm]
  · intro μ a b μ' a' b' h1 h2 h3 h4 e
    obtain ⟨d1, d2, d3⟩ := idx0_decode g (μ := μ) h1 h2
    obtain ⟨f1, f2, f3⟩ := idx0_decode g (μ := μ') h3 h4
    rw [e] at d1 d2 d3
    exact ⟨d3.symm.trans f3, d1.symm.trans f1, d2.symm.trans f2⟩

/-- N=1: a point within the grid adds `mult` times the value of the basis function to each element of the array, and only to valid elements; the elements of the m=0 harmonic come first and the sum of their increments is `mult`. The basis functions are products of 1 or 2cos(mφ) and piecewise-linear functions of R and |z|, which are unity at one node of the grid and zero at all others; coefName returns this node and m. -/
theorem C92_cyl_elements {mmax : ℤ} {gR gz : List ℝ} {g : Cyl} (hg : mkCyl mmax gR gz = some g) :
    (∀ pt mult kR kz phi, mult ≠ 0 → InSeg g.gridR kR (√(pt.x ^ 2 + pt.y ^ 2)) → InSeg g.gridz kz |pt.z| →
      pt.x = √(pt.x ^ 2 + pt.y ^ 2) * cos phi → pt.y = √(pt.x ^ 2 + pt.y ^ 2) * sin phi → 0 < √(pt.x ^ 2 + pt.y ^ 2) →
      (∀ e ∈ g.add true pt mult, 0 ≤ e.1 ∧ e.1 < g.numValues 1) ∧
      (∀ (v : ℤ → ℝ) (q : ℕ), applyUpd v (g.add true pt mult) q = v q + mult * g.basis (√(pt.x ^ 2 + pt.y ^ 2)) |pt.z| phi q) ∧
      ∀ v : ℤ → ℝ, ∑ q ∈ Finset.range ((g.gridR.length + 1) * (g.gridz.length + 1)), applyUpd v (g.add true pt mult) q = ∑ q ∈ Finset.range ((g.gridR.length + 1) * (g.gridz.length + 1)), v q + mult) ∧
    (∀ q, g.numValues 1 ≤ q → g.name1 q = none) ∧
    (∀ q, q < g.numValues 1 ↔ ∃ μ a b, 2 * μ ≤ g.mmax ∧ a ≤ g.gridR.length ∧ b ≤ g.gridz.length ∧ (μ = 0 ∨ 0 < a) ∧ g.idx1 μ a b = q) ∧
    (∀ μ a b, 2 * μ ≤ g.mmax → a ≤ g.gridR.length → b ≤ g.gridz.length → (μ = 0 ∨ 0 < a) → g.name1 (g.idx1 μ a b) = some (node g.gridR a, node g.gridz b, 2 * μ)) ∧
    (∀ a a', a ≤ g.gridR.length → a' ≤ g.gridR.length → hatR g.gridR a (node g.gridR a') = if a = a' then 1 else 0) ∧
    (∀ b b', b ≤ g.gridz.length → b' ≤ g.gridz.length → hatR g.gridz b (node g.gridz b') = if b = b' then 1 else 0) := by
  have hv := (mkCyl_valid hg).1
  refine ⟨fun pt mult kR kz phi hm hR hz hx hy h0 => ?_, fun q hq => by rw [Cyl.name1, if_pos hq], fun q => ⟨idx1_surj hv, ?_⟩, fun μ a b h1 h2 h3 h4 => idx1_name g h1 h2 h3 h4, fun a a' => hatR_node hv.okR, fun b b' => hatR_node hv.okz⟩
  · obtain ⟨f1, f2⟩ := cyl_add1 hv hm hR hz
    have e := C54_car_cyl_car pt
    have ex : √(pt.x ^ 2 + pt.y ^ 2) * cos (atan2 pt.y pt.x) = pt.x := congrArg PosCar.x e
    have ey : √(pt.x ^ 2 + pt.y ^ 2) * sin (atan2 pt.y pt.x) = pt.y := congrArg PosCar.y e
    have hb : ∀ q, g.basis (√(pt.x ^ 2 + pt.y ^ 2)) |pt.z| (atan2 pt.y pt.x) q = g.basis (√(pt.x ^ 2 + pt.y ^ 2)) |pt.z| phi q := by
      intro q
      unfold Cyl.basis
      simp only [fun μ => azim_unique ex.symm ey.symm hx hy h0 μ]
    refine ⟨f1, fun v q => by rw [applyUpd_eq, f2, hb], fun v => ?_⟩
    simp only [applyUpd_eq, f2, hb]
    rw [Finset.sum_add_distrib, ← Finset.mul_sum, cyl_basis_sum hv phi h0.le (hR.hi.trans (hv.okR.le hR.lt le_rfl)) (abs_nonneg _) (hz.hi.trans (hv.okz.le hz.lt le_rfl)), mul_one]
  · rintro ⟨μ, a, b, h1, h2, h3, h4, rfl⟩
    exact idx1_lt g h1 h2 h3 h4

/-- Points outside the grid, or with zero weight, do not change anything; otherwise the point belongs to a cell; the sign of z does not matter. -/
theorem C92_cyl_outside {mmax : ℤ} {gR gz : List ℝ} {g : Cyl} (hg : mkCyl mmax gR gz = some g) (linear : Bool) :
    (∀ pt mult, mult = 0 ∨ Outside g.gridR (√(pt.x ^ 2 + pt.y ^ 2)) ∨ Outside g.gridz |pt.z| → g.add linear pt mult = []) ∧
    (∀ pt : PosCar, (∃ kR kz, InSeg g.gridR kR (√(pt.x ^ 2 + pt.y ^ 2)) ∧ InSeg g.gridz kz |pt.z|) ∨ Outside g.gridR (√(pt.x ^ 2 + pt.y ^ 2)) ∨ Outside g.gridz |pt.z|) ∧
    (∀ x y z mult, g.add linear ⟨x, y, -z⟩ mult = g.add linear ⟨x, y, z⟩ mult) := by
  have hv := (mkCyl_valid hg).1
  refine ⟨?_, ?_, ?_⟩
  · intro pt mult h
    unfold Cyl.add
    simp only
    rw [if_pos]
    rcases h with h | h | h
    · exact Or.inr (Or.inr h)
    · exact Or.inl (le_of_eq (locate_outside hv.okR h).symm)
    · exact Or.inr (Or.inl (le_of_eq (locate_outside hv.okz h).symm))
  · intro pt
    obtain ⟨k, -, h | h⟩ := locate_spec hv.okR (sqrt_nonneg (pt.x ^ 2 + pt.y ^ 2))
    · obtain ⟨k', -, h' | h'⟩ := locate_spec hv.okz (abs_nonneg pt.z)
      · exact Or.inl ⟨k, k', h, h'⟩
      · exact Or.inr (Or.inr h'.2)
    · exact Or.inr (Or.inl h.2)
  · intro x y z mult
    simp only [Cyl.add, abs_neg]

theorem example_cyl : mkCyl 2 [0, 1, 2] [1, 2] = some ⟨2, [1, 2], [1, 2]⟩ := by
  have h1 : skipZero [0, 1, 2] = [1, 2] := by simp [skipZero]
  have h2 : skipZero [1, 2] = [1, 2] := by simp [skipZero]
  unfold mkCyl
  rw [if_neg]
  · rw [h1, h2]; rfl
  · rw [h1, h2, not_not]; exact ⟨by norm_num, okGrid_two, okGrid_two⟩

/-- the point (0,1.5,-0.5) is within the grid -/
example : InSeg [1, 2] 1 (√((0 : ℝ) ^ 2 + 1.5 ^ 2)) ∧ InSeg [1, 2] 0 |(-0.5 : ℝ)| ∧ (0 : ℝ) = √((0 : ℝ) ^ 2 + 1.5 ^ 2) * cos (π / 2) ∧ (1.5 : ℝ) = √((0 : ℝ) ^ 2 + 1.5 ^ 2) * sin (π / 2) := by
  have h : √((0 : ℝ) ^ 2 + 1.5 ^ 2) = 1.5 := by rw [show (0 : ℝ) ^ 2 + 1.5 ^ 2 = 1.5 ^ 2 by norm_num, sqrt_sq (by norm_num)]
  have h' : |(-0.5 : ℝ)| = 0.5 := by rw [abs_of_neg (by norm_num)]; norm_num
  rw [h, h', cos_pi_div_two, sin_pi_div_two]
  refine ⟨⟨by simp, by norm_num [node], by norm_num [node], fun h => by norm_num [node] at h⟩, ⟨by simp, by norm_num [node], by norm_num [node], fun h => by norm_num [node] at h⟩, by norm_num, by norm_num⟩

end

end Verif.DensGrid
