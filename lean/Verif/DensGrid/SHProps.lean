import Verif.DensGrid.SH

/-! C92: spherical-harmonic spatial discretization scheme (TargetDensitySphHarm) -/

namespace Verif.DensGrid

open Real Verif.Coord

noncomputable section

theorem ang_zero (theta phi : ℝ) : ang 0 0 theta phi = 1 := by
  have hp : √π ≠ 0 := (sqrt_pos.2 pi_pos).ne'
  rw [ang, if_pos rfl, Verif.SphHarm.cm_zero]
  simp only [Verif.SphHarm.pre, Verif.SphHarm.prefact0, Verif.SphHarm.G, Verif.SphHarm.Q]
  norm_num
  field_simp

/-- the l=m=0 block of basis functions is a partition of unity -/
theorem sh_basis_sum {g : SHGrid} (hv : g.Valid) {r : ℝ} (theta phi : ℝ) (h0 : 0 ≤ r) (h1 : r ≤ node g.gridr g.gridr.length) :
    ∑ q ∈ Finset.range (g.gridr.length + 1), g.basis r theta phi q = 1 := by
  have hn := hv.ok.1
  unfold SHGrid.basis
  rw [Finset.sum_comm, Finset.sum_eq_single 0]
  · rw [Finset.sum_comm, Finset.sum_eq_single 0]
    · rw [← Finset.mul_sum, ang_zero, one_mul, Finset.sum_comm]
      refine Eq.trans ?_ (hatR_sum_one hv.ok h0 h1)
      refine Finset.sum_congr rfl fun k hk => ?_
      rw [← Finset.mul_sum]
      simp only [true_and, or_true]
      rw [Finset.sum_ite_eq, if_pos, mul_one]
      rw [Finset.mem_range] at *
      rw [SHGrid.idx]
      split_ifs
      · omega
      · simp [SHGrid.offset]; omega
    · intro lam _ hl
      refine Finset.sum_eq_zero fun q hq => ?_
      rw [Finset.mem_range] at hq
      have : ∀ k, ¬ ((0 < k ∨ 0 = 0 ∧ lam = 0) ∧ g.idx k 0 lam = q) := by
        rintro k ⟨h2, h3⟩
        have hk : 0 < k := by omega
        rw [SHGrid.idx, if_neg (by omega)] at h3
        have h4 : g.gridr.length * 1 ≤ g.gridr.length * (g.offset 0 + lam) := Nat.mul_le_mul_left _ (by omega)
        omega
      rw [Finset.sum_eq_zero, mul_zero]
      intro k _
      rw [if_neg (this k), mul_zero]
    · intro h; exact absurd (Finset.mem_range.2 (by omega)) h
  · intro μ hμ hne
    refine Finset.sum_eq_zero fun q hq => Finset.sum_eq_zero fun lam hl => ?_
    rw [Finset.mem_range] at hq hμ
    have : ∀ k, ¬ ((0 < k ∨ μ = 0 ∧ lam = 0) ∧ g.idx k μ lam = q) := by
      rintro k ⟨h2, h3⟩
      have hk : 0 < k := by omega
      rw [SHGrid.idx, if_neg (by omega)] at h3
      have h5 := offset_ge g μ (by have := hv.le; omega)
      have h4 : g.gridr.length * 1 ≤ g.gridr.length * (g.offset μ + lam) := Nat.mul_le_mul_left _ (by omega)
      omega
    simp only [this, if_false, mul_zero, Finset.sum_const_zero]
  · intro h; exact absurd (Finset.mem_range.2 (by omega)) h

theorem ang_flip (μ lam : ℕ) (theta phi : ℝ) : ang (2 * μ) (2 * lam) theta (π - phi) = ang (2 * μ) (2 * lam) theta phi ∧ ang (2 * μ) (2 * lam) theta (-phi) = ang (2 * μ) (2 * lam) theta phi ∧
    ang (2 * μ) (2 * lam) (π - theta) phi = ang (2 * μ) (2 * lam) theta phi := by
  have e1 : cos ((2 * μ : ℕ) * (π - phi)) = cos ((2 * μ : ℕ) * phi) := by
    rw [show ((2 * μ : ℕ) : ℝ) * (π - phi) = -((2 * μ : ℕ) * phi) + (μ : ℤ) * (2 * π) by push_cast; ring, cos_add_int_mul_two_pi, cos_neg]
  have e2 : cos ((2 * μ : ℕ) * (-phi)) = cos ((2 * μ : ℕ) * phi) := by rw [mul_neg, cos_neg]
  have e3 : Verif.SphHarm.G (2 * μ) (2 * lam) (π - theta) = Verif.SphHarm.G (2 * μ) (2 * lam) theta := by
    rw [Verif.SphHarm.G, Verif.SphHarm.G, sin_pi_sub, cos_pi_sub, Verif.SphHarm.Q_neg, pow_mul (-1 : ℝ), neg_one_sq, one_pow, one_mul]
  refine ⟨?_, ?_, ?_⟩
  · unfold ang; rw [e1]
  · unfold ang; rw [e2]
  · unfold ang; rw [e3]

/-! ### theorems -/

open Classical in
/-- The constructor accepts exactly the orders 0≤mmax≤lmax and increasing grids of positive numbers (a non-positive first element is dropped); the number of coefficients is one plus the product of the number of radii and the number of pairs of even l,m with 0≤m≤l≤lmax, m≤mmax. -/
theorem C92_sh_constructor (lmax mmax : ℤ) (gr : List ℝ) :
    ((mkSphHarm lmax mmax gr).isSome ↔ 0 ≤ mmax ∧ mmax ≤ lmax ∧ okGrid (skipZero gr)) ∧
    ∀ g, mkSphHarm lmax mmax gr = some g → (g.lmax : ℤ) = lmax ∧ (g.mmax : ℤ) = mmax ∧ g.gridr = skipZero gr ∧
      g.numValues = 1 + g.gridr.length * ∑ m ∈ (Finset.range (g.mmax + 1)).filter (2 ∣ ·), ((Finset.Icc m g.lmax).filter (2 ∣ ·)).card := by
  constructor
  · unfold mkSphHarm
    split_ifs with h
    · simp only [Option.isSome_some, true_iff]; exact ⟨h.2.1, h.2.2.1, h.2.2.2⟩
    · simp only [Option.isSome_none, Bool.false_eq_true, false_iff]
      rintro ⟨h1, h2, h3⟩
      exact h ⟨by omega, h1, h2, h3⟩
  · intro g h
    obtain ⟨hv, h1, h2, h3⟩ := mkSphHarm_valid h
    refine ⟨h1, h2, h3, ?_⟩
    have hc : ∀ μ, 2 * μ ≤ g.lmax → ((Finset.Icc (2 * μ) g.lmax).filter (2 ∣ ·)).card = g.lmax / 2 + 1 - μ := by
      intro μ hμ
      have : (Finset.Icc (2 * μ) g.lmax).filter (2 ∣ ·) = (Finset.Ico μ (g.lmax / 2 + 1)).image (2 * ·) := by
        ext l
        simp only [Finset.mem_filter, Finset.mem_Icc, Finset.mem_image, Finset.mem_Ico]
        constructor
        · rintro ⟨⟨a, b⟩, c, rfl⟩; exact ⟨c, by omega, rfl⟩
        · rintro ⟨c, ⟨a, b⟩, rfl⟩; exact ⟨by omega, Dvd.intro _ rfl⟩
      rw [this, Finset.card_image_of_injective _ (fun a b h => by simpa using h), Nat.card_Ico]
    have hs : (Finset.range (g.mmax + 1)).filter (2 ∣ ·) = (Finset.range (g.mmax / 2 + 1)).image (2 * ·) := by
      ext l
      simp only [Finset.mem_filter, Finset.mem_image, Finset.mem_range]
      constructor
      · rintro ⟨a, c, rfl⟩; exact ⟨c, by omega, rfl⟩
      · rintro ⟨c, a, rfl⟩; exact ⟨by omega, Dvd.intro _ rfl⟩
    rw [hs, Finset.sum_image (fun a _ b _ h => by simpa using h)]
    rw [SHGrid.numValues, angularCoefs_eq hv, SHGrid.offset, Nat.add_comm, Nat.mul_comm]
    congr 2
    refine Finset.sum_congr rfl fun μ hμ => ?_
    rw [Finset.mem_range] at hμ
    rw [hc μ (by have := hv.le; omega)]

/-- A point within the grid adds `mult` times the value of the basis function to each element of the array, and only to valid elements; the elements with l=m=0 come first and the sum of their increments is `mult`. The basis functions are products of spherical harmonics 2√π Y_lm with even l,m and piecewise-linear functions of radius, which are unity at one radius of the grid and zero at all others; coefName returns this radius, l and m. A point at the origin only contributes to the first element. -/
theorem C92_sh_elements {lmax mmax : ℤ} {gr : List ℝ} {g : SHGrid} (hg : mkSphHarm lmax mmax gr = some g) :
    (∀ pt mult k r theta phi, mult ≠ 0 → 0 < r → InSeg g.gridr k r → 0 ≤ sin theta →
      pt.x = r * sin theta * cos phi → pt.y = r * sin theta * sin phi → pt.z = r * cos theta →
      (∀ e ∈ g.add pt mult, 0 ≤ e.1 ∧ e.1 < g.numValues) ∧
      (∀ (v : ℤ → ℝ) (q : ℕ), applyUpd v (g.add pt mult) q = v q + mult * g.basis r theta phi q) ∧
      ∀ v : ℤ → ℝ, ∑ q ∈ Finset.range (g.gridr.length + 1), applyUpd v (g.add pt mult) q = ∑ q ∈ Finset.range (g.gridr.length + 1), v q + mult) ∧
    (∀ mult, g.add ⟨0, 0, 0⟩ mult = [(0, mult)]) ∧
    (∀ q, g.numValues ≤ q → g.name q = none) ∧
    (∀ q, q < g.numValues ↔ ∃ k μ lam, k ≤ g.gridr.length ∧ 2 * μ ≤ g.mmax ∧ 2 * μ + 2 * lam ≤ g.lmax ∧ (0 < k ∨ μ = 0 ∧ lam = 0) ∧ g.idx k μ lam = q) ∧
    (∀ k μ lam, k ≤ g.gridr.length → 2 * μ ≤ g.mmax → 2 * μ + 2 * lam ≤ g.lmax → (0 < k ∨ μ = 0 ∧ lam = 0) → g.name (g.idx k μ lam) = some (node g.gridr k, 2 * μ + 2 * lam, 2 * μ)) ∧
    (∀ k k', k ≤ g.gridr.length → k' ≤ g.gridr.length → hatR g.gridr k (node g.gridr k') = if k = k' then 1 else 0) := by
  have hv := (mkSphHarm_valid hg).1
  refine ⟨fun pt mult k r theta phi hm hr hk hs hx hy hz => ?_, fun mult => ?_, fun q hq => by rw [SHGrid.name, if_pos hq], fun q => ⟨fun hq => ?_, ?_⟩, fun k μ lam h1 h2 h3 h4 => idx_name hv h1 h2 (by omega) h4, fun k k' => hatR_node hv.ok⟩
  · obtain ⟨f1, f2⟩ := sh_add hv hm hr hs hx hy hz hk
    refine ⟨f1, fun v q => by rw [applyUpd_eq, f2], fun v => ?_⟩
    simp only [applyUpd_eq, f2]
    rw [Finset.sum_add_distrib, ← Finset.mul_sum, sh_basis_sum hv theta phi hr.le (hk.hi.trans (hv.ok.le hk.lt le_rfl)), mul_one]
  · unfold SHGrid.add
    simp only
    rw [if_pos]
    show √(√((0 : ℝ) ^ 2 + 0 ^ 2) ^ 2 + 0 ^ 2) = 0
    norm_num
  · obtain ⟨k, μ, lam, h1, h2, h3, h4, h5⟩ := idx_surj hv hq
    exact ⟨k, μ, lam, h1, h2, by omega, h4, h5⟩
  · rintro ⟨k, μ, lam, h1, h2, h3, -, rfl⟩
    exact idx_lt hv h1 h2 (by omega)

/-- Points outside the grid, or with zero weight, do not change anything; otherwise the point belongs to a radial segment. Points which differ by signs of the coordinates are equivalent. -/
theorem C92_sh_outside {lmax mmax : ℤ} {gr : List ℝ} {g : SHGrid} (hg : mkSphHarm lmax mmax gr = some g) :
    (∀ (pt : PosCar) mult, Outside g.gridr (√(pt.x ^ 2 + pt.y ^ 2 + pt.z ^ 2)) → g.add pt mult = []) ∧
    (∀ (pt : PosCar) (v : ℤ → ℝ) q, applyUpd v (g.add pt 0) q = v q) ∧
    (∀ pt : PosCar, (∃ k, InSeg g.gridr k (√(pt.x ^ 2 + pt.y ^ 2 + pt.z ^ 2))) ∨ Outside g.gridr (√(pt.x ^ 2 + pt.y ^ 2 + pt.z ^ 2))) ∧
    (∀ x y z mult (v : ℤ → ℝ) (q : ℕ), applyUpd v (g.add ⟨-x, y, z⟩ mult) q = applyUpd v (g.add ⟨x, y, z⟩ mult) q ∧ applyUpd v (g.add ⟨x, -y, z⟩ mult) q = applyUpd v (g.add ⟨x, y, z⟩ mult) q ∧
      applyUpd v (g.add ⟨x, y, -z⟩ mult) q = applyUpd v (g.add ⟨x, y, z⟩ mult) q) := by
  have hv := (mkSphHarm_valid hg).1
  have hrr : ∀ pt : PosCar, √((carToCyl pt).R ^ 2 + (carToCyl pt).z ^ 2) = √(pt.x ^ 2 + pt.y ^ 2 + pt.z ^ 2) := by
    intro pt
    show √(√(pt.x ^ 2 + pt.y ^ 2) ^ 2 + pt.z ^ 2) = _
    rw [sq_sqrt (by positivity)]
  have hout : ∀ (pt : PosCar) mult, Outside g.gridr (√(pt.x ^ 2 + pt.y ^ 2 + pt.z ^ 2)) → g.add pt mult = [] := by
    intro pt mult ho
    have hp : 0 < √(pt.x ^ 2 + pt.y ^ 2 + pt.z ^ 2) := lt_of_lt_of_le (lt_of_lt_of_le hv.ok.pos (hv.ok.le hv.ok.1 le_rfl)) ho.1
    unfold SHGrid.add
    simp only
    rw [hrr, if_neg hp.ne', locate_outside hv.ok ho, if_pos (Or.inl le_rfl)]
  have hzero : ∀ (pt : PosCar) (v : ℤ → ℝ) q, applyUpd v (g.add pt 0) q = v q := by
    intro pt v q
    rw [applyUpd_eq]
    unfold SHGrid.add
    simp only
    split_ifs with h1 h2
    · simp [contrib_cons, contrib_nil]
    · simp [contrib_nil]
    · exact absurd (Or.inr trivial) h2
    · exact absurd (Or.inr trivial) h2
  have hcase : ∀ pt : PosCar, (∃ k, InSeg g.gridr k (√(pt.x ^ 2 + pt.y ^ 2 + pt.z ^ 2))) ∨ Outside g.gridr (√(pt.x ^ 2 + pt.y ^ 2 + pt.z ^ 2)) := by
    intro pt
    obtain ⟨k, -, h | h⟩ := locate_spec hv.ok (sqrt_nonneg (pt.x ^ 2 + pt.y ^ 2 + pt.z ^ 2))
    · exact Or.inl ⟨k, h⟩
    · exact Or.inr h.2
  refine ⟨hout, hzero, hcase, ?_⟩
  intro x y z mult v q
  by_cases hm : mult = 0
  · rw [hm]; simp only [hzero, and_self]
  have sx : ∀ a : ℝ, (-a) ^ 2 = a ^ 2 := fun a => by ring
  rcases hcase ⟨x, y, z⟩ with ⟨k, hk⟩ | ho
  · simp only at hk
    rcases (sqrt_nonneg (x ^ 2 + y ^ 2 + z ^ 2)).eq_or_lt with h0 | h0
    · have hz0 : x ^ 2 + y ^ 2 + z ^ 2 = 0 := by
        rw [eq_comm, sqrt_eq_zero (by positivity)] at h0; exact h0
      have a1 : x = 0 := by nlinarith [sq_nonneg x, sq_nonneg y, sq_nonneg z]
      have a2 : y = 0 := by nlinarith [sq_nonneg x, sq_nonneg y, sq_nonneg z]
      have a3 : z = 0 := by nlinarith [sq_nonneg x, sq_nonneg y, sq_nonneg z]
      subst a1 a2 a3
      simp only [neg_zero, and_self]
    · obtain ⟨r, hr⟩ : ∃ r, r = √(x ^ 2 + y ^ 2 + z ^ 2) := ⟨_, rfl⟩
      rw [← hr] at hk h0
      have hrs : r ^ 2 = x ^ 2 + y ^ 2 + z ^ 2 := by rw [hr, sq_sqrt (by positivity)]
      have hR : √(x ^ 2 + y ^ 2) ^ 2 = x ^ 2 + y ^ 2 := sq_sqrt (by positivity)
      have hzr : z / r ∈ Set.Icc (-1 : ℝ) 1 := by
        rw [Set.mem_Icc, ← abs_le, abs_div, abs_of_pos h0, div_le_one h0]
        exact abs_le_of_sq_le_sq (by nlinarith [sq_nonneg x, sq_nonneg y]) h0.le
      have hc : cos (arccos (z / r)) = z / r := cos_arccos hzr.1 hzr.2
      have hs : sin (arccos (z / r)) = √(x ^ 2 + y ^ 2) / r := by
        rw [sin_arccos, show 1 - (z / r) ^ 2 = (√(x ^ 2 + y ^ 2) / r) ^ 2 by rw [div_pow, div_pow, hR]; field_simp; linarith, sqrt_sq (by positivity)]
      have e := C54_car_cyl_car ⟨x, y, z⟩
      have ex : √(x ^ 2 + y ^ 2) * cos (atan2 y x) = x := congrArg PosCar.x e
      have ey : √(x ^ 2 + y ^ 2) * sin (atan2 y x) = y := congrArg PosCar.y e
      generalize atan2 y x = phi at ex ey
      generalize arccos (z / r) = theta at hc hs
      have hs0 : 0 ≤ sin theta := by rw [hs]; positivity
      have qx : x = r * sin theta * cos phi := by rw [hs, mul_div_cancel₀ _ h0.ne', ex]
      have qy : y = r * sin theta * sin phi := by rw [hs, mul_div_cancel₀ _ h0.ne', ey]
      have qz : z = r * cos theta := by rw [hc, mul_div_cancel₀ _ h0.ne']
      have b0 := (sh_add hv (pt := ⟨x, y, z⟩) hm h0 hs0 qx qy qz hk).2 q
      have b1 := (sh_add hv (pt := ⟨-x, y, z⟩) hm h0 hs0 (phi := π - phi) (by simp only; rw [cos_pi_sub, qx]; ring) (by simp only; rw [sin_pi_sub]; exact qy) qz hk).2 q
      have b2 := (sh_add hv (pt := ⟨x, -y, z⟩) hm h0 hs0 (phi := -phi) (by simp only; rw [cos_neg]; exact qx) (by simp only; rw [sin_neg, qy]; ring) qz hk).2 q
      have b3 := (sh_add hv (pt := ⟨x, y, -z⟩) hm h0 (theta := π - theta) (by rw [sin_pi_sub]; exact hs0) (phi := phi) (by simp only; rw [sin_pi_sub]; exact qx) (by simp only; rw [sin_pi_sub]; exact qy) (by simp only; rw [cos_pi_sub, qz]; ring) hk).2 q
      simp only [applyUpd_eq, b0, b1, b2, b3]
      unfold SHGrid.basis
      simp only [(ang_flip _ _ _ _).1, (ang_flip _ _ _ _).2.1, (ang_flip _ _ _ _).2.2, and_self]
  · rw [hout ⟨x, y, z⟩ mult ho, hout ⟨-x, y, z⟩ mult (by simp only [sx]; exact ho), hout ⟨x, -y, z⟩ mult (by simp only [sx]; exact ho), hout ⟨x, y, -z⟩ mult (by simp only [sx]; exact ho)]
    exact ⟨rfl, rfl, rfl⟩

theorem example_sh : mkSphHarm 4 2 [0, 1, 2] = some ⟨4, 2, [1, 2]⟩ := by
  have h1 : skipZero [0, 1, 2] = [1, 2] := by simp [skipZero]
  unfold mkSphHarm
  rw [if_neg]
  · rw [h1]; rfl
  · rw [h1, not_not]; exact ⟨by norm_num, by norm_num, by norm_num, okGrid_two⟩

/-- the point (0,1.5,0) is within the grid -/
example : InSeg [1, 2] 1 1.5 ∧ 0 ≤ sin (π / 2) ∧ (0 : ℝ) = 1.5 * sin (π / 2) * cos (π / 2) ∧ (1.5 : ℝ) = 1.5 * sin (π / 2) * sin (π / 2) ∧ (0 : ℝ) = 1.5 * cos (π / 2) := by
  rw [cos_pi_div_two, sin_pi_div_two]
  exact ⟨⟨by simp, by norm_num [node], by norm_num [node], fun h => by norm_num [node] at h⟩, by norm_num, by norm_num, by norm_num, by norm_num⟩

end

end Verif.DensGrid
