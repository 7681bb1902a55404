import Verif.DensGrid.CylProps
import Verif.SphHarm.LegendreProps

/-! Spherical-harmonic scheme -/

namespace Verif.DensGrid

open Real Verif.Coord

noncomputable section

/-- what the constructor guarantees -/
structure SHGrid.Valid (g : SHGrid) : Prop where
  ok : okGrid g.gridr
  le : g.mmax ≤ g.lmax

theorem mkSphHarm_valid {lmax mmax : ℤ} {gr : List ℝ} {g : SHGrid} (h : mkSphHarm lmax mmax gr = some g) : g.Valid ∧ (g.lmax : ℤ) = lmax ∧ (g.mmax : ℤ) = mmax ∧ g.gridr = skipZero gr := by
  unfold mkSphHarm at h
  split_ifs at h with hc
  cases h
  obtain ⟨h1, h2, h3, h4⟩ := hc
  exact ⟨⟨h4, by simp only; omega⟩, by simp only; omega, by simp only; omega, rfl⟩

/-- specification: the number of pairs (l,m) with even l≤lmax and even m<2μ, m≤l -/
def SHGrid.offset (g : SHGrid) (μ : ℕ) : ℕ := ∑ ν ∈ Finset.range μ, (g.lmax / 2 + 1 - ν)

/-- specification: the number of the basis function at the radial node k, with m=2μ, l=2μ+2λ (at the origin there is only the one with l=m=0) -/
def SHGrid.idx (g : SHGrid) (k μ lam : ℕ) : ℕ := if k = 0 then 0 else k + g.gridr.length * (g.offset μ + lam)

/-- specification: the angular part of the basis function: the spherical harmonic Y_lm (m≥0) times 2√π -/
def ang (m n : ℕ) (theta phi : ℝ) : ℝ := 2 * √π * (Verif.SphHarm.pre m n * Verif.SphHarm.cm m * Verif.SphHarm.G m n theta) * if m = 0 then 1 else √2 * cos (m * phi)

/-- specification: basis function with the number q -/
def SHGrid.basis (g : SHGrid) (r theta phi : ℝ) (q : ℕ) : ℝ :=
  ∑ μ ∈ Finset.range (g.mmax / 2 + 1), ∑ lam ∈ Finset.range (g.lmax / 2 + 1 - μ), ang (2 * μ) (2 * lam) theta phi * ∑ k ∈ Finset.range (g.gridr.length + 1), hatR g.gridr k r *
    (if (0 < k ∨ μ = 0 ∧ lam = 0) ∧ g.idx k μ lam = q then 1 else 0)

/-! ### loops -/

/-- the increments for one spherical harmonic -/
def stepSH (indr : ℤ) (offr val : ℝ) (l : ℕ) (off : ℤ) : Upd :=
  open Classical in [(off, val * offr)] ++ (if indr > 0 ∨ l = 0 then [(off - 1, val * (1 - offr))] else [])

theorem flatMap_range_succ (f : ℕ → Upd) (n : ℕ) : (List.range (n + 1)).flatMap f = f 0 ++ (List.range n).flatMap fun i => f (i + 1) := by
  rw [List.range_succ_eq_map, List.flatMap_cons, List.flatMap_map]

theorem loopL_eq (g : SHGrid) (indr : ℤ) (offr mult fac : ℝ) (leg : ℕ → ℝ) : ∀ fuel κ (off : ℤ), g.lmax / 2 + 1 ≤ fuel + κ →
    g.loopL indr offr mult fac leg fuel (2 * κ) off = ((List.range (g.lmax / 2 + 1 - κ)).flatMap fun j => stepSH indr offr (mult * leg (2 * (κ + j)) * 2 * √π * fac) (2 * (κ + j)) (off + g.gridr.length * j), off + g.gridr.length * (g.lmax / 2 + 1 - κ : ℕ))
  | 0, κ, off, h => by
    rw [show g.lmax / 2 + 1 - κ = 0 by omega]; simp [SHGrid.loopL]
  | fuel + 1, κ, off, h => by
    rw [SHGrid.loopL]
    by_cases hc : 2 * κ > g.lmax
    · rw [if_pos hc, show g.lmax / 2 + 1 - κ = 0 by omega]; simp
    · rw [if_neg hc, show 2 * κ + 2 = 2 * (κ + 1) by ring]
      simp only
      rw [loopL_eq g indr offr mult fac leg fuel (κ + 1) _ (by omega), show g.lmax / 2 + 1 - κ = (g.lmax / 2 + 1 - (κ + 1)) + 1 by omega, flatMap_range_succ]
      simp only [Prod.mk.injEq]
      constructor
      · congr 1
        · simp [stepSH]
        · congr 1
          funext j
          rw [show κ + 1 + j = κ + (j + 1) by ring]
          congr 1
          push_cast; ring
      · push_cast; ring

theorem loopM_eq (g : SHGrid) (indr : ℤ) (offr mult : ℝ) (leg : ℕ → ℕ → ℝ) (trig : ℕ → ℝ) (off0 : ℤ) : ∀ fuel μ, g.mmax / 2 + 1 ≤ fuel + μ →
    g.loopM indr offr mult leg trig fuel (2 * μ) (off0 + g.gridr.length * g.offset μ) = (List.range' μ (g.mmax / 2 + 1 - μ)).flatMap fun ν => (List.range (g.lmax / 2 + 1 - ν)).flatMap fun j =>
      stepSH indr offr (mult * leg (2 * ν) (2 * (ν + j)) * 2 * √π * (if 2 * ν = 0 then 1 else √2 * trig (2 * ν))) (2 * (ν + j)) (off0 + g.gridr.length * (g.offset ν + j : ℕ))
  | 0, μ, h => by
    rw [show g.mmax / 2 + 1 - μ = 0 by omega]; simp [SHGrid.loopM]
  | fuel + 1, μ, h => by
    rw [SHGrid.loopM]
    by_cases hc : 2 * μ > g.mmax
    · rw [if_pos hc, show g.mmax / 2 + 1 - μ = 0 by omega]; simp
    · rw [if_neg hc, show 2 * μ + 2 = 2 * (μ + 1) by ring]
      simp only
      rw [loopL_eq g indr offr mult _ _ (g.lmax + 1) μ _ (by omega)]
      simp only
      have ho : off0 + (g.gridr.length : ℤ) * g.offset μ + g.gridr.length * (g.lmax / 2 + 1 - μ : ℕ) = off0 + g.gridr.length * g.offset (μ + 1) := by
        rw [SHGrid.offset, SHGrid.offset, Finset.sum_range_succ]; push_cast; ring
      rw [ho, loopM_eq g indr offr mult leg trig off0 fuel (μ + 1) (by omega), show g.mmax / 2 + 1 - μ = (g.mmax / 2 + 1 - (μ + 1)) + 1 by omega, List.range'_succ, List.flatMap_cons]
      congr 1
      congr 1
      funext j
      congr 1
      push_cast; ring

/-! ### numbering -/

theorem offset_mono (g : SHGrid) {μ μ' : ℕ} (h : μ ≤ μ') : g.offset μ ≤ g.offset μ' :=
  Finset.sum_le_sum_of_subset (Finset.range_subset_range.2 h)

theorem offset_succ (g : SHGrid) (μ : ℕ) : g.offset (μ + 1) = g.offset μ + (g.lmax / 2 + 1 - μ) := by
  rw [SHGrid.offset, SHGrid.offset, Finset.sum_range_succ]

theorem offset_closed (g : SHGrid) : ∀ μ, μ ≤ g.lmax / 2 → g.offset (μ + 1) + μ * (μ + 1) / 2 = (g.lmax / 2 + 1) * (μ + 1)
  | 0, _ => by simp [SHGrid.offset]
  | μ + 1, h => by
    have ih := offset_closed g μ (by omega)
    have h1 : (μ + 1) * (μ + 1 + 1) / 2 = μ * (μ + 1) / 2 + (μ + 1) := by
      rw [show (μ + 1) * (μ + 1 + 1) = μ * (μ + 1) + (μ + 1) * 2 by ring, Nat.add_mul_div_right _ _ (by omega)]
    rw [offset_succ, h1]
    have : g.lmax / 2 + 1 - (μ + 1) + (μ + 1) = g.lmax / 2 + 1 := by omega
    nlinarith

theorem angularCoefs_eq {g : SHGrid} (hv : g.Valid) : g.angularCoefs = g.offset (g.mmax / 2 + 1) := by
  have := offset_closed g (g.mmax / 2) (by have := hv.le; omega)
  rw [SHGrid.angularCoefs]; omega

theorem idx_lt {g : SHGrid} (hv : g.Valid) {k μ lam : ℕ} (hk : k ≤ g.gridr.length) (hμ : 2 * μ ≤ g.mmax) (hl : lam < g.lmax / 2 + 1 - μ) : g.idx k μ lam < g.numValues := by
  unfold SHGrid.idx SHGrid.numValues
  split_ifs with h
  · omega
  · rw [angularCoefs_eq hv]
    have h1 : g.offset μ + lam + 1 ≤ g.offset (g.mmax / 2 + 1) := by
      have := offset_mono g (show μ + 1 ≤ g.mmax / 2 + 1 by omega)
      rw [offset_succ] at this
      omega
    have h2 := Nat.mul_le_mul_right g.gridr.length h1
    nlinarith

theorem idx_surj {g : SHGrid} (hv : g.Valid) {q : ℕ} (hq : q < g.numValues) : ∃ k μ lam, k ≤ g.gridr.length ∧ 2 * μ ≤ g.mmax ∧ lam < g.lmax / 2 + 1 - μ ∧ (0 < k ∨ μ = 0 ∧ lam = 0) ∧ g.idx k μ lam = q := by
  rcases Nat.eq_zero_or_pos q with h0 | h0
  · exact ⟨0, 0, 0, by omega, by omega, by omega, Or.inr ⟨rfl, rfl⟩, by simp [SHGrid.idx, h0]⟩
  have hn := hv.ok.1
  have hA : (q - 1) / g.gridr.length < g.offset (g.mmax / 2 + 1) := by
    rw [← angularCoefs_eq hv, Nat.div_lt_iff_lt_mul hn]
    unfold SHGrid.numValues at hq
    omega
  have hfind : ∀ M a, a < g.offset M → ∃ μ lam, μ < M ∧ lam < g.lmax / 2 + 1 - μ ∧ g.offset μ + lam = a := by
    intro M
    induction M with
    | zero => intro a h; simp [SHGrid.offset] at h
    | succ M ih =>
      intro a h
      by_cases h1 : a < g.offset M
      · obtain ⟨μ, lam, c1, c2, c3⟩ := ih a h1
        exact ⟨μ, lam, by omega, c2, c3⟩
      · rw [offset_succ] at h
        exact ⟨M, a - g.offset M, by omega, by omega, by omega⟩
  obtain ⟨μ, lam, c1, c2, c3⟩ := hfind _ _ hA
  have e1 := Nat.div_add_mod (q - 1) g.gridr.length
  have e2 := Nat.mod_lt (q - 1) hn
  refine ⟨(q - 1) % g.gridr.length + 1, μ, lam, by omega, by omega, c2, Or.inl (by omega), ?_⟩
  rw [SHGrid.idx, if_neg (by omega), c3]
  omega

/-- the loop in coefName finds m -/
theorem nameLoop_eq {g : SHGrid} {μ lam k : ℕ} (hk : k < g.gridr.length) (hl : lam < g.lmax / 2 + 1 - μ) : ∀ d ν fuel, ν + d = μ → d < fuel →
    g.nameLoop fuel (k + g.gridr.length * (g.offset μ + lam) - g.gridr.length * g.offset ν) (2 * ν) = (k + g.gridr.length * lam, 2 * μ)
  | 0, ν, fuel, h1, h2 => by
    obtain ⟨f, rfl⟩ : ∃ f, fuel = f + 1 := ⟨fuel - 1, by omega⟩
    rw [Nat.add_zero] at h1
    subst h1
    have e : k + g.gridr.length * (g.offset ν + lam) - g.gridr.length * g.offset ν = k + g.gridr.length * lam := by rw [Nat.mul_add]; omega
    rw [e, SHGrid.nameLoop, if_neg]
    rw [Nat.mul_div_cancel_left _ (by omega : 0 < 2)]
    have h3 : (lam + 1) * g.gridr.length ≤ (1 + g.lmax / 2 - ν) * g.gridr.length := Nat.mul_le_mul_right _ (by omega)
    nlinarith
  | d + 1, ν, fuel, h1, h2 => by
    obtain ⟨f, rfl⟩ : ∃ f, fuel = f + 1 := ⟨fuel - 1, by omega⟩
    have hm : g.offset (ν + 1) ≤ g.offset μ := offset_mono g (by omega)
    have hm' := Nat.mul_le_mul_left g.gridr.length hm
    have ho := offset_succ g ν
    have ho' : g.gridr.length * g.offset (ν + 1) = g.gridr.length * g.offset ν + g.gridr.length * (1 + g.lmax / 2 - ν) := by
      rw [ho, Nat.mul_add, show g.lmax / 2 + 1 - ν = 1 + g.lmax / 2 - ν by omega]
    rw [SHGrid.nameLoop, if_pos]
    · rw [Nat.mul_div_cancel_left _ (by omega : 0 < 2), show 2 * ν + 2 = 2 * (ν + 1) by ring, Nat.sub_sub, ← ho']
      exact nameLoop_eq hk hl d (ν + 1) f (by omega) (by omega)
    · rw [Nat.mul_div_cancel_left _ (by omega : 0 < 2), Nat.mul_add]
      have : 0 ≤ g.gridr.length * lam := Nat.zero_le _
      omega

theorem offset_ge (g : SHGrid) : ∀ μ, μ ≤ g.lmax / 2 + 1 → μ ≤ g.offset μ
  | 0, _ => by omega
  | μ + 1, h => by
    have := offset_ge g μ (by omega)
    rw [offset_succ]; omega

theorem idx_name {g : SHGrid} (hv : g.Valid) {k μ lam : ℕ} (hk : k ≤ g.gridr.length) (hμ : 2 * μ ≤ g.mmax) (hl : lam < g.lmax / 2 + 1 - μ) (h : 0 < k ∨ μ = 0 ∧ lam = 0) :
    g.name (g.idx k μ lam) = some (node g.gridr k, 2 * μ + 2 * lam, 2 * μ) := by
  have hlt := idx_lt hv hk hμ hl
  unfold SHGrid.name
  rw [if_neg (by omega)]
  rcases Nat.eq_zero_or_pos k with h0 | h0
  · obtain ⟨h1, h2⟩ : μ = 0 ∧ lam = 0 := by omega
    subst h0 h1 h2
    rw [if_pos (by simp [SHGrid.idx])]; simp [node_zero]
  · obtain ⟨k', rfl⟩ : ∃ k', k = k' + 1 := ⟨k - 1, by omega⟩
    have hi : g.idx (k' + 1) μ lam = k' + 1 + g.gridr.length * (g.offset μ + lam) := by rw [SHGrid.idx, if_neg (by omega)]
    have hge := offset_ge g μ (by omega)
    have hge' : g.offset μ + lam ≤ g.gridr.length * (g.offset μ + lam) := Nat.le_mul_of_pos_left _ hv.ok.1
    have hloop := nameLoop_eq (g := g) (μ := μ) (lam := lam) (k := k') (by omega) hl μ 0 (g.idx (k' + 1) μ lam) (by omega) (by omega)
    rw [if_neg (by omega)]
    simp only
    have : g.idx (k' + 1) μ lam - 1 = k' + g.gridr.length * (g.offset μ + lam) - g.gridr.length * g.offset 0 := by
      rw [hi]; simp [SHGrid.offset]
    rw [this]
    rw [Nat.mul_zero] at hloop
    rw [hloop]
    obtain ⟨d1, d2⟩ := div_mod_unique (a := k' + g.gridr.length * lam) (b := g.gridr.length) (q := lam) (r := k') (by ring) (by omega)
    simp only
    rw [d1, d2, at'_succ]
    congr 2
    · congr 1; ring

/-! ### addPoint -/

theorem legAt_eq {lmax m n : ℕ} (h : m + n ≤ lmax) {t : ℝ} (ht : sin t + 1 ≠ 0) : legAt lmax m (Verif.SphHarm.tauOf t) (m + n) = Verif.SphHarm.pre m n * Verif.SphHarm.cm m * Verif.SphHarm.G m n t := by
  obtain ⟨a, o, h1, h2, h3⟩ := Verif.SphHarm.array_val h ht
  unfold legAt
  rw [h1]
  simp only [Nat.add_sub_cancel_left]
  rw [h2]
  exact h3

theorem stepSH_contrib {g : SHGrid} {k μ lam : ℕ} (offr val : ℝ) (q : ℕ) : contrib (stepSH k offr val (2 * (μ + lam)) (k + 1 + g.gridr.length * (g.offset μ + lam : ℕ))) q =
    val * ((1 - offr) * (if (0 < k ∨ μ = 0 ∧ lam = 0) ∧ g.idx k μ lam = q then 1 else 0) + offr * (if (0 < k + 1 ∨ μ = 0 ∧ lam = 0) ∧ g.idx (k + 1) μ lam = q then 1 else 0)) := by
  have hone : ∀ (i q : ℕ) (x : ℝ), (if (i : ℤ) = (q : ℤ) then x else 0) = x * (if i = q then 1 else 0) := by
    intro i q x
    by_cases h : i = q
    · rw [if_pos h, if_pos (by omega), mul_one]
    · rw [if_neg h, if_neg (by omega), mul_zero]
  have u1 : (k : ℤ) + 1 + g.gridr.length * (g.offset μ + lam : ℕ) = g.idx (k + 1) μ lam := by
    rw [SHGrid.idx, if_neg (by omega)]; push_cast; ring
  have hx : (0 < k + 1 ∨ μ = 0 ∧ lam = 0) := Or.inl (by omega)
  unfold stepSH
  simp only [contrib_append, contrib_cons, contrib_nil, u1, hone, hx, true_and]
  by_cases h : 0 < k ∨ μ = 0 ∧ lam = 0
  · have u2 : (g.idx (k + 1) μ lam : ℤ) - 1 = g.idx k μ lam := by
      rw [SHGrid.idx, if_neg (by omega), SHGrid.idx]
      split_ifs with hk
      · obtain ⟨a, b⟩ : μ = 0 ∧ lam = 0 := by omega
        subst hk a b; simp [SHGrid.offset]
      · push_cast; ring
    rw [if_pos (show (k : ℤ) > 0 ∨ 2 * (μ + lam) = 0 by omega)]
    simp only [contrib_cons, contrib_nil, u2, hone, h, true_and]
    ring
  · rw [if_neg (show ¬ ((k : ℤ) > 0 ∨ 2 * (μ + lam) = 0) by omega)]
    simp only [h, false_and, if_false, contrib_nil]
    ring

theorem stepSH_range {g : SHGrid} (hv : g.Valid) {k μ lam : ℕ} (hk : k < g.gridr.length) (hμ : 2 * μ ≤ g.mmax) (hl : lam < g.lmax / 2 + 1 - μ) (offr val : ℝ) :
    ∀ e ∈ stepSH k offr val (2 * (μ + lam)) (k + 1 + g.gridr.length * (g.offset μ + lam : ℕ)), 0 ≤ e.1 ∧ e.1 < g.numValues := by
  have u1 : (k : ℤ) + 1 + g.gridr.length * (g.offset μ + lam : ℕ) = g.idx (k + 1) μ lam := by
    rw [SHGrid.idx, if_neg (by omega)]; push_cast; ring
  have h1 := idx_lt hv (k := k + 1) (by omega) hμ hl
  have h0 : 0 < g.idx (k + 1) μ lam := by rw [SHGrid.idx, if_neg (by omega)]; omega
  intro e he
  unfold stepSH at he
  rw [u1] at he
  rw [List.mem_append, List.mem_singleton] at he
  rcases he with he | he
  · rw [he]; simp only; omega
  · split_ifs at he
    · rw [List.mem_singleton] at he; rw [he]; simp only; omega
    · simp at he

theorem sum_range_list (n : ℕ) (f : ℕ → ℝ) : ((List.range n).map f).sum = ∑ i ∈ Finset.range n, f i := by
  rw [Finset.sum_range, ← List.sum_ofFn]; congr 1
  rw [List.ofFn_eq_map]; simp [← List.map_coe_finRange_eq_range, Function.comp_def]

theorem sh_add {g : SHGrid} (hv : g.Valid) {pt : PosCar} {mult : ℝ} (hm : mult ≠ 0) {r theta phi : ℝ} (hr : 0 < r) (ht0 : 0 ≤ sin theta) (hx : pt.x = r * sin theta * cos phi) (hy : pt.y = r * sin theta * sin phi) (hz : pt.z = r * cos theta)
    {k : ℕ} (hk : InSeg g.gridr k r) :
    (∀ e ∈ g.add pt mult, 0 ≤ e.1 ∧ e.1 < g.numValues) ∧ ∀ q : ℕ, contrib (g.add pt mult) q = mult * g.basis r theta phi q := by
  have hR : √(pt.x ^ 2 + pt.y ^ 2) = r * sin theta := by
    rw [hx, hy, show (r * sin theta * cos phi) ^ 2 + (r * sin theta * sin phi) ^ 2 = (r * sin theta) ^ 2 * (sin phi ^ 2 + cos phi ^ 2) by ring, sin_sq_add_cos_sq, mul_one, sqrt_sq (by positivity)]
  have hrr : √((carToCyl pt).R ^ 2 + (carToCyl pt).z ^ 2) = r := by
    show √(√(pt.x ^ 2 + pt.y ^ 2) ^ 2 + pt.z ^ 2) = r
    rw [hR, hz, show (r * sin theta) ^ 2 + (r * cos theta) ^ 2 = r ^ 2 * (sin theta ^ 2 + cos theta ^ 2) by ring, sin_sq_add_cos_sq, mul_one, sqrt_sq hr.le]
  have htau : (carToCyl pt).z / (r + (carToCyl pt).R) = Verif.SphHarm.tauOf theta := by
    show pt.z / (r + √(pt.x ^ 2 + pt.y ^ 2)) = _
    rw [hR, hz, Verif.SphHarm.tauOf, show r + r * sin theta = r * (sin theta + 1) by ring, mul_div_mul_left _ _ hr.ne']
  have hfac : ∀ μ lam, 2 * μ ≤ g.mmax → lam < g.lmax / 2 + 1 - μ → mult * legAt g.lmax (2 * μ) (Verif.SphHarm.tauOf theta) (2 * (μ + lam)) * 2 * √π * (if 2 * μ = 0 then 1 else √2 * trigAt g.mmax (carToCyl pt).phi (2 * μ)) = mult * ang (2 * μ) (2 * lam) theta phi := by
    intro μ lam h1 h2
    rw [show 2 * (μ + lam) = 2 * μ + 2 * lam by ring, legAt_eq (by omega) (by linarith), ang]
    rcases Nat.eq_zero_or_pos μ with h0 | h0
    · rw [if_pos (by omega), if_pos (by omega)]; ring
    · rw [if_neg (by omega), if_neg (by omega), trigAt_eq _ (by omega) h1]
      rcases ht0.eq_or_lt with hs | hs
      · have : Verif.SphHarm.G (2 * μ) (2 * lam) theta = 0 := by
          rw [Verif.SphHarm.G, ← hs, zero_pow (by omega), zero_mul]
        rw [this]; ring
      · have hpos : 0 < √(pt.x ^ 2 + pt.y ^ 2) := by rw [hR]; positivity
        have e := C54_car_cyl_car pt
        have ex : √(pt.x ^ 2 + pt.y ^ 2) * cos (atan2 pt.y pt.x) = pt.x := congrArg PosCar.x e
        have ey : √(pt.x ^ 2 + pt.y ^ 2) * sin (atan2 pt.y pt.x) = pt.y := congrArg PosCar.y e
        have := azim_unique ex.symm ey.symm (phi' := phi) (by rw [hR, ← hx]) (by rw [hR, ← hy]) hpos μ
        unfold azim at this
        rw [if_neg (by omega), if_neg (by omega)] at this
        have h3 : cos ((2 * μ : ℕ) * (carToCyl pt).phi) = cos ((2 * μ : ℕ) * phi) := by
          push_cast
          show cos (2 * μ * atan2 pt.y pt.x) = _
          linarith
        rw [h3]; ring
  have hoff : (if (k : ℤ) = 0 then r / at' g.gridr 0 else (r - at' g.gridr ((k : ℤ) - 1)) / (at' g.gridr k - at' g.gridr ((k : ℤ) - 1))) = frac g.gridr k r := by
    unfold frac
    rcases Nat.eq_zero_or_pos k with h | h
    · subst h
      rw [if_pos (by simp), node_zero, sub_zero, sub_zero]
      exact congrArg _ (at'_succ g.gridr 0)
    · rw [if_neg (by omega), at'_pred _ h, at'_succ]
  have e : g.add pt mult = (List.range (g.mmax / 2 + 1)).flatMap fun μ => (List.range (g.lmax / 2 + 1 - μ)).flatMap fun j =>
      stepSH k (frac g.gridr k r) (mult * legAt g.lmax (2 * μ) (Verif.SphHarm.tauOf theta) (2 * (μ + j)) * 2 * √π * (if 2 * μ = 0 then 1 else √2 * trigAt g.mmax (carToCyl pt).phi (2 * μ))) (2 * (μ + j)) (k + 1 + g.gridr.length * (g.offset μ + j : ℕ)) := by
    unfold SHGrid.add
    simp only
    rw [hrr, htau, if_neg hr.ne', locate_seg hv.ok hk, if_neg, hoff]
    · have := loopM_eq g k (frac g.gridr k r) mult (fun m => legAt g.lmax m (Verif.SphHarm.tauOf theta)) (trigAt g.mmax (carToCyl pt).phi) (k + 1) (g.mmax + 1) 0 (by omega)
      rw [show g.offset 0 = 0 from rfl] at this
      simp only [Nat.cast_zero, mul_zero, Nat.sub_zero, ← List.range_eq_range'] at this
      exact this
    · rintro (h | h)
      · have := hk.lt; omega
      · exact hm h
  constructor
  · intro x hx'
    rw [e, List.mem_flatMap] at hx'
    obtain ⟨μ, h1, h2⟩ := hx'
    rw [List.mem_flatMap] at h2
    obtain ⟨j, h3, h4⟩ := h2
    rw [List.mem_range] at h1 h3
    exact stepSH_range hv hk.lt (by omega) h3 _ _ x h4
  · intro q
    rw [e, contrib_flatMap, sum_range_list, SHGrid.basis, Finset.mul_sum]
    refine Finset.sum_congr rfl fun μ hμ => ?_
    rw [Finset.mem_range] at hμ
    rw [contrib_flatMap, sum_range_list, Finset.mul_sum]
    refine Finset.sum_congr rfl fun j hj => ?_
    rw [Finset.mem_range] at hj
    rw [stepSH_contrib, hfac μ j (by omega) hj, hatR_sum hv.ok hk.lt hk.lo hk.hi (fun k => if (0 < k ∨ μ = 0 ∧ j = 0) ∧ g.idx k μ j = q then (1 : ℝ) else 0)]
    ring

end

end Verif.DensGrid
