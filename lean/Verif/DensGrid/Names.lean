import Verif.DensGrid.Classic2

/-! Classic scheme: names of the coefficients, cells, nodes -/

namespace Verif.DensGrid

open Real Verif.Coord

noncomputable section

/-- specification: the point in the first octant with the given radius and, unless this is the origin, the given fractional indices in the pane p -/
structure Classic.At (g : Classic) (pt : PosCar) (r : ℝ) (p : ℕ) (a b : ℝ) : Prop where
  nonneg : 0 ≤ pt.x ∧ 0 ≤ pt.y ∧ 0 ≤ pt.z
  radius : g.rad pt = r
  pane : 0 < r → g.InPane pt p ∧ g.t1 pt p = a ∧ g.t2 pt p = b

/-! ### position in the name -/

theorem place_pane {g : Classic} (hv : g.Valid) {radius c0 c1 c2 : ℝ} (hr : 0 ≤ radius) (h0 : 0 ≤ c0) (h1 : 0 ≤ c1) (h2 : 0 ≤ c2) {p : ℕ} (hp : p < 3) :
    (0 ≤ (g.place radius p c0 c1 c2).x ∧ 0 ≤ (g.place radius p c0 c1 c2).y ∧ 0 ≤ (g.place radius p c0 c1 c2).z) ∧
    g.pane (g.place radius p c0 c1 c2) p = (radius * (1 / √(c0 ^ 2 + c1 ^ 2 + c2 ^ 2)) * c0, radius * (1 / √(c0 ^ 2 + c1 ^ 2 + c2 ^ 2)) * c1, radius * (1 / √(c0 ^ 2 + c1 ^ 2 + c2 ^ 2)) * c2) := by
  obtain ⟨-, -, hx, hy, hz⟩ := hv
  have hd : 0 ≤ radius * (1 / √(c0 ^ 2 + c1 ^ 2 + c2 ^ 2)) := by positivity
  have sX : ∀ c, 0 ≤ c → |c * g.axisX / g.axisX| = c := fun c hc => by rw [mul_div_cancel_right₀ _ hx.ne', abs_of_nonneg hc]
  have sY : ∀ c, 0 ≤ c → |c * g.axisY| / g.axisY = c := fun c hc => by rw [abs_of_nonneg (by positivity), mul_div_cancel_right₀ _ hy.ne']
  have sZ : ∀ c, 0 ≤ c → |c * g.axisZ| / g.axisZ = c := fun c hc => by rw [abs_of_nonneg (by positivity), mul_div_cancel_right₀ _ hz.ne']
  unfold Classic.pane Classic.sx Classic.sy Classic.sz Classic.place
  simp only
  generalize radius * (1 / √(c0 ^ 2 + c1 ^ 2 + c2 ^ 2)) = ρ at *
  have e0 : 0 ≤ ρ * c0 := by positivity
  have e1 : 0 ≤ ρ * c1 := by positivity
  have e2 : 0 ≤ ρ * c2 := by positivity
  interval_cases p
  · norm_num [cyc, -abs_mul, -mul_div_cancel_right₀]
    rw [sX _ e0, sY _ e1, sZ _ e2]
    exact ⟨⟨mul_nonneg e0 hx.le, mul_nonneg e1 hy.le, mul_nonneg e2 hz.le⟩, rfl, rfl, rfl⟩
  · norm_num [cyc, -abs_mul, -mul_div_cancel_right₀]
    rw [sX _ e2, sY _ e0, sZ _ e1]
    exact ⟨⟨mul_nonneg e2 hx.le, mul_nonneg e0 hy.le, mul_nonneg e1 hz.le⟩, rfl, rfl, rfl⟩
  · norm_num [cyc, -abs_mul, -mul_div_cancel_right₀]
    rw [sX _ e1, sY _ e2, sZ _ e0]
    exact ⟨⟨mul_nonneg e1 hx.le, mul_nonneg e2 hy.le, mul_nonneg e0 hz.le⟩, rfl, rfl, rfl⟩

theorem angCoord_scale {S : ℕ} {ρ c : ℝ} (h : 0 < ρ) : angCoord S (ρ * 1) (ρ * c) = S * (arctan c / (π / 4)) := by
  rw [angCoord, mul_one, mul_div_cancel_left₀ _ h.ne']

theorem place_at {g : Classic} (hv : g.Valid) {radius c1 c2 : ℝ} (hr : 0 ≤ radius) (h1 : 0 ≤ c1) (h2 : 0 ≤ c2) (u1 : c1 ≤ 1) (u2 : c2 ≤ 1) {p : ℕ} (hp : p < 3) :
    g.At (g.place radius p 1 c1 c2) radius p (g.S * (arctan c1 / (π / 4))) (g.S * (arctan c2 / (π / 4))) := by
  obtain ⟨hn, hc⟩ := place_pane hv hr zero_le_one h1 h2 hp
  refine ⟨hn, ?_, fun h0 => ?_⟩
  · rw [rad_sq g _ p, hc]
    simp only
    rw [show (radius * (1 / √(1 ^ 2 + c1 ^ 2 + c2 ^ 2)) * 1) ^ 2 + (radius * (1 / √(1 ^ 2 + c1 ^ 2 + c2 ^ 2)) * c1) ^ 2 + (radius * (1 / √(1 ^ 2 + c1 ^ 2 + c2 ^ 2)) * c2) ^ 2
        = radius ^ 2 * ((1 / √(1 ^ 2 + c1 ^ 2 + c2 ^ 2)) ^ 2 * (1 ^ 2 + c1 ^ 2 + c2 ^ 2)) by ring]
    have hp' : 0 < 1 ^ 2 + c1 ^ 2 + c2 ^ 2 := by positivity
    generalize 1 ^ 2 + c1 ^ 2 + c2 ^ 2 = A at hp' ⊢
    rw [div_pow, sq_sqrt hp'.le, one_pow, one_div, inv_mul_cancel₀ hp'.ne', mul_one, sqrt_sq hr]
  · have hρ : 0 < radius * (1 / √(1 ^ 2 + c1 ^ 2 + c2 ^ 2)) := by positivity
    refine ⟨⟨hp, ?_, ?_⟩, ?_, ?_⟩
    · change (g.pane _ p).2.1 ≤ (g.pane _ p).1
      rw [hc]; exact mul_le_mul_of_nonneg_left u1 hρ.le
    · change (g.pane _ p).2.2 ≤ (g.pane _ p).1
      rw [hc]; exact mul_le_mul_of_nonneg_left u2 hρ.le
    · rw [Classic.t1, hc]; exact angCoord_scale hρ
    · rw [Classic.t2, hc]; exact angCoord_scale hρ

theorem tan_ang {S : ℕ} (hS : 1 ≤ S) {a : ℝ} (h0 : 0 ≤ a) (h1 : a ≤ S) :
    0 ≤ tan (π / 4 * a / S) ∧ tan (π / 4 * a / S) ≤ 1 ∧ S * (arctan (tan (π / 4 * a / S)) / (π / 4)) = a := by
  have hpi := pi_pos
  have hS' : (0 : ℝ) < S := by exact_mod_cast hS
  have hx : 0 ≤ π / 4 * a / S := by positivity
  have hy : π / 4 * a / S ≤ π / 4 := by
    rw [div_le_iff₀ hS']; exact mul_le_mul_of_nonneg_left h1 (by positivity)
  have he : arctan (tan (π / 4 * a / S)) = π / 4 * a / S := arctan_tan (by linarith) (by linarith)
  refine ⟨tan_nonneg_of_nonneg_of_le_pi_div_two hx (by linarith), ?_, ?_⟩
  · rw [← arctan_le_arctan_iff, he, arctan_one]; exact hy
  · rw [he]; field_simp

theorem place_tan {g : Classic} (hv : g.Valid) {radius a b : ℝ} (hr : 0 ≤ radius) (a0 : 0 ≤ a) (a1 : a ≤ g.S) (b0 : 0 ≤ b) (b1 : b ≤ g.S) {p : ℕ} (hp : p < 3) :
    g.At (g.place radius p 1 (tan (π / 4 * a / g.S)) (tan (π / 4 * b / g.S))) radius p a b := by
  obtain ⟨x1, x2, x3⟩ := tan_ang hv.strips a0 a1
  obtain ⟨y1, y2, y3⟩ := tan_ang hv.strips b0 b1
  have := place_at hv hr x1 y1 x2 y2 hp
  rwa [x3, y3] at this

/-- points at the boundary of two panes -/
theorem at_adj {g : Classic} (hv : g.Valid) {pt : PosCar} {r a : ℝ} {p : ℕ} (hp : p < 3) (h : g.At pt r ((p + 2) % 3) g.S a) : g.At pt r p a g.S := by
  refine ⟨h.nonneg, h.radius, fun h0 => ?_⟩
  obtain ⟨h1, h2, h3⟩ := h.pane h0
  have e : g.pane pt ((p + 2) % 3) = ((g.pane pt p).2.2, (g.pane pt p).1, (g.pane pt p).2.1) := cyc_adj _ _ _ hp
  have hn : 0 ≤ (g.pane pt ((p + 2) % 3)).1 := (cyc_nonneg (hv.snn pt) _).1
  have hz : (g.pane pt ((p + 2) % 3)).1 ≠ 0 := fun hh => by
    have := (pane_zero hv h1).1 hh
    rw [h.radius] at this; linarith
  have l1 : (g.pane pt ((p + 2) % 3)).2.1 ≤ (g.pane pt ((p + 2) % 3)).1 := h1.2.1
  have l2 : (g.pane pt ((p + 2) % 3)).2.2 ≤ (g.pane pt ((p + 2) % 3)).1 := h1.2.2
  rw [Classic.t1] at h2
  rw [Classic.t2] at h3
  rw [e] at hn hz l1 l2 h2 h3
  simp only at hn hz l1 l2 h2 h3
  have hp0 : 0 < (g.pane pt p).2.2 := lt_of_le_of_ne hn (Ne.symm hz)
  have hS : (0 : ℝ) < g.S := by exact_mod_cast hv.strips
  have hpi := pi_pos
  have eq : (g.pane pt p).1 = (g.pane pt p).2.2 := by
    rw [angCoord] at h2
    have h4 : arctan ((g.pane pt p).1 / (g.pane pt p).2.2) = arctan 1 := by
      rw [arctan_one]
      field_simp at h2
      linarith
    have := arctan_injective h4
    rwa [div_eq_one_iff_eq hz] at this
  refine ⟨⟨hp, ?_, ?_⟩, ?_, ?_⟩
  · change (g.pane pt p).2.1 ≤ (g.pane pt p).1
    rw [eq]; exact l2
  · change (g.pane pt p).2.2 ≤ (g.pane pt p).1
    rw [eq]
  · rw [Classic.t1, eq]; exact h3
  · rw [Classic.t2, eq, angCoord_one hz]

/-! ### N=1: nodes -/

theorem div_mod_unique {a b q r : ℕ} (h : a = q * b + r) (hr : r < b) : a / b = q ∧ a % b = r := by
  have hb : 0 < b := by omega
  subst h
  rw [Nat.add_comm, Nat.add_mul_div_right _ _ hb, Nat.add_mul_mod_self_right, Nat.div_eq_of_lt hr, Nat.mod_eq_of_lt hr]
  simp

theorem node_nonneg {grid : List ℝ} (h : okGrid grid) {k : ℕ} (hk : k ≤ grid.length) : 0 ≤ node grid k := by
  rw [← node_zero grid]; exact h.le (Nat.zero_le k) hk

theorem name1_node {g : Classic} (hv : g.Valid) {k p i j : ℕ} (hk : k ≤ g.radii.length) (hp : p < 3) (hi : i ≤ g.S) (hj : j ≤ g.S) :
    ∃ pt, g.name1 (g.nodeIdx k p i j) = some pt ∧ g.At pt (node g.radii k) p i j := by
  have hlt := nodeIdx_lt g (j := j) hk hp hi
  have hS := hv.strips
  rcases Nat.eq_zero_or_pos k with h0 | h0
  · have e : g.nodeIdx k p i j = 0 := by rw [h0]; simp [Classic.nodeIdx]
    refine ⟨g.place 0 0 1 0 0, ?_, ?_⟩
    · unfold Classic.name1
      rw [e, if_neg (by rw [e] at hlt; omega), if_pos rfl]
    · have := place_at hv le_rfl le_rfl le_rfl zero_le_one zero_le_one (by omega : 0 < 3)
      rw [h0, node_zero]
      exact ⟨this.nonneg, this.radius, fun h => absurd h (lt_irrefl 0)⟩
  have hps : g.perShell 1 = 3 * g.S * (g.S + 1) + 1 := rfl
  have hang := angIdx_lt (S := g.S) (j := j) hp hi
  have e : g.nodeIdx k p i j = (k - 1) * g.perShell 1 + 1 + angIdx g.S p i j := by rw [Classic.nodeIdx, if_neg (by omega)]
  obtain ⟨d1, d2⟩ := div_mod_unique (a := g.nodeIdx k p i j - 1) (b := g.perShell 1) (q := k - 1) (r := angIdx g.S p i j) (by rw [e]; omega) (by omega)
  have hrad : at' g.radii (((k - 1 : ℕ) : ℤ)) = node g.radii k := by rw [at'_succ, Nat.sub_add_cancel h0]
  have hr := node_nonneg hv.grid hk
  have main : ∀ p i j : ℕ, p < 3 → i ≤ g.S → j < g.S → ∃ pt, (if angIdx g.S p i j = g.perShell 1 - 1 then some (g.place (node g.radii k) 0 1 1 1)
      else some (g.place (node g.radii k) (angIdx g.S p i j / (g.S * (g.S + 1))) 1 (tan (π / 4 * ((angIdx g.S p i j % (g.S * (g.S + 1)) % (g.S + 1) : ℕ) : ℝ) / g.S)) (tan (π / 4 * ((angIdx g.S p i j % (g.S * (g.S + 1)) / (g.S + 1) : ℕ) : ℝ) / g.S)))) = some pt ∧
      g.At pt (node g.radii k) p i j := by
    intro p i j hp hi hj
    have ea : angIdx g.S p i j = i + (j + p * g.S) * (g.S + 1) := by rw [angIdx, if_pos hj]
    have hlt' : (j + p * g.S + 1) * (g.S + 1) ≤ 3 * g.S * (g.S + 1) := Nat.mul_le_mul_right _ (by nlinarith)
    have hb : i + j * (g.S + 1) < g.S * (g.S + 1) := by
      have : (j + 1) * (g.S + 1) ≤ g.S * (g.S + 1) := Nat.mul_le_mul_right _ hj
      nlinarith
    obtain ⟨f1, f2⟩ := div_mod_unique (a := angIdx g.S p i j) (b := g.S * (g.S + 1)) (q := p) (r := i + j * (g.S + 1)) (by rw [ea]; ring) hb
    obtain ⟨f3, f4⟩ := div_mod_unique (a := i + j * (g.S + 1)) (b := g.S + 1) (q := j) (r := i) (by ring) (by omega)
    have hx : (j + p * g.S + 1) * (g.S + 1) = (j + p * g.S) * (g.S + 1) + (g.S + 1) := by ring
    rw [if_neg (by rw [hps, ea]; omega), f1, f2, f3, f4]
    exact ⟨_, rfl, place_tan hv hr (by positivity) (by exact_mod_cast hi) (by positivity) (by exact_mod_cast hj.le) hp⟩
  unfold Classic.name1
  rw [if_neg (by omega), if_neg (by rw [e]; omega)]
  simp only
  rw [d1, d2, hrad]
  by_cases hj' : j < g.S
  · exact main p i j hp hi hj'
  · have hjS : j = g.S := by omega
    subst hjS
    by_cases hi' : i < g.S
    · rw [angIdx_adj]
      obtain ⟨pt, h1, h2⟩ := main ((p + 2) % 3) g.S i (Nat.mod_lt _ (by omega)) le_rfl hi'
      exact ⟨pt, h1, at_adj hv hp h2⟩
    · have hiS : i = g.S := by omega
      subst hiS
      rw [if_pos (by rw [hps, angIdx, if_neg hi', if_neg hi']; omega)]
      refine ⟨_, rfl, ?_⟩
      have h1 := place_at hv hr zero_le_one zero_le_one le_rfl le_rfl (by omega : 0 < 3)
      rw [arctan_one, div_self (by have := pi_pos; positivity), mul_one] at h1
      have h2 : g.At (g.place (node g.radii k) 0 1 1 1) (node g.radii k) 1 g.S g.S := at_adj hv (by omega) h1
      have h3 : g.At (g.place (node g.radii k) 0 1 1 1) (node g.radii k) 2 g.S g.S := at_adj hv (by omega) h2
      interval_cases p
      · exact h1
      · exact h2
      · exact h3

/-- every number of a coefficient is the number of some node -/
theorem nodeIdx_surj {g : Classic} (hv : g.Valid) {q : ℕ} (hq : q < g.numValues 1) : ∃ k p i j, k ≤ g.radii.length ∧ p < 3 ∧ i ≤ g.S ∧ j ≤ g.S ∧ g.nodeIdx k p i j = q := by
  have hS := hv.strips
  rcases Nat.eq_zero_or_pos q with h0 | h0
  · exact ⟨0, 0, 0, 0, by omega, by omega, by omega, by omega, by simp [Classic.nodeIdx, h0]⟩
  have hps : g.perShell 1 = 3 * g.S * (g.S + 1) + 1 := rfl
  have hpos : 0 < g.perShell 1 := by omega
  have e1 := Nat.div_add_mod (q - 1) (g.perShell 1)
  have e2 := Nat.mod_lt (q - 1) hpos
  have e3 : (q - 1) / g.perShell 1 < g.radii.length := by
    rw [Nat.div_lt_iff_lt_mul hpos, Nat.mul_comm]
    unfold Classic.numValues at hq; omega
  generalize (q - 1) / g.perShell 1 = k at *
  generalize (q - 1) % g.perShell 1 = a at *
  have main : ∃ p i j, p < 3 ∧ i ≤ g.S ∧ j ≤ g.S ∧ angIdx g.S p i j = a := by
    by_cases ha : a = 3 * g.S * (g.S + 1)
    · exact ⟨0, g.S, g.S, by omega, le_rfl, le_rfl, by rw [angIdx, if_neg (lt_irrefl _), if_neg (lt_irrefl _), ha]⟩
    · have hSS : 0 < g.S * (g.S + 1) := by positivity
      have f1 := Nat.div_add_mod a (g.S * (g.S + 1))
      have f2 := Nat.mod_lt a hSS
      have f3 : a / (g.S * (g.S + 1)) < 3 := by
        rw [Nat.div_lt_iff_lt_mul hSS, ← Nat.mul_assoc]; omega
      generalize a / (g.S * (g.S + 1)) = p at *
      generalize a % (g.S * (g.S + 1)) = b at *
      have f4 := Nat.div_add_mod b (g.S + 1)
      have f5 := Nat.mod_lt b (by omega : 0 < g.S + 1)
      have f6 : b / (g.S + 1) < g.S := by rw [Nat.div_lt_iff_lt_mul (by omega)]; exact f2
      refine ⟨p, b % (g.S + 1), b / (g.S + 1), f3, by omega, f6.le, ?_⟩
      rw [angIdx, if_pos f6]
      nlinarith
  obtain ⟨p, i, j, h1, h2, h3, h4⟩ := main
  refine ⟨k + 1, p, i, j, by omega, h1, h2, h3, ?_⟩
  rw [Classic.nodeIdx, if_neg (by omega), Nat.add_sub_cancel, h4, Nat.mul_comm]
  omega

theorem basis_node {g : Classic} (hv : g.Valid) {k p i j : ℕ} (hk : k ≤ g.radii.length) (hi : i ≤ g.S) (hj : j ≤ g.S) (q : ℕ) :
    g.basis p (node g.radii k) i j q = if g.nodeIdx k p i j = q then 1 else 0 := by
  unfold Classic.basis
  have hd : ∀ (n : ℕ), n ≤ g.S → ∀ G : ℕ → ℝ, ∑ j ∈ Finset.range (g.S + 1), hatA j n * G j = G n := by
    intro n hn G
    simp only [hatA_node, ite_mul, one_mul, zero_mul]
    rw [Finset.sum_ite_eq', if_pos (Finset.mem_range.2 (by omega))]
  simp only [hd i hi, hd j hj]
  have : ∀ m ∈ Finset.range (g.radii.length + 1), hatR g.radii m (node g.radii k) * (if g.nodeIdx m p i j = q then (1 : ℝ) else 0) = if m = k then (if g.nodeIdx m p i j = q then 1 else 0) else 0 := by
    intro m hm
    rw [hatR_node hv.grid (by rw [Finset.mem_range] at hm; omega) hk, ite_mul, one_mul, zero_mul]
  rw [Finset.sum_congr rfl this, Finset.sum_ite_eq', if_pos (Finset.mem_range.2 (by omega))]

end

end Verif.DensGrid
