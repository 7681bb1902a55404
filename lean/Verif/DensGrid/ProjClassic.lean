import Verif.DensGrid.Proj
import Mathlib.Analysis.SpecialFunctions.Trigonometric.ArctanDeriv
import Mathlib.Analysis.SpecialFunctions.Sqrt
import Mathlib.LinearAlgebra.Matrix.Determinant.Basic

/-! C94, classic scheme: the projection of a density is what addPoint accumulates over the points of a product quadrature rule in the curvilinear coordinates (radius, two angles in a pane) whose volume element is the product of the weights. -/

namespace Verif.DensGrid

open Real Verif.Coord

noncomputable section

/-! ### specification -/

/-- the point of the first octant with the given scaled radius, and two angles in the pane p, whose tangents are the ratios of the scaled coordinates -/
def Classic.point (g : Classic) (p : ℕ) (r α β : ℝ) : PosCar :=
  let c0 := r / √(1 + tan α ^ 2 + tan β ^ 2)
  let v : ℝ × ℝ × ℝ := if p = 0 then (c0, c0 * tan α, c0 * tan β) else if p = 1 then (c0 * tan β, c0, c0 * tan α) else (c0 * tan α, c0 * tan β, c0)
  ⟨v.1 * g.axisX, v.2.1 * g.axisY, v.2.2 * g.axisZ⟩

/-- volume element in these coordinates -/
def jac (r α β : ℝ) : ℝ := r ^ 2 * (1 + tan α ^ 2) * (1 + tan β ^ 2) / √(1 + tan α ^ 2 + tan β ^ 2) ^ 3

/-- angle of the b-th quadrature node in the i-th strip -/
def Classic.qang (g : Classic) (i b : ℕ) : ℝ := π / (4 * g.S) * (i + glp 4 b)
/-- the a-th quadrature node in the k-th segment of the grid -/
def qrad (grid : List ℝ) (k a : ℕ) : ℝ := node grid k + (node grid (k + 1) - node grid k) * glp 6 a

/-- weight of the quadrature point: 8 octants times the lengths of the segments of the three coordinates times the weights of three quadrature rules times the volume element -/
def Classic.qweight (g : Classic) (k a i b j c : ℕ) : ℝ :=
  8 * ((node g.radii (k + 1) - node g.radii k) * glw 6 a) * (π / (4 * g.S) * glw 4 b) * (π / (4 * g.S) * glw 4 c) * jac (qrad g.radii k a) (g.qang i b) (g.qang j c)

/-! ### quadrature table -/

theorem glp6_range {a : ℕ} (h : a < 6) : 0 < glp 6 a ∧ glp 6 a < 1 := by
  unfold glp
  interval_cases a <;> norm_num [GL.points]

theorem glp4_range {a : ℕ} (h : a < 4) : 0 < glp 4 a ∧ glp 4 a < 1 := by
  unfold glp
  interval_cases a <;> norm_num [GL.points]

theorem glw6_pos {a : ℕ} (h : a < 6) : 0 < glw 6 a := by
  unfold glw
  interval_cases a <;> norm_num [GL.weights]

theorem glw4_pos {a : ℕ} (h : a < 4) : 0 < glw 4 a := by
  unfold glw
  interval_cases a <;> norm_num [GL.weights]

/-! ### sums -/

theorem sum_divmod (n m : ℕ) (hm : 0 < m) (f : ℕ → ℕ → ℝ) : ∑ i ∈ Finset.range (n * m), f (i / m) (i % m) = ∑ k ∈ Finset.range n, ∑ a ∈ Finset.range m, f k a := by
  induction n with
  | zero => simp
  | succ n ih =>
    rw [Nat.succ_mul, Finset.sum_range_add, ih, Finset.sum_range_succ]
    congr 1
    refine Finset.sum_congr rfl fun a ha => ?_
    rw [Finset.mem_range] at ha
    rw [mul_comm n m, Nat.mul_add_div hm, Nat.div_eq_of_lt ha, Nat.mul_add_mod, Nat.mod_eq_of_lt ha, _root_.add_zero]

theorem contrib_loop (n : ℕ) (f : ℕ → Upd) (q : ℤ) : contrib ((List.range n).flatMap f) q = ∑ i ∈ Finset.range n, contrib (f i) q := by
  rw [contrib_flatMap, sum_range_list]

/-! ### geometry -/

theorem r1Of_eq (grid : List ℝ) (k : ℕ) : r1Of grid k = node grid k := by
  unfold r1Of
  by_cases h : k = 0
  · rw [if_pos h, h, node_zero]
  · rw [if_neg h, at'_pred _ (by omega)]

theorem r2Of_eq (grid : List ℝ) (k : ℕ) : r2Of grid k = node grid (k + 1) := at'_succ grid k

theorem rOf_eq (grid : List ℝ) (k a : ℕ) : rOf grid k a = qrad grid k a := by
  rw [rOf, r1Of_eq, r2Of_eq, qrad, ordRad]; ring

theorem qrad_range {grid : List ℝ} (h : okGrid grid) {k a : ℕ} (hk : k < grid.length) (ha : a < 6) : node grid k < qrad grid k a ∧ qrad grid k a < node grid (k + 1) := by
  have h1 := h.step hk
  obtain ⟨h2, h3⟩ := glp6_range ha
  unfold qrad
  constructor <;> nlinarith

theorem qrad_seg {grid : List ℝ} (h : okGrid grid) {k a : ℕ} (hk : k < grid.length) (ha : a < 6) : InSeg grid k (qrad grid k a) := by
  obtain ⟨h1, h2⟩ := qrad_range h hk ha
  exact ⟨hk, h1.le, h2.le, fun e => absurd e h2.ne⟩

theorem qrad_frac {grid : List ℝ} (h : okGrid grid) {k a : ℕ} (hk : k < grid.length) : frac grid k (qrad grid k a) = glp 6 a := by
  have := h.step hk
  unfold frac qrad
  rw [add_sub_cancel_left, mul_div_cancel_left₀ _ (by linarith : node grid (k + 1) - node grid k ≠ 0)]

theorem nodeAng_eq {g : Classic} (iA : ℕ) : g.nodeAng iA = tan (g.qang (iA / 4) (iA % 4)) := by
  unfold Classic.nodeAng Classic.qang ordAng
  congr 1
  ring

theorem point_place (g : Classic) {p : ℕ} (hp : p < 3) (r α β : ℝ) : g.point p r α β = g.place r p 1 (tan α) (tan β) := by
  unfold Classic.point Classic.place
  simp only [one_pow]
  interval_cases p <;> norm_num [div_eq_mul_inv]

theorem value_eq' (g : Classic) (rho : PosCar → ℝ) (iR i1 i2 : ℕ) {p : ℕ} (hp : p < 3) :
    g.projValue rho iR i1 i2 p = g.qweight (iR / 6) (iR % 6) (i1 / 4) (i1 % 4) (i2 / 4) (i2 % 4) * rho (g.point p (qrad g.radii (iR / 6) (iR % 6)) (g.qang (i1 / 4) (i1 % 4)) (g.qang (i2 / 4) (i2 % 4))) := by
  unfold Classic.projValue Classic.weightRad Classic.weightAng
  simp only [nodeAng_eq, rOf_eq, r1Of_eq, r2Of_eq, ordRad, ordAng]
  have e1 : ∀ x y : PosCar, x = y → ∀ a b : ℝ, a = b → a * rho x = b * rho y := by rintro x y rfl a b rfl; rfl
  apply e1
  · rw [Classic.point]
    interval_cases p <;> norm_num [div_eq_mul_inv]
  · unfold Classic.qweight jac
    field_simp

theorem qang_eq (g : Classic) (i b : ℕ) : g.qang i b = π / 4 * (i + glp 4 b) / g.S := by unfold Classic.qang; ring

theorem point_at {g : Classic} (hv : g.Valid) {r : ℝ} (hr : 0 ≤ r) {i j b c p : ℕ} (hi : i < g.S) (hj : j < g.S) (hb : b < 4) (hc : c < 4) (hp : p < 3) :
    g.At (g.point p r (g.qang i b) (g.qang j c)) r p (i + glp 4 b) (j + glp 4 c) := by
  obtain ⟨b0, b1⟩ := glp4_range hb
  obtain ⟨c0, c1⟩ := glp4_range hc
  have hi' : (i : ℝ) + 1 ≤ g.S := by exact_mod_cast hi
  have hj' : (j : ℝ) + 1 ≤ g.S := by exact_mod_cast hj
  rw [point_place g hp, qang_eq, qang_eq]
  exact place_tan hv hr (by positivity) (by linarith) (by positivity) (by linarith) hp

/-- N=0: the increment is the one made by addPoint -/
theorem chunk0_eq {g : Classic} (hv : g.Valid) {iR i1 i2 p : ℕ} (hk : iR / 6 < g.radii.length) (hi : i1 / 4 < g.S) (hj : i2 / 4 < g.S) (hp : p < 3) (value : ℝ) (q : ℤ) :
    contrib (g.projChunk0 value iR i1 i2 p) q = contrib ((g.add0 (g.point p (qrad g.radii (iR / 6) (iR % 6)) (g.qang (i1 / 4) (i1 % 4)) (g.qang (i2 / 4) (i2 % 4))) value).getD []) q := by
  by_cases h0 : value = 0
  · subst h0
    rw [(add_zero g _).1, Option.getD_some, contrib_nil, Classic.projChunk0, contrib_cons, contrib_nil]
    simp
  · set k := iR / 6
    set a := iR % 6
    have ha : a < 6 := Nat.mod_lt _ (by norm_num)
    set i := i1 / 4
    set b := i1 % 4
    have hb : b < 4 := Nat.mod_lt _ (by norm_num)
    set j := i2 / 4
    set c := i2 % 4
    have hc : c < 4 := Nat.mod_lt _ (by norm_num)
    have hn := node_nonneg hv.grid hk.le
    obtain ⟨r1, r2⟩ := qrad_range hv.grid hk ha
    have hr : 0 < qrad g.radii k a := by linarith
    obtain ⟨n1, n2, n3⟩ := point_at hv hr.le hi hj hb hc hp
    obtain ⟨p1, p2, p3⟩ := n3 hr
    obtain ⟨b0, b1⟩ := glp4_range hb
    obtain ⟨c0, c1⟩ := glp4_range hc
    have hi' : (i : ℝ) + 1 ≤ g.S := by exact_mod_cast hi
    have hj' : (j : ℝ) + 1 ≤ g.S := by exact_mod_cast hj
    have hz : 0 < (g.pane (g.point p (qrad g.radii k a) (g.qang i b) (g.qang j c)) p).1 := by
      refine lt_of_le_of_ne (cyc_nonneg (hv.snn _) p).1 fun e => ?_
      have := (pane_zero hv p1).1 e.symm
      rw [n2] at this
      exact hr.ne' this
    have := add0_interior hv h0 (pt := g.point p (qrad g.radii k a) (g.qang i b) (g.qang j c)) (k := k) (p := p) (i := i) (j := j) (by rw [n2]; exact qrad_seg hv.grid hk ha) (by rw [n2]; exact hr) hp
      (angCoord_lt hv.strips hz (by change g.t1 _ _ < _; rw [p2]; linarith)) (angCoord_lt hv.strips hz (by change g.t2 _ _ < _; rw [p3]; linarith)) hi hj (by rw [p2]; linarith) (by rw [p2]; linarith) (by rw [p3]; linarith) (by rw [p3]; linarith)
    rw [this, Option.getD_some, Classic.projChunk0]
    have e : cell0 g.S p (i1 / ordAng : ℕ) (i2 / ordAng : ℕ) + ((iR / ordRad : ℕ) : ℤ) * g.perShell 0 = (g.cellIdx k p i j : ℤ) := by
      unfold cell0 Classic.cellIdx Classic.perShell
      change ((i : ℕ) : ℤ) + ((j : ℕ) + (p : ℤ) * g.S) * g.S + ((k : ℕ) : ℤ) * _ = _
      push_cast; ring
    rw [e]

/-- N=1: the increments are the ones made by addPoint -/
theorem chunk1_eq {g : Classic} (hv : g.Valid) {iR i1 i2 p : ℕ} (hk : iR / 6 < g.radii.length) (hi : i1 / 4 < g.S) (hj : i2 / 4 < g.S) (hp : p < 3) (value : ℝ) (q : ℕ) :
    contrib (g.projChunk1 value iR i1 i2 p) q = contrib ((g.add1 (g.point p (qrad g.radii (iR / 6) (iR % 6)) (g.qang (i1 / 4) (i1 % 4)) (g.qang (i2 / 4) (i2 % 4))) value).getD []) q := by
  have ha : iR % 6 < 6 := Nat.mod_lt _ (by norm_num)
  have hb : i1 % 4 < 4 := Nat.mod_lt _ (by norm_num)
  have hc : i2 % 4 < 4 := Nat.mod_lt _ (by norm_num)
  have hn := node_nonneg hv.grid hk.le
  obtain ⟨r1, r2⟩ := qrad_range hv.grid hk ha
  have hr : 0 < qrad g.radii (iR / 6) (iR % 6) := by linarith
  obtain ⟨b0, b1⟩ := glp4_range hb
  obtain ⟨c0, c1⟩ := glp4_range hc
  -- the same list as in addPoint
  have hinc : contrib (g.projChunk1 value iR i1 i2 p) q = contrib (g.incr1 (iR / 6 : ℕ) p (i1 / 4 : ℕ) (i2 / 4 : ℕ) (qrad g.radii (iR / 6) (iR % 6)) (glp 4 (i1 % 4)) (glp 4 (i2 % 4)) value) q := by
    have hfr := qrad_frac hv.grid (a := iR % 6) hk
    have hval : (if ((iR / 6 : ℕ) : ℤ) = 0 then value * qrad g.radii (iR / 6) (iR % 6) / at' g.radii 0 else value * (qrad g.radii (iR / 6) (iR % 6) - at' g.radii ((iR / 6 : ℕ) - 1)) / (at' g.radii (iR / 6 : ℕ) - at' g.radii ((iR / 6 : ℕ) - 1))) = value * glp 6 (iR % 6) := by
      rw [← hfr]
      unfold frac
      by_cases h : iR / 6 = 0
      · rw [h, if_pos (by simp), node_zero, show (0 : ℤ) = ((0 : ℕ) : ℤ) by rfl, at'_succ]; simp [mul_div_assoc]
      · rw [if_neg (by omega), at'_pred _ (by omega), at'_succ, mul_div_assoc]
    unfold Classic.projChunk1 Classic.incr1 quad
    simp only [hval]
    by_cases h : iR / 6 = 0
    · rw [if_pos (show iR / ordRad = 0 from h), if_pos (show ((iR / 6 : ℕ) : ℤ) = 0 by omega)]
      simp only [contrib_append, contrib_cons, contrib_nil, ordRad, ordAng]
      ring_nf
    · rw [if_neg (show ¬ iR / ordRad = 0 from h), if_neg (show ¬ ((iR / 6 : ℕ) : ℤ) = 0 by omega)]
      simp only [contrib_append, contrib_cons, contrib_nil, ordRad, ordAng]
      ring_nf
  rw [hinc]
  have key := incr1_eq hv (p := p) (t1 := (i1 / 4 : ℕ) + glp 4 (i1 % 4)) (t2 := (i2 / 4 : ℕ) + glp 4 (i2 % 4)) (mult := value) hk r1.le r2.le hi (by linarith) (by linarith) hj (by linarith) (by linarith) q
  rw [add_sub_cancel_left, add_sub_cancel_left] at key
  rw [key]
  by_cases h0 : value = 0
  · subst h0
    rw [(add_zero g _).2, Option.getD_some, contrib_nil, zero_mul]
  · obtain ⟨n1, n2, n3⟩ := point_at hv hr.le hi hj hb hc hp
    obtain ⟨p1, p2, p3⟩ := n3 hr
    obtain ⟨u, hu, -, h2⟩ := add1_eq hv h0 (pt := g.point p (qrad g.radii (iR / 6) (iR % 6)) (g.qang (i1 / 4) (i1 % 4)) (g.qang (i2 / 4) (i2 % 4))) (k := iR / 6) (by rw [n2]; exact qrad_seg hv.grid hk ha)
    rw [hu, Option.getD_some, h2 p p1, n2, p2, p3]

/-! ### the property -/

/-- addPoint of the given scheme: the increment of the q-th element -/
def Classic.addInc (g : Classic) (linear : Bool) (pt : PosCar) (mult : ℝ) (q : ℤ) : ℝ := contrib (((if linear then g.add1 pt mult else g.add0 pt mult)).getD []) q

/-- C94, classic scheme: the projection of a density is the sum of the increments made by addPoint over the points of the quadrature rule in every cell, with the masses `weight * density`. -/
theorem C94_classic {S : ℕ} {gridr : List ℝ} {yx zx : ℝ} {g : Classic} (hg : mkClassic S gridr yx zx = some g) (linear : Bool) (rho : PosCar → ℝ) (q : ℕ) :
    g.proj linear rho q = ∑ k ∈ Finset.range g.radii.length, ∑ a ∈ Finset.range 6, ∑ i ∈ Finset.range S, ∑ b ∈ Finset.range 4, ∑ j ∈ Finset.range S, ∑ c ∈ Finset.range 4, ∑ p ∈ Finset.range 3,
      g.addInc linear (g.point p (qrad g.radii k a) (g.qang i b) (g.qang j c)) (g.qweight k a i b j c * rho (g.point p (qrad g.radii k a) (g.qang i b) (g.qang j c))) q := by
  obtain ⟨hv, hS, -⟩ := mkClassic_valid hg
  subst hS
  rw [Classic.proj, applyUpd_eq, zero_add, Classic.projLoop]
  simp only [contrib_loop]
  rw [ordRad, ordAng, mul_comm 4 g.S]
  rw [← sum_divmod g.radii.length 6 (by norm_num) fun k a => ∑ i ∈ Finset.range g.S, ∑ b ∈ Finset.range 4, ∑ j ∈ Finset.range g.S, ∑ c ∈ Finset.range 4, ∑ p ∈ Finset.range 3,
      g.addInc linear (g.point p (qrad g.radii k a) (g.qang i b) (g.qang j c)) (g.qweight k a i b j c * rho (g.point p (qrad g.radii k a) (g.qang i b) (g.qang j c))) q]
  refine Finset.sum_congr rfl fun iR hR => ?_
  rw [← sum_divmod g.S 4 (by norm_num) fun i b => ∑ j ∈ Finset.range g.S, ∑ c ∈ Finset.range 4, ∑ p ∈ Finset.range 3,
      g.addInc linear (g.point p (qrad g.radii (iR / 6) (iR % 6)) (g.qang i b) (g.qang j c)) (g.qweight (iR / 6) (iR % 6) i b j c * rho (g.point p (qrad g.radii (iR / 6) (iR % 6)) (g.qang i b) (g.qang j c))) q]
  refine Finset.sum_congr rfl fun i1 h1 => ?_
  rw [← sum_divmod g.S 4 (by norm_num) fun j c => ∑ p ∈ Finset.range 3,
      g.addInc linear (g.point p (qrad g.radii (iR / 6) (iR % 6)) (g.qang (i1 / 4) (i1 % 4)) (g.qang j c)) (g.qweight (iR / 6) (iR % 6) (i1 / 4) (i1 % 4) j c * rho (g.point p (qrad g.radii (iR / 6) (iR % 6)) (g.qang (i1 / 4) (i1 % 4)) (g.qang j c))) q]
  refine Finset.sum_congr rfl fun i2 h2 => Finset.sum_congr rfl fun p hp => ?_
  rw [Finset.mem_range] at hR h1 h2 hp
  have hk : iR / 6 < g.radii.length := by omega
  have hi : i1 / 4 < g.S := by omega
  have hj : i2 / 4 < g.S := by omega
  rw [value_eq' g rho iR i1 i2 hp]
  unfold Classic.addInc
  cases linear
  · simp only [Bool.false_eq_true, if_false]
    exact chunk0_eq hv hk hi hj hp _ q
  · simp only [if_true]
    exact chunk1_eq hv hk hi hj hp _ q

/-! ### volume element -/

theorem deriv_tan {α : ℝ} (h : cos α ≠ 0) : HasDerivAt tan (1 + tan α ^ 2) α := by
  have := Real.hasDerivAt_tan h
  rwa [show (1 : ℝ) / cos α ^ 2 = 1 + tan α ^ 2 by rw [← Real.inv_one_add_tan_sq h]; simp] at this

theorem deriv_c0 {α : ℝ} (h : cos α ≠ 0) (r B : ℝ) (hB : 0 ≤ B) : HasDerivAt (fun s => r / √(1 + tan s ^ 2 + B)) (-(r * tan α * (1 + tan α ^ 2) / √(1 + tan α ^ 2 + B) ^ 3)) α := by
  have hD : 0 < 1 + tan α ^ 2 + B := by positivity
  have hs : √(1 + tan α ^ 2 + B) ≠ 0 := (sqrt_pos.2 hD).ne'
  have h1 := ((((deriv_tan h).pow 2).const_add 1).add_const B).sqrt hD.ne'
  have h2 := (hasDerivAt_const α r).div h1 hs
  refine h2.congr_deriv ?_
  change (0 * √(1 + tan α ^ 2 + B) - r * ((2 : ℕ) * tan α ^ (2 - 1) * (1 + tan α ^ 2) / (2 * √(1 + tan α ^ 2 + B)))) / √(1 + tan α ^ 2 + B) ^ 2 = _
  generalize √(1 + tan α ^ 2 + B) = w at hs
  field_simp
  push_cast
  ring

/-- The coordinates (r, α, β) of the quadrature rule: the determinant of the matrix of partial derivatives of the position is the volume element -/
theorem C94_jacobian {S : ℕ} {gridr : List ℝ} {yx zx : ℝ} {g : Classic} (hg : mkClassic S gridr yx zx = some g) {p : ℕ} (hp : p < 3) (r α β : ℝ) (hα : cos α ≠ 0) (hβ : cos β ≠ 0) :
    ∃ xr xa xb yr ya yb zr za zb : ℝ,
      HasDerivAt (fun s => (g.point p s α β).x) xr r ∧ HasDerivAt (fun s => (g.point p r s β).x) xa α ∧ HasDerivAt (fun s => (g.point p r α s).x) xb β ∧
      HasDerivAt (fun s => (g.point p s α β).y) yr r ∧ HasDerivAt (fun s => (g.point p r s β).y) ya α ∧ HasDerivAt (fun s => (g.point p r α s).y) yb β ∧
      HasDerivAt (fun s => (g.point p s α β).z) zr r ∧ HasDerivAt (fun s => (g.point p r s β).z) za α ∧ HasDerivAt (fun s => (g.point p r α s).z) zb β ∧
      Matrix.det !![xr, xa, xb; yr, ya, yb; zr, za, zb] = jac r α β := by
  obtain ⟨-, -, -, -, -, hax⟩ := mkClassic_valid hg
  set a := tan α with ha
  set b := tan β with hb
  have hD : 0 < 1 + a ^ 2 + b ^ 2 := by positivity
  set w := √(1 + a ^ 2 + b ^ 2) with hw
  have hw0 : w ≠ 0 := (sqrt_pos.2 hD).ne'
  have hw2 : w ^ 2 = 1 + a ^ 2 + b ^ 2 := sq_sqrt hD.le
  have c0r : HasDerivAt (fun s => s / w) (1 / w) r := (hasDerivAt_id r).div_const w
  have c0a : HasDerivAt (fun s => r / √(1 + tan s ^ 2 + b ^ 2)) (-(r * a * (1 + a ^ 2) / w ^ 3)) α := deriv_c0 hα r (b ^ 2) (by positivity)
  have c0b : HasDerivAt (fun s => r / √(1 + a ^ 2 + tan s ^ 2)) (-(r * b * (1 + b ^ 2) / w ^ 3)) β := by
    have := deriv_c0 hβ r (a ^ 2) (by positivity)
    simp only [add_right_comm (1 : ℝ) _ (a ^ 2)] at this
    exact this
  have c1r : HasDerivAt (fun s => s / w * a) (1 / w * a) r := c0r.mul_const a
  have c2r : HasDerivAt (fun s => s / w * b) (1 / w * b) r := c0r.mul_const b
  have c1a : HasDerivAt (fun s => r / √(1 + tan s ^ 2 + b ^ 2) * tan s) (-(r * a * (1 + a ^ 2) / w ^ 3) * a + r / w * (1 + a ^ 2)) α := c0a.mul (deriv_tan hα)
  have c2a : HasDerivAt (fun s => r / √(1 + tan s ^ 2 + b ^ 2) * b) (-(r * a * (1 + a ^ 2) / w ^ 3) * b) α := c0a.mul_const b
  have c1b : HasDerivAt (fun s => r / √(1 + a ^ 2 + tan s ^ 2) * a) (-(r * b * (1 + b ^ 2) / w ^ 3) * a) β := c0b.mul_const a
  have c2b : HasDerivAt (fun s => r / √(1 + a ^ 2 + tan s ^ 2) * tan s) (-(r * b * (1 + b ^ 2) / w ^ 3) * b + r / w * (1 + b ^ 2)) β := c0b.mul (deriv_tan hβ)
  have hj : jac r α β = r ^ 2 * (1 + a ^ 2) * (1 + b ^ 2) / w ^ 3 := rfl
  have key : (r ^ 2 * (1 + a ^ 2) * (1 + b ^ 2) / w ^ 3) * (g.axisX * g.axisY * g.axisZ) = jac r α β := by rw [hax, mul_one, hj]
  unfold Classic.point
  interval_cases p
  · norm_num only [if_true, if_false]
    refine ⟨_, _, _, _, _, _, _, _, _, c0r.mul_const _, c0a.mul_const _, c0b.mul_const _, c1r.mul_const _, c1a.mul_const _, c1b.mul_const _, c2r.mul_const _, c2a.mul_const _, c2b.mul_const _, ?_⟩
    rw [← key, Matrix.det_fin_three]
    simp
    field_simp
    rw [show w ^ 4 = w ^ 2 * w ^ 2 by ring, hw2]
    ring
  · norm_num only [if_true, if_false]
    refine ⟨_, _, _, _, _, _, _, _, _, c2r.mul_const _, c2a.mul_const _, c2b.mul_const _, c0r.mul_const _, c0a.mul_const _, c0b.mul_const _, c1r.mul_const _, c1a.mul_const _, c1b.mul_const _, ?_⟩
    rw [← key, Matrix.det_fin_three]
    simp
    field_simp
    rw [show w ^ 4 = w ^ 2 * w ^ 2 by ring, hw2]
    ring
  · norm_num only [if_true, if_false]
    refine ⟨_, _, _, _, _, _, _, _, _, c1r.mul_const _, c1a.mul_const _, c1b.mul_const _, c2r.mul_const _, c2a.mul_const _, c2b.mul_const _, c0r.mul_const _, c0a.mul_const _, c0b.mul_const _, ?_⟩
    rw [← key, Matrix.det_fin_three]
    simp
    field_simp
    rw [show w ^ 4 = w ^ 2 * w ^ 2 by ring, hw2]
    ring

/-! ### total mass -/

theorem addInc_sum {g : Classic} (hv : g.Valid) (linear : Bool) {pt : PosCar} (mult : ℝ) {k : ℕ} (hk : InSeg g.radii k (g.rad pt)) :
    ∑ q ∈ Finset.range (g.numValues (if linear then 1 else 0)), g.addInc linear pt mult q = mult := by
  by_cases h0 : mult = 0
  · subst h0
    have := add_zero g pt
    cases linear <;> simp [Classic.addInc, this.1, this.2, contrib_nil]
  · cases linear
    · obtain ⟨p, i, j, h1, h2, h3, -, h5⟩ := add0_eq hv h0 hk
      have hlt := cellIdx_lt g hk.lt h1.1 h2 h3
      simp only [Classic.addInc, Bool.false_eq_true, if_false, h5, Option.getD_some]
      rw [contrib_sum]
      · simp
      · intro u hu
        simp only [List.mem_cons, List.not_mem_nil, or_false] at hu
        rw [hu]; simp only; omega
    · obtain ⟨u, hu, -, h3⟩ := add1_eq hv h0 hk
      obtain ⟨p, hp⟩ := exists_pane g pt
      obtain ⟨⟨a1, a2⟩, a3, a4⟩ := t_range hv hp
      simp only [Classic.addInc, if_true, hu, Option.getD_some, h3 p hp, ← Finset.mul_sum]
      rw [basis_sum hv hp.1 (rad_nonneg g pt) (le_trans hk.hi (hv.grid.le (by have := hk.lt; omega) le_rfl)) a1 a2 a3 a4, mul_one]

/-- C94, classic scheme: the sum of all elements of the projection is the quadrature sum for the mass -/
theorem C94_classic_mass {S : ℕ} {gridr : List ℝ} {yx zx : ℝ} {g : Classic} (hg : mkClassic S gridr yx zx = some g) (linear : Bool) (rho : PosCar → ℝ) :
    ∑ q ∈ Finset.range (g.numValues (if linear then 1 else 0)), g.proj linear rho q =
      ∑ k ∈ Finset.range g.radii.length, ∑ a ∈ Finset.range 6, ∑ i ∈ Finset.range S, ∑ b ∈ Finset.range 4, ∑ j ∈ Finset.range S, ∑ c ∈ Finset.range 4, ∑ p ∈ Finset.range 3,
        g.qweight k a i b j c * rho (g.point p (qrad g.radii k a) (g.qang i b) (g.qang j c)) := by
  obtain ⟨hv, hS, -⟩ := mkClassic_valid hg
  simp only [C94_classic hg]
  rw [Finset.sum_comm]; refine Finset.sum_congr rfl fun k hk => ?_
  rw [Finset.sum_comm]; refine Finset.sum_congr rfl fun a ha => ?_
  rw [Finset.sum_comm]; refine Finset.sum_congr rfl fun i hi => ?_
  rw [Finset.sum_comm]; refine Finset.sum_congr rfl fun b hb => ?_
  rw [Finset.sum_comm]; refine Finset.sum_congr rfl fun j hj => ?_
  rw [Finset.sum_comm]; refine Finset.sum_congr rfl fun c hc => ?_
  rw [Finset.sum_comm]; refine Finset.sum_congr rfl fun p hp => ?_
  rw [Finset.mem_range] at *
  have hr := qrad_range hv.grid hk ha
  have hn := node_nonneg hv.grid hk.le
  refine addInc_sum hv linear _ (k := k) ?_
  rw [(point_at hv (by linarith) (by omega) (by omega) hb hc hp).radius]
  exact qrad_seg hv.grid hk ha

/-- the points lie inside the grid, each in its own cell, and all weights are positive -/
theorem C94_classic_points {S : ℕ} {gridr : List ℝ} {yx zx : ℝ} {g : Classic} (hg : mkClassic S gridr yx zx = some g) {k a i b j c p : ℕ} (hk : k < g.radii.length) (ha : a < 6) (hi : i < S) (hb : b < 4) (hj : j < S) (hc : c < 4) (hp : p < 3) :
    0 < g.qweight k a i b j c ∧ g.At (g.point p (qrad g.radii k a) (g.qang i b) (g.qang j c)) (qrad g.radii k a) p (i + glp 4 b) (j + glp 4 c) ∧
    (node g.radii k < qrad g.radii k a ∧ qrad g.radii k a < node g.radii (k + 1)) ∧ (0 < glp 4 b ∧ glp 4 b < 1) ∧ 0 < glp 4 c ∧ glp 4 c < 1 := by
  obtain ⟨hv, hS, -⟩ := mkClassic_valid hg
  have hr := qrad_range hv.grid hk ha
  have hn := node_nonneg hv.grid hk.le
  have hr0 : 0 < qrad g.radii k a := by linarith
  refine ⟨?_, point_at hv (by linarith) (by omega) (by omega) hb hc hp, hr, glp4_range hb, glp4_range hc⟩
  have h1 := glw6_pos ha
  have h2 := glw4_pos hb
  have h3 := glw4_pos hc
  have hS' : (0 : ℝ) < g.S := by exact_mod_cast hv.strips
  have h4 : 0 < node g.radii (k + 1) - node g.radii k := by linarith [hv.grid.step hk]
  have h5 : 0 < jac (qrad g.radii k a) (g.qang i b) (g.qang j c) := by
    unfold jac
    have : 0 < √(1 + tan (g.qang i b) ^ 2 + tan (g.qang j c) ^ 2) := sqrt_pos.2 (by positivity)
    positivity
  unfold Classic.qweight
  have := pi_pos
  positivity

end

end Verif.DensGrid
