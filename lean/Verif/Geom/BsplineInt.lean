import Verif.Geom.Area
import Verif.Spline.BInterp

/-! Integrals of tensor products of B-splines over a polygon (/repo/src/math_geometry.cpp:9-107, 177-228); C80. Exact real arithmetic. -/
namespace Verif.Geom

open MeasureTheory Verif.Spline
open Verif.BSpline (Grid)

noncomputable section

/-! ## Model -/

/-- The grid nodes of a B-spline basis: `bsplx.xvalues()`; `numValues() = size+N-1` (math_spline.h, BsplineInterpolator1d). -/
structure Nodes where
  x : ℕ → ℝ
  size : ℕ

/-- math_spline.h, `BsplineInterpolator1d<N>::numValues()` -/
def Nodes.numValues (b : Nodes) (N : ℕ) : ℕ := b.size + N - 1

/-- math_geometry.cpp:37-40 and 75-77: `output[(j + indy) * nx + i + indx] += c * weightx[i] * weighty[j]`. -/
def addTensor (N nx indx indy : ℕ) (c : ℝ) (wx wy : ℕ → ℝ) (output : ℕ → ℝ) : ℕ → ℝ :=
  (List.range (N + 1)).foldl (fun output i => (List.range (N + 1)).foldl (fun output j =>
    let k := (j + indy) * nx + i + indx
    Function.update output k (output k + c * wx i * wy j)) output) output

/-- math_geometry.cpp:22 -/
def X1 : ℝ := 0.2113248654051871

/-- math_geometry.cpp:12-42 -/
def integrateOverRectangle (N : ℕ) (rect : Rectangle) (bx bY : Nodes) (output : ℕ → ℝ) : ℕ → ℝ :=
  let area := (rect.upper.x - rect.lower.x) * (rect.upper.y - rect.lower.y) * (if N ≤ 1 then 1 else 0.25)
  let X2 := 1 - X1
  let xa := if N ≤ 1 then 0.5 * (rect.lower.x + rect.upper.x) else X1 * rect.lower.x + X2 * rect.upper.x
  let ya := if N ≤ 1 then 0.5 * (rect.lower.y + rect.upper.y) else X1 * rect.lower.y + X2 * rect.upper.y
  let ca := nonzeroComponents N bx.x bx.size xa 0
  let cya := nonzeroComponents N bY.x bY.size ya 0
  let indx := ca.1
  let indy := cya.1
  let weightxb := (nonzeroComponents N bx.x bx.size (X1 * rect.upper.x + X2 * rect.lower.x) 0).2   -- used only if N>1
  let weightyb := (nonzeroComponents N bY.x bY.size (X1 * rect.upper.y + X2 * rect.lower.y) 0).2
  let nx := bx.numValues N
  (List.range (if N ≤ 1 then 1 else 4)).foldl (fun output p =>
    let weightx := if p % 2 = 0 then ca.2 else weightxb
    let weighty := if p / 2 = 0 then cya.2 else weightyb
    addTensor N nx indx indy area weightx weighty output) output

/-- math_geometry.cpp:56-64: the quadrature rules: two coordinates and the weight -/
def triRule (N : ℕ) : List (ℝ × ℝ × ℝ) :=
  if N = 0 then [(1 / 3, 1 / 3, 1)]
  else if N = 1 then [(1 / 6, 1 / 6, 1 / 3), (1 / 6, 2 / 3, 1 / 3), (2 / 3, 1 / 6, 1 / 3)]
  else [(0.091576213509771, 0.091576213509771, 0.1099517436553219),
        (0.091576213509771, 0.816847572980459, 0.1099517436553219),
        (0.816847572980459, 0.091576213509771, 0.1099517436553219),
        (0.445948490915965, 0.445948490915965, 0.2233815896780115),
        (0.108103018168070, 0.445948490915965, 0.2233815896780115),
        (0.445948490915965, 0.108103018168070, 0.2233815896780115)]

/-- math_geometry.cpp:47-80 -/
def integrateOverTriangle (N : ℕ) (p1 p2 p3 : Point2d) (bx bY : Nodes) (output : ℕ → ℝ) : ℕ → ℝ :=
  let area := 0.5 * (p1.x * (p2.y - p3.y) + p2.x * (p3.y - p1.y) + p3.x * (p1.y - p2.y))
  if area = 0 then output else
  let nx := bx.numValues N
  (triRule N).foldl (fun output r =>
    let x := p1.x * r.1 + p2.x * r.2.1 + p3.x * (1 - r.1 - r.2.1)
    let y := p1.y * r.1 + p2.y * r.2.1 + p3.y * (1 - r.1 - r.2.1)
    let cx := nonzeroComponents N bx.x bx.size x 0
    let cy := nonzeroComponents N bY.x bY.size y 0
    addTensor N nx cx.1 cy.1 (area * r.2.2) cx.2 cy.2 output) output

/-- math_geometry.cpp:104-106: the fan of triangles; `prev` is `polygon[v-1]`. -/
def fanLoop (N : ℕ) (p0 prev : Point2d) (bx bY : Nodes) : Polygon → (ℕ → ℝ) → ℕ → ℝ
  | [], output => output
  | curr :: rest, output => fanLoop N p0 curr bx bY rest (integrateOverTriangle N p0 prev curr bx bY output)

open Classical in
/-- math_geometry.cpp:83-107 -/
def integrateOverPolygon (N : ℕ) (polygon : Polygon) (bx bY : Nodes) (output : ℕ → ℝ) : ℕ → ℝ :=
  let fan := match polygon with
    | p0 :: p1 :: rest => fanLoop N p0 p1 bx bY rest output
    | _ => output
  match polygon with
  | [p0, p1, p2, p3] =>
    if p0.x = p3.x ∧ p0.y = p1.y ∧ p1.x = p2.x ∧ p2.y = p3.y then integrateOverRectangle N ⟨p0, p2⟩ bx bY output
    else if p1.x = p0.x ∧ p1.y = p2.y ∧ p2.x = p3.x ∧ p3.y = p0.y then integrateOverRectangle N ⟨p1, p3⟩ bx bY output
    else fan
  | _ => fan

/-- math_geometry.cpp:195-202: the area: the loop over vertices with the next one (`polygon[0]` after the last). -/
def orientLoop (first : Point2d) : Polygon → ℝ → ℝ
  | [], a => a
  | [v], a => a + 0.5 * (v.x + first.x) * (first.y - v.y)
  | v :: w :: rest, a => orientLoop first (w :: rest) (a + 0.5 * (v.x + w.x) * (w.y - v.y))

open Classical in
/-- math_geometry.cpp:177-228. The bounds are found starting from the first vertex instead of ±infinity. -/
def computeBsplineIntegralsOverPolygon (N : ℕ) (polygon : Polygon) (bx bY : Nodes) (output : ℕ → ℝ) : Bool × (ℕ → ℝ) :=
  match polygon with
  | [] => (false, output)
  | first :: others =>
    if polygon.length ≤ 2 then (false, output) else
    let polygonArea := orientLoop first polygon 0
    let xmin := others.foldl (fun m v => min m v.x) first.x
    let xmax := others.foldl (fun m v => max m v.x) first.x
    let ymin := others.foldl (fun m v => min m v.y) first.y
    let ymax := others.foldl (fun m v => max m v.y) first.y
    let indXmin := bin bx.x bx.size xmin
    let indXmax := bin bx.x bx.size xmax + 1
    let indYmin := bin bY.x bY.size ymin
    let indYmax := bin bY.x bY.size ymax + 1
    let outOfBounds := decide (indXmin < 0 ∨ indYmin < 0 ∨ indXmax > (bx.size : ℤ) - 1 ∨ indYmax > (bY.size : ℤ) - 1)
    let indXmin := if indXmin < 0 then 0 else indXmin
    let indYmin := if indYmin < 0 then 0 else indYmin
    let indXmax := if indXmax > (bx.size : ℤ) - 1 then (bx.size : ℤ) - 1 else indXmax
    let indYmax := if indYmax > (bY.size : ℤ) - 1 then (bY.size : ℤ) - 1 else indYmax
    let newpoly := if polygonArea ≥ 0 then polygon else polygon.reverse
    (outOfBounds,
      (List.range' indYmin.toNat (indYmax - indYmin).toNat).foldl (fun output iy =>
        (List.range' indXmin.toNat (indXmax - indXmin).toNat).foldl (fun output ix =>
          integrateOverPolygon N (clipPolygonByRectangle newpoly ⟨⟨bx.x ix, bY.x iy⟩, ⟨bx.x (ix + 1), bY.x (iy + 1)⟩⟩) bx bY output) output) output)

/-! ## Specification -/

/-- The k-th basis function: the interpolator with a single nonzero amplitude. -/
def basis (N : ℕ) (b : Nodes) (k : ℕ) (t : ℝ) : ℝ := interpolate N b.x (Pi.single k 1) b.size t 0

/-! ## Accumulation -/

theorem addTensor_eq (N nx indx indy : ℕ) (c : ℝ) (wx wy : ℕ → ℝ) (output : ℕ → ℝ) (k : ℕ) :
    addTensor N nx indx indy c wx wy output k = output k +
      ∑ i ∈ Finset.range (N + 1), ∑ j ∈ Finset.range (N + 1), if k = (j + indy) * nx + i + indx then c * wx i * wy j else 0 := by
  have inner : ∀ (i m : ℕ) (o : ℕ → ℝ), (List.range m).foldl (fun output j =>
      let k := (j + indy) * nx + i + indx
      Function.update output k (output k + c * wx i * wy j)) o k = o k +
        ∑ j ∈ Finset.range m, if k = (j + indy) * nx + i + indx then c * wx i * wy j else 0 := by
    intro i m
    induction m with
    | zero => intro o; simp
    | succ m ih =>
      intro o
      rw [List.range_succ, List.foldl_append, List.foldl_cons, List.foldl_nil, Finset.sum_range_succ, ← add_assoc, ← ih o]
      dsimp only
      rw [Function.update_apply]
      split_ifs with h
      · rw [h]
      · rw [add_zero]
  rw [addTensor]
  generalize N + 1 = M at *
  have outer : ∀ (m : ℕ) (o : ℕ → ℝ), (List.range m).foldl (fun output i => (List.range M).foldl (fun output j =>
      let k := (j + indy) * nx + i + indx
      Function.update output k (output k + c * wx i * wy j)) output) o k = o k +
        ∑ i ∈ Finset.range m, ∑ j ∈ Finset.range M, if k = (j + indy) * nx + i + indx then c * wx i * wy j else 0 := by
    intro m
    induction m with
    | zero => intro o; simp
    | succ m ih =>
      intro o
      rw [List.range_succ, List.foldl_append, List.foldl_cons, List.foldl_nil, Finset.sum_range_succ, ← add_assoc, ← ih o, inner]
  exact outer M output

/-- The value of the k-th basis function from the components. -/
def comp (N : ℕ) (c : ℕ × (ℕ → ℝ)) (k : ℕ) : ℝ := combine N c.2 (Pi.single k 1) c.1

theorem basis_comp (N : ℕ) (b : Nodes) (k : ℕ) (t : ℝ) : basis N b k t = comp N (nonzeroComponents N b.x b.size t 0) k := by
  rw [basis, interpolate, if_neg (by omega)]; rfl

theorem addTensor_comp (N nx : ℕ) (cx cy : ℕ × (ℕ → ℝ)) (c : ℝ) (output : ℕ → ℝ) (kx ky : ℕ) (hk : kx < nx) (hx : cx.1 + N < nx) :
    addTensor N nx cx.1 cy.1 c cx.2 cy.2 output (ky * nx + kx) = output (ky * nx + kx) + c * comp N cx kx * comp N cy ky := by
  rw [addTensor_eq, comp, comp, combine_eq, combine_eq, mul_assoc, Finset.sum_mul_sum, Finset.mul_sum]
  congr 1
  apply Finset.sum_congr rfl
  intro i hi
  rw [Finset.mul_sum]
  apply Finset.sum_congr rfl
  intro j hj
  rw [Finset.mem_range] at hi hj
  have : ky * nx + kx = (j + cy.1) * nx + i + cx.1 ↔ i + cx.1 = kx ∧ j + cy.1 = ky := by
    constructor
    · intro h
      have h1 : (ky * nx + kx) % nx = kx := by rw [Nat.mul_add_mod', Nat.mod_eq_of_lt hk]
      have h2 : ((j + cy.1) * nx + i + cx.1) % nx = i + cx.1 := by
        rw [add_assoc, Nat.mul_add_mod', Nat.mod_eq_of_lt (by omega)]
      have h3 : kx = i + cx.1 := by rw [← h1, h, h2]
      refine ⟨h3.symm, ?_⟩
      have h4 : ky * nx = (j + cy.1) * nx := by omega
      exact (Nat.eq_of_mul_eq_mul_right (by omega) h4).symm
    · rintro ⟨rfl, rfl⟩; ring
  simp only [this, Pi.single_apply]
  by_cases h1 : i + cx.1 = kx <;> by_cases h2 : j + cy.1 = ky <;> simp [h1, h2]; ring

theorem components_index (N : ℕ) (b : Nodes) (hs : 2 ≤ b.size) (t : ℝ) (d : ℕ) :
    (nonzeroComponents N b.x b.size t d).1 + N < b.numValues N := by
  rw [nonzeroComponents, Nodes.numValues]
  split_ifs <;> omega

/-- In a cell the basis function is a polynomial of degree at most N. -/
theorem basis_poly (N : ℕ) (b : Nodes) (hg : Grid b.x b.size) (k i : ℕ) (hi : i + 1 < b.size) :
    ∃ q : Polynomial ℝ, q.natDegree ≤ N ∧ ∀ t, b.x i < t → t < b.x (i + 1) → basis N b k t = q.eval t := by
  refine ⟨segPoly N b.x (Pi.single k 1) b.size i, segPoly_degree _ _ _ _ _, ?_⟩
  intro t h0 h1
  have hx0 : b.x 0 ≤ t := (Grid.le hg (Nat.zero_le i) (by omega)).trans h0.le
  have hx1 : t ≤ b.x (b.size - 1) := h1.le.trans (Grid.le hg (show i + 1 ≤ b.size - 1 by omega) (by omega))
  obtain ⟨j, a, c, d, _, e⟩ := (eval_cases hg (by omega) N 0 (by omega) (Pi.single k 1) t).2 hx0 hx1
  have hij : i = j := by
    rcases lt_trichotomy i j with h | h | h
    · linarith [Grid.le hg (show i + 1 ≤ j by omega) (by omega)]
    · exact h
    · linarith [Grid.le hg (show j + 1 ≤ i by omega) (by omega)]
  rw [basis, C76_interpolate, e, hij]
  simp

theorem basis_outside (N : ℕ) (b : Nodes) (hg : Grid b.x b.size) (hs : 2 ≤ b.size) (k : ℕ) (t : ℝ) (h : t < b.x 0 ∨ b.x (b.size - 1) < t) :
    basis N b k t = 0 := by
  rw [basis, C76_interpolate, (eval_cases hg hs N 0 (by omega) (Pi.single k 1) t).1 h]; simp

/-! ## Integrals of bilinear functions -/

theorem cubic_integral (c0 c1 c2 c3 : ℝ) : ∫ t in (0 : ℝ)..1, (c0 + c1 * t + c2 * t ^ 2 + c3 * t ^ 3) = c0 + c1 / 2 + c2 / 3 + c3 / 4 := by
  have h : ∀ t ∈ Set.uIcc (0 : ℝ) 1, HasDerivAt (fun t => c0 * t + c1 / 2 * t ^ 2 + c2 / 3 * t ^ 3 + c3 / 4 * t ^ 4) (c0 + c1 * t + c2 * t ^ 2 + c3 * t ^ 3) t := by
    intro t _
    have := ((((hasDerivAt_id t).const_mul c0).add ((hasDerivAt_pow 2 t).const_mul (c1 / 2))).add ((hasDerivAt_pow 3 t).const_mul (c2 / 3))).add
      ((hasDerivAt_pow 4 t).const_mul (c3 / 4))
    refine this.congr_deriv ?_
    simp; ring
  rw [intervalIntegral.integral_eq_sub_of_hasDerivAt h (by apply Continuous.intervalIntegrable; fun_prop)]
  ring

/-- A product of linear functions. -/
def bilin (α β γ δ : ℝ) (p : ℝ × ℝ) : ℝ := (α + β * p.1) * (γ + δ * p.2)

/-- The contribution of an edge to the integral. -/
def bilinEdge (α β γ δ : ℝ) (v w : Point2d) : ℝ :=
  let X := w.x - v.x
  let Y := w.y - v.y
  let a0 := α * v.x + β / 2 * v.x ^ 2
  let a1 := α * X + β * v.x * X
  let a2 := β / 2 * X ^ 2
  let b0 := γ + δ * v.y
  let b1 := δ * Y
  Y * (a0 * b0 + (a1 * b0 + a0 * b1) / 2 + (a2 * b0 + a1 * b1) / 3 + a2 * b1 / 4)

theorem bilin_int (α β γ δ : ℝ) (P : Polygon) : polyInt P (bilin α β γ δ) = cyc (bilinEdge α β γ δ) P := by
  obtain ⟨r, hr⟩ := exists_bound P
  set a := r.lower.x
  obtain ⟨_, h2⟩ := green P a (fun p hp => (hr p hp).1) (f := bilin α β γ δ) (by unfold bilin; fun_prop)
  rw [h2, ← sub_eq_zero, ← cyc_sub, ← cyc_exact (fun v => -(α * a + β / 2 * a ^ 2) * (γ * v.y + δ / 2 * v.y ^ 2)) P]
  apply cyc_congr (fun _ => True) _ P (fun _ _ => trivial)
  intro v w _ _
  have inner : ∀ u y : ℝ, ∫ x in a..u, bilin α β γ δ (x, y) = (α * u + β / 2 * u ^ 2 - (α * a + β / 2 * a ^ 2)) * (γ + δ * y) := by
    intro u y
    have h : ∀ t ∈ Set.uIcc a u, HasDerivAt (fun t => (α * t + β / 2 * t ^ 2) * (γ + δ * y)) (bilin α β γ δ (t, y)) t := by
      intro t _
      have := (((hasDerivAt_id t).const_mul α).add ((hasDerivAt_pow 2 t).const_mul (β / 2))).mul_const (γ + δ * y)
      refine this.congr_deriv ?_
      simp [bilin]; left; ring
    rw [intervalIntegral.integral_eq_sub_of_hasDerivAt h (by apply Continuous.intervalIntegrable; unfold bilin; fun_prop)]
    ring
  simp only [inner]
  rw [edge_param v w (fun u y => (α * u + β / 2 * u ^ 2 - (α * a + β / 2 * a ^ 2)) * (γ + δ * y))]
  set X := w.x - v.x with hX
  set Y := w.y - v.y with hY
  have e : ∀ t : ℝ, (α * (v.x + t * X) + β / 2 * (v.x + t * X) ^ 2 - (α * a + β / 2 * a ^ 2)) * (γ + δ * (v.y + t * Y)) =
      (α * v.x + β / 2 * v.x ^ 2 - (α * a + β / 2 * a ^ 2)) * (γ + δ * v.y) +
      ((α * X + β * v.x * X) * (γ + δ * v.y) + (α * v.x + β / 2 * v.x ^ 2 - (α * a + β / 2 * a ^ 2)) * (δ * Y)) * t +
      (β / 2 * X ^ 2 * (γ + δ * v.y) + (α * X + β * v.x * X) * (δ * Y)) * t ^ 2 + β / 2 * X ^ 2 * (δ * Y) * t ^ 3 := by
    intro t; ring
  simp only [e]
  rw [cubic_integral, bilinEdge, ← hX, ← hY]
  have hw : w.y = v.y + Y := by rw [hY]; ring
  rw [hw]
  ring

theorem bilinEdge_anti (α β γ δ : ℝ) (v w : Point2d) : bilinEdge α β γ δ w v = -bilinEdge α β γ δ v w := by
  simp only [bilinEdge]; ring

/-- Exactness of the quadrature rule for a triangle. -/
theorem tri_exact (N : ℕ) (hN : N ≤ 1) (α β γ δ : ℝ) (h0 : N = 0 → β = 0 ∧ δ = 0) (p1 p2 p3 : Point2d) :
    0.5 * (p1.x * (p2.y - p3.y) + p2.x * (p3.y - p1.y) + p3.x * (p1.y - p2.y)) * ((triRule N).map (fun r => r.2.2 *
      bilin α β γ δ (p1.x * r.1 + p2.x * r.2.1 + p3.x * (1 - r.1 - r.2.1), p1.y * r.1 + p2.y * r.2.1 + p3.y * (1 - r.1 - r.2.1)))).sum =
    bilinEdge α β γ δ p1 p2 + bilinEdge α β γ δ p2 p3 + bilinEdge α β γ δ p3 p1 := by
  obtain rfl | rfl : N = 0 ∨ N = 1 := by omega
  · obtain ⟨rfl, rfl⟩ := h0 rfl
    simp only [triRule, if_true, List.map_cons, List.map_nil, List.sum_cons, List.sum_nil, bilin, bilinEdge]
    ring
  · simp only [triRule, one_ne_zero, if_false, if_true, List.map_cons, List.map_nil, List.sum_cons, List.sum_nil, bilin, bilinEdge]
    ring

/-- A cell of the grid. -/
structure InCell (bx bY : Nodes) (ix iy : ℕ) (p : Point2d) : Prop where
  x0 : bx.x ix ≤ p.x
  x1 : p.x ≤ bx.x (ix + 1)
  y0 : bY.x iy ≤ p.y
  y1 : p.y ≤ bY.x (iy + 1)

theorem interior_comb {l u a b c r s : ℝ} (ha : l ≤ a ∧ a ≤ u) (hb : l ≤ b ∧ b ≤ u) (hc : l ≤ c ∧ c ≤ u) (r0 : 0 < r) (s0 : 0 < s) (t0 : 0 < 1 - r - s)
    (hne : ¬ (a = b ∧ b = c)) : l < a * r + b * s + c * (1 - r - s) ∧ a * r + b * s + c * (1 - r - s) < u := by
  have e1 : a * r + b * s + c * (1 - r - s) - l = (a - l) * r + (b - l) * s + (c - l) * (1 - r - s) := by ring
  have e2 : u - (a * r + b * s + c * (1 - r - s)) = (u - a) * r + (u - b) * s + (u - c) * (1 - r - s) := by ring
  have n1 := mul_nonneg (sub_nonneg.2 ha.1) r0.le
  have n2 := mul_nonneg (sub_nonneg.2 hb.1) s0.le
  have n3 := mul_nonneg (sub_nonneg.2 hc.1) t0.le
  have m1 := mul_nonneg (sub_nonneg.2 ha.2) r0.le
  have m2 := mul_nonneg (sub_nonneg.2 hb.2) s0.le
  have m3 := mul_nonneg (sub_nonneg.2 hc.2) t0.le
  constructor
  · rw [← sub_pos, e1]
    by_contra h
    push Not at h
    have a1 : (a - l) * r = 0 := by linarith
    have a2 : (b - l) * s = 0 := by linarith
    have a3 : (c - l) * (1 - r - s) = 0 := by linarith
    rw [mul_eq_zero] at a1 a2 a3
    exact hne ⟨by rcases a1 with h | h <;> rcases a2 with h' | h' <;> linarith, by rcases a2 with h | h <;> rcases a3 with h' | h' <;> linarith⟩
  · rw [← sub_pos, e2]
    by_contra h
    push Not at h
    have a1 : (u - a) * r = 0 := by linarith
    have a2 : (u - b) * s = 0 := by linarith
    have a3 : (u - c) * (1 - r - s) = 0 := by linarith
    rw [mul_eq_zero] at a1 a2 a3
    exact hne ⟨by rcases a1 with h | h <;> rcases a2 with h' | h' <;> linarith, by rcases a2 with h | h <;> rcases a3 with h' | h' <;> linarith⟩

theorem triRule_pos (N : ℕ) : ∀ r ∈ triRule N, 0 < r.1 ∧ 0 < r.2.1 ∧ 0 < 1 - r.1 - r.2.1 := by
  intro r hr
  rw [triRule] at hr
  split_ifs at hr <;> simp only [List.mem_cons, List.mem_nil_iff, or_false] at hr
  · subst hr; norm_num
  · rcases hr with rfl | rfl | rfl <;> norm_num
  · rcases hr with rfl | rfl | rfl | rfl | rfl | rfl <;> norm_num

/-- The quadrature points of a triangle of nonzero area are strictly inside the cell. -/
theorem tri_interior {l u a b c a' b' c' l' u' : ℝ} (ha : l ≤ a ∧ a ≤ u) (hb : l ≤ b ∧ b ≤ u) (hc : l ≤ c ∧ c ≤ u)
    (ha' : l' ≤ a' ∧ a' ≤ u') (hb' : l' ≤ b' ∧ b' ≤ u') (hc' : l' ≤ c' ∧ c' ≤ u')
    (harea : 0.5 * (a * (b' - c') + b * (c' - a') + c * (a' - b')) ≠ 0) (N : ℕ) : ∀ r ∈ triRule N,
    (l < a * r.1 + b * r.2.1 + c * (1 - r.1 - r.2.1) ∧ a * r.1 + b * r.2.1 + c * (1 - r.1 - r.2.1) < u) ∧
    (l' < a' * r.1 + b' * r.2.1 + c' * (1 - r.1 - r.2.1) ∧ a' * r.1 + b' * r.2.1 + c' * (1 - r.1 - r.2.1) < u') := by
  intro r hr
  obtain ⟨r0, s0, t0⟩ := triRule_pos N r hr
  constructor
  · apply interior_comb ha hb hc r0 s0 t0
    rintro ⟨h1, h2⟩; apply harea; rw [h1, h2]; ring
  · apply interior_comb ha' hb' hc' r0 s0 t0
    rintro ⟨h1, h2⟩; apply harea; rw [h1, h2]; ring

/-- The integral over a triangle within a cell. -/
theorem triangle_out (N : ℕ) (bx bY : Nodes) (sx : 2 ≤ bx.size) (ix iy : ℕ) (p1 p2 p3 : Point2d) (h1 : InCell bx bY ix iy p1)
    (h2 : InCell bx bY ix iy p2) (h3 : InCell bx bY ix iy p3) (kx ky : ℕ) (hk : kx < bx.numValues N)
    (output : ℕ → ℝ) (qx qy : ℝ → ℝ) (hqx : ∀ t, bx.x ix < t → t < bx.x (ix + 1) → basis N bx kx t = qx t)
    (hqy : ∀ t, bY.x iy < t → t < bY.x (iy + 1) → basis N bY ky t = qy t) :
    integrateOverTriangle N p1 p2 p3 bx bY output (ky * bx.numValues N + kx) = output (ky * bx.numValues N + kx) +
      0.5 * (p1.x * (p2.y - p3.y) + p2.x * (p3.y - p1.y) + p3.x * (p1.y - p2.y)) * ((triRule N).map (fun r => r.2.2 *
        (qx (p1.x * r.1 + p2.x * r.2.1 + p3.x * (1 - r.1 - r.2.1)) * qy (p1.y * r.1 + p2.y * r.2.1 + p3.y * (1 - r.1 - r.2.1))))).sum := by
  rw [integrateOverTriangle]
  dsimp only
  set area := 0.5 * (p1.x * (p2.y - p3.y) + p2.x * (p3.y - p1.y) + p3.x * (p1.y - p2.y)) with ha
  split_ifs with h
  · rw [h, zero_mul, add_zero]
  have hin := tri_interior ⟨h1.x0, h1.x1⟩ ⟨h2.x0, h2.x1⟩ ⟨h3.x0, h3.x1⟩ ⟨h1.y0, h1.y1⟩ ⟨h2.y0, h2.y1⟩ ⟨h3.y0, h3.y1⟩ h N
  clear_value area
  generalize triRule N = L at hin ⊢
  induction L generalizing output with
  | nil => simp
  | cons r L ih =>
    rw [List.foldl_cons, ih _ (fun r' hr' => hin r' (by simp [hr']))]
    have hr := hin r (by simp)
    rw [addTensor_comp N _ _ _ _ _ _ _ hk (components_index N bx sx _ 0), ← basis_comp, ← basis_comp, hqx _ hr.1.1 hr.1.2, hqy _ hr.2.1 hr.2.2,
      List.map_cons, List.sum_cons]
    ring

theorem path_fan {A : Type*} [AddCommGroup A] (φ : Point2d → Point2d → A) (ha : ∀ v w, φ w v = -φ v w) (p0 prev : Point2d) (l : Polygon) :
    path φ prev l + φ (lastOf prev l) p0 + φ p0 prev = path (fun v w => φ p0 v + φ v w + φ w p0) prev l := by
  induction l generalizing prev with
  | nil => simp [path, lastOf, ha prev p0]
  | cons a t ih =>
    rw [path, path, lastOf, ← ih, ha a p0]; abel

theorem fan_cyc {A : Type*} [AddCommGroup A] (φ : Point2d → Point2d → A) (ha : ∀ v w, φ w v = -φ v w) (p0 p1 : Point2d) (l : Polygon) :
    cyc φ (p0 :: p1 :: l) = path (fun v w => φ p0 v + φ v w + φ w p0) p1 l := by
  rw [cyc_cons, path, path, lastOf, ← path_fan φ ha]; abel

theorem fanLoop_out (N : ℕ) (bx bY : Nodes) (k : ℕ) (p0 : Point2d) (S : Point2d → Prop) (c : Point2d → Point2d → ℝ)
    (h : ∀ p2 p3 output, S p2 → S p3 → integrateOverTriangle N p0 p2 p3 bx bY output k = output k + c p2 p3) (l : Polygon) (hl : ∀ q ∈ l, S q)
    (prev : Point2d) (hp : S prev) (output : ℕ → ℝ) :
    fanLoop N p0 prev bx bY l output k = output k + path c prev l := by
  induction l generalizing prev output with
  | nil => simp [fanLoop, path]
  | cons a t ih =>
    rw [fanLoop, ih (fun q hq => hl q (by simp [hq])) a (hl a (by simp)), h _ _ _ hp (hl a (by simp)), path, add_assoc]

/-- The integral over a rectangle within a cell, N ≤ 1. -/
theorem rect_out (N : ℕ) (hN : N ≤ 1) (bx bY : Nodes) (sx : 2 ≤ bx.size) (ix iy : ℕ) (lo up : Point2d) (h1 : InCell bx bY ix iy lo)
    (h2 : InCell bx bY ix iy up) (kx ky : ℕ) (hk : kx < bx.numValues N)
    (output : ℕ → ℝ) (qx qy : ℝ → ℝ) (hqx : ∀ t, bx.x ix < t → t < bx.x (ix + 1) → basis N bx kx t = qx t)
    (hqy : ∀ t, bY.x iy < t → t < bY.x (iy + 1) → basis N bY ky t = qy t) :
    integrateOverRectangle N ⟨lo, up⟩ bx bY output (ky * bx.numValues N + kx) = output (ky * bx.numValues N + kx) +
      (up.x - lo.x) * (up.y - lo.y) * (qx (0.5 * (lo.x + up.x)) * qy (0.5 * (lo.y + up.y))) := by
  rw [integrateOverRectangle]
  dsimp only
  simp only [hN, if_true, List.range_one, List.foldl_cons, List.foldl_nil, Nat.zero_mod, Nat.zero_div]
  rw [addTensor_comp N _ _ _ _ _ _ _ hk (components_index N bx sx _ 0), ← basis_comp, ← basis_comp]
  by_cases hx : lo.x = up.x
  · rw [hx]; ring
  by_cases hy : lo.y = up.y
  · rw [hy]; ring
  have e : ∀ {l u a b : ℝ}, l ≤ a → a ≤ u → l ≤ b → b ≤ u → a ≠ b → l < 0.5 * (a + b) ∧ 0.5 * (a + b) < u := by
    intro l u a b h1 h2 h3 h4 h5
    rcases lt_or_gt_of_ne h5 with h | h <;> constructor <;> linarith
  obtain ⟨a1, a2⟩ := e h1.x0 h1.x1 h2.x0 h2.x1 hx
  obtain ⟨b1, b2⟩ := e h1.y0 h1.y1 h2.y0 h2.y1 hy
  rw [hqx _ a1 a2, hqy _ b1 b2]; ring

/-- The integral over a polygon within a cell, N ≤ 1. -/
theorem polygon_out (N : ℕ) (hN : N ≤ 1) (bx bY : Nodes) (sx : 2 ≤ bx.size) (ix iy : ℕ) (Q : Polygon)
    (hQ : ∀ p ∈ Q, InCell bx bY ix iy p) (kx ky : ℕ) (hk : kx < bx.numValues N)
    (output : ℕ → ℝ) (α β γ δ : ℝ) (h0 : N = 0 → β = 0 ∧ δ = 0) (hqx : ∀ t, bx.x ix < t → t < bx.x (ix + 1) → basis N bx kx t = α + β * t)
    (hqy : ∀ t, bY.x iy < t → t < bY.x (iy + 1) → basis N bY ky t = γ + δ * t) :
    integrateOverPolygon N Q bx bY output (ky * bx.numValues N + kx) = output (ky * bx.numValues N + kx) + polyInt Q (bilin α β γ δ) := by
  rw [bilin_int]
  have fan : ∀ p0 p1 rest, Q = p0 :: p1 :: rest → fanLoop N p0 p1 bx bY rest output (ky * bx.numValues N + kx) =
      output (ky * bx.numValues N + kx) + cyc (bilinEdge α β γ δ) Q := by
    intro p0 p1 rest e
    rw [e] at hQ ⊢
    rw [fan_cyc _ (bilinEdge_anti α β γ δ)]
    refine fanLoop_out N bx bY _ p0 (InCell bx bY ix iy) _ ?_ rest (fun q hq => hQ q (by simp [hq])) p1 (hQ p1 (by simp)) output
    intro p2 p3 o h2 h3
    rw [triangle_out N bx bY sx ix iy p0 p2 p3 (hQ p0 (by simp)) h2 h3 kx ky hk o _ _ hqx hqy, ← tri_exact N hN α β γ δ h0]
    rfl
  have short : ∀ a, bilinEdge α β γ δ a a = 0 := by
    intro a; have := bilinEdge_anti α β γ δ a a; linarith
  rcases Q with _ | ⟨p0, _ | ⟨p1, rest⟩⟩
  · simp [integrateOverPolygon, cyc]
  · simp [integrateOverPolygon, cyc, path, short]
  rcases rest with _ | ⟨p2, _ | ⟨p3, _ | ⟨p4, rest⟩⟩⟩
  · exact fan _ _ _ rfl
  · exact fan _ _ _ rfl
  · have i0 := hQ p0 (by simp)
    have i1 := hQ p1 (by simp)
    have i2 := hQ p2 (by simp)
    have i3 := hQ p3 (by simp)
    rw [integrateOverPolygon]
    split_ifs with c1 c2
    · obtain ⟨e1, e2, e3, e4⟩ := c1
      rw [rect_out N hN bx bY sx ix iy p0 p2 i0 i2 kx ky hk output _ _ hqx hqy]
      simp only [cyc_cons, lastOf, path, bilinEdge]
      rw [← e1, ← e2, ← e4, e3]; ring
    · obtain ⟨e1, e2, e3, e4⟩ := c2
      rw [rect_out N hN bx bY sx ix iy p1 p3 i1 i3 kx ky hk output _ _ hqx hqy]
      simp only [cyc_cons, lastOf, path, bilinEdge]
      rw [e1, ← e2, e3, e4]; ring
    · exact fan _ _ _ rfl
  · exact fan _ _ _ rfl

/-! ## The loop over cells -/

theorem fold_inc (k : ℕ) (F : ℕ → (ℕ → ℝ) → ℕ → ℝ) (c : ℕ → ℝ) (l : List ℕ) (h : ∀ i ∈ l, ∀ o, F i o k = o k + c i) (o : ℕ → ℝ) :
    l.foldl (fun o i => F i o) o k = o k + (l.map c).sum := by
  induction l generalizing o with
  | nil => simp
  | cons a t ih =>
    rw [List.foldl_cons, ih (fun i hi => h i (by simp [hi])), h a (by simp), List.map_cons, List.sum_cons, add_assoc]

theorem range'_sum_ico (c : ℕ → ℝ) (a n : ℕ) : ((List.range' a n).map c).sum = ∑ i ∈ Finset.Ico a (a + n), c i := by
  induction n with
  | zero => simp
  | succ n ih => rw [List.range'_concat, List.map_append, List.sum_append, ih, ← add_assoc, Finset.sum_Ico_succ_top (by omega)]; simp

theorem foldl_min_spec (f : Point2d → ℝ) (l : Polygon) (m : ℝ) :
    l.foldl (fun m v => min m (f v)) m ≤ m ∧ (∀ p ∈ l, l.foldl (fun m v => min m (f v)) m ≤ f p) ∧
    (l.foldl (fun m v => min m (f v)) m = m ∨ ∃ p ∈ l, l.foldl (fun m v => min m (f v)) m = f p) := by
  induction l generalizing m with
  | nil => simp
  | cons a t ih =>
    obtain ⟨h1, h2, h3⟩ := ih (min m (f a))
    rw [List.foldl_cons]
    refine ⟨h1.trans (min_le_left _ _), ?_, ?_⟩
    · intro p hp
      rw [List.mem_cons] at hp
      rcases hp with rfl | hp
      · exact h1.trans (min_le_right _ _)
      · exact h2 p hp
    · rcases h3 with h3 | ⟨p, hp, h3⟩
      · rcases min_choice m (f a) with h | h
        · left; rw [h3, h]
        · right; exact ⟨a, by simp, by rw [h3, h]⟩
      · right; exact ⟨p, by simp [hp], h3⟩

theorem foldl_max_spec (f : Point2d → ℝ) (l : Polygon) (m : ℝ) :
    m ≤ l.foldl (fun m v => max m (f v)) m ∧ (∀ p ∈ l, f p ≤ l.foldl (fun m v => max m (f v)) m) ∧
    (l.foldl (fun m v => max m (f v)) m = m ∨ ∃ p ∈ l, l.foldl (fun m v => max m (f v)) m = f p) := by
  induction l generalizing m with
  | nil => simp
  | cons a t ih =>
    obtain ⟨h1, h2, h3⟩ := ih (max m (f a))
    rw [List.foldl_cons]
    refine ⟨(le_max_left _ _).trans h1, ?_, ?_⟩
    · intro p hp
      rw [List.mem_cons] at hp
      rcases hp with rfl | hp
      · exact (le_max_right _ _).trans h1
      · exact h2 p hp
    · rcases h3 with h3 | ⟨p, hp, h3⟩
      · rcases max_choice m (f a) with h | h
        · left; rw [h3, h]
        · right; exact ⟨a, by simp, by rw [h3, h]⟩
      · right; exact ⟨p, by simp [hp], h3⟩

theorem orientLoop_eq (first v : Point2d) (t : Polygon) (a : ℝ) :
    orientLoop first (v :: t) a = a + path areaForm v (t ++ [first]) := by
  induction t generalizing v a with
  | nil => simp only [orientLoop, List.nil_append, path, areaForm]; ring
  | cons w r ih => rw [orientLoop, ih, List.cons_append, path, ← add_assoc, areaForm]; ring

/-! ## Reversal -/

theorem lastOf_append (b c : Point2d) (l : Polygon) : lastOf b (l ++ [c]) = c := by
  induction l generalizing b with
  | nil => rfl
  | cons d r ih => rw [List.cons_append, lastOf, ih]

theorem path_reverse {A : Type*} [AddCommGroup A] (φ : Point2d → Point2d → A) (ha : ∀ v w, φ w v = -φ v w) (a b : Point2d) (t : Polygon) :
    path φ b (t.reverse ++ [a]) = -path φ a (t ++ [b]) := by
  induction t generalizing a with
  | nil => simp [path, ha a b]
  | cons c s ih =>
    rw [List.reverse_cons, path_append, ih c, List.cons_append, path]
    rw [lastOf_append, path, path, add_zero, ha a c]; abel

theorem cyc_reverse {A : Type*} [AddCommGroup A] (φ : Point2d → Point2d → A) (ha : ∀ v w, φ w v = -φ v w) (P : Polygon) :
    cyc φ P.reverse = -cyc φ P := by
  cases P with
  | nil => simp [cyc]
  | cons a t =>
    rw [cyc_next, List.reverse_cons, ← path_reverse φ ha, cyc]
    simp

theorem winding_reverse (P : Polygon) (x y : ℝ) : windingNumber x y P.reverse = -windingNumber x y P := by
  rw [windingNumber_eq, windingNumber_eq, cyc_reverse _ (fun v w => windStep_anti x y v w)]

/-- Reversing the polygon changes the sign of its area (C79). -/
theorem C79_reverse (P : Polygon) : polygonArea P.reverse = -polygonArea P := by
  rw [polygonArea_eq, polygonArea_eq, cyc_reverse _ (fun v w => by rw [areaForm, areaForm]; ring)]

/-! ## Sum over cells -/

def cellRect (bx bY : Nodes) (ix iy : ℕ) : Rectangle := ⟨⟨bx.x ix, bY.x iy⟩, ⟨bx.x (ix + 1), bY.x (iy + 1)⟩⟩

/-- The product of two basis functions. -/
def tensor (N : ℕ) (bx bY : Nodes) (kx ky : ℕ) (p : ℝ × ℝ) : ℝ := basis N bx kx p.1 * basis N bY ky p.2

theorem linear_of_degree {q : Polynomial ℝ} {N : ℕ} (hN : N ≤ 1) (h : q.natDegree ≤ N) :
    (∀ t, q.eval t = q.coeff 0 + q.coeff 1 * t) ∧ (N = 0 → q.coeff 1 = 0) := by
  constructor
  · intro t
    rw [Polynomial.eval_eq_sum_range' (n := 2) (by omega)]
    simp [Finset.sum_range_succ]
  · intro h0
    exact Polynomial.coeff_eq_zero_of_natDegree_lt (by omega)

/-- One cell. -/
theorem cell_out (N : ℕ) (hN : N ≤ 1) (bx bY : Nodes) (gx : Grid bx.x bx.size) (gy : Grid bY.x bY.size) (ix iy : ℕ) (hix : ix + 1 < bx.size)
    (hiy : iy + 1 < bY.size) (P : Polygon) (kx ky : ℕ) (hk : kx < bx.numValues N) :
    IntegrableOn (fun p => (windingNumber p.1 p.2 P : ℝ) * tensor N bx bY kx ky p) (cellRect bx bY ix iy).set ∧
    ∀ output, integrateOverPolygon N (clipPolygonByRectangle P (cellRect bx bY ix iy)) bx bY output (ky * bx.numValues N + kx) =
      output (ky * bx.numValues N + kx) + ∫ p in (cellRect bx bY ix iy).set, (windingNumber p.1 p.2 P : ℝ) * tensor N bx bY kx ky p := by
  obtain ⟨q1, d1, e1⟩ := basis_poly N bx gx kx ix hix
  obtain ⟨q2, d2, e2⟩ := basis_poly N bY gy ky iy hiy
  obtain ⟨l1, z1⟩ := linear_of_degree hN d1
  obtain ⟨l2, z2⟩ := linear_of_degree hN d2
  simp only [l1] at e1
  simp only [l2] at e2
  have hm := (cellRect bx bY ix iy).set_measurable
  have eq : ∀ p ∈ (cellRect bx bY ix iy).set, (windingNumber p.1 p.2 P : ℝ) * tensor N bx bY kx ky p =
      (windingNumber p.1 p.2 P : ℝ) * bilin (q1.coeff 0) (q1.coeff 1) (q2.coeff 0) (q2.coeff 1) p := by
    intro p hp
    rw [tensor, e1 p.1 hp.1.1 hp.1.2, e2 p.2 hp.2.1 hp.2.2, bilin]
  obtain ⟨r, hr⟩ := exists_bound P
  have hint := (green P r.lower.x (fun p hp => (hr p hp).1) (f := bilin (q1.coeff 0) (q1.coeff 1) (q2.coeff 0) (q2.coeff 1)) (by unfold bilin; fun_prop)).1
  refine ⟨(hint.integrableOn).congr_fun (fun p hp => (eq p hp).symm) hm, ?_⟩
  intro output
  rw [polygon_out N hN bx bY (by omega) ix iy _ ?_ kx ky hk output _ _ _ _ (fun h => ⟨z1 h, z2 h⟩) e1 e2, C79_clip_integral,
    setIntegral_congr_fun hm eq]
  intro p hp
  have := (C79_clip P (cellRect bx bY ix iy)).1 p hp
  exact ⟨this.1, this.2.1, this.2.2.1, this.2.2.2⟩

/-- Range of cells along one axis, as in the code. -/
def lowIndex (b : Nodes) (t : ℝ) : ℤ := if bin b.x b.size t < 0 then 0 else bin b.x b.size t
def uppIndex (b : Nodes) (t : ℝ) : ℤ := if bin b.x b.size t + 1 > (b.size : ℤ) - 1 then (b.size : ℤ) - 1 else bin b.x b.size t + 1

theorem bin_range (b : Nodes) (hg : Grid b.x b.size) (hs : 2 ≤ b.size) (t : ℝ) :
    (bin b.x b.size t < 0 ↔ t < b.x 0) ∧ (bin b.x b.size t + 1 > (b.size : ℤ) - 1 ↔ b.x (b.size - 1) < t) ∧
    (∀ k : ℕ, k + 1 < b.size → t < b.x (k + 1) → bin b.x b.size t ≤ k) ∧ (∀ k : ℕ, k < b.size → b.x k < t → (k : ℤ) ≤ bin b.x b.size t ∨ k + 1 = b.size) ∧
    -1 ≤ bin b.x b.size t ∧ bin b.x b.size t ≤ (b.size : ℤ) - 1 := by
  have h01 : b.x 0 ≤ b.x (b.size - 1) := Grid.le hg (by omega) (by omega)
  rcases bin_cases hg (by omega) t with ⟨h, e⟩ | ⟨h, e⟩ | ⟨h, _⟩ | ⟨j, hj, a, c, d, e⟩
  · refine ⟨by rw [e]; simpa using h, by rw [e]; constructor <;> intro h' <;> [omega; linarith], by intros; omega, ?_, by omega, by omega⟩
    intro k hk hk'
    linarith [Grid.le hg (Nat.zero_le k) hk]
  · refine ⟨by rw [e]; constructor <;> intro h' <;> [omega; linarith], by rw [e]; constructor <;> intro h' <;> [exact h; omega], ?_, by intro k hk _; omega, by omega, by omega⟩
    intro k hk hk'
    linarith [Grid.le hg (show k + 1 ≤ b.size - 1 by omega) (by omega)]
  · omega
  · have j0 := Grid.le hg (Nat.zero_le j) (by omega)
    have j1 := Grid.le hg (show j + 1 ≤ b.size - 1 by omega) (by omega)
    refine ⟨by rw [e]; constructor <;> intro h' <;> [omega; linarith], by rw [e]; constructor <;> intro h' <;> [omega; linarith], ?_, ?_, by omega, by omega⟩
    · intro k hk hk'
      by_contra hc
      linarith [Grid.le hg (show k + 1 ≤ j by omega) (by omega)]
    · intro k hk hk'
      by_contra hc
      push Not at hc
      linarith [Grid.le hg (show j + 1 ≤ k by omega) (by omega)]

/-- A point between the bounds and inside the grid, not at a node, belongs to exactly one cell of the range. -/
theorem cell_unique (b : Nodes) (hg : Grid b.x b.size) (hs : 2 ≤ b.size) {lo hi t : ℝ} (h0 : lo ≤ t) (h1 : t ≤ hi) (g0 : b.x 0 ≤ t) (g1 : t ≤ b.x (b.size - 1))
    (hn : ∀ i < b.size, t ≠ b.x i) :
    ∃ k ∈ Finset.Ico (lowIndex b lo).toNat ((lowIndex b lo).toNat + (uppIndex b hi - lowIndex b lo).toNat), k + 1 < b.size ∧
      t ∈ Set.Ioo (b.x k) (b.x (k + 1)) ∧ ∀ j, j + 1 < b.size → t ∈ Set.Ioo (b.x j) (b.x (j + 1)) → j = k := by
  rcases bin_cases hg (by omega) t with ⟨h, e⟩ | ⟨h, e⟩ | ⟨h, _⟩ | ⟨k, hk, a, c, d, e⟩
  · linarith
  · linarith
  · omega
  have a' : b.x k < t := lt_of_le_of_ne a (hn k (by omega)).symm
  have c' : t < b.x (k + 1) := lt_of_le_of_ne c (hn (k + 1) (by omega))
  refine ⟨k, ?_, hk, ⟨a', c'⟩, ?_⟩
  · obtain ⟨_, _, l3, _, l5, _⟩ := bin_range b hg hs lo
    obtain ⟨_, _, _, u4, _, u6⟩ := bin_range b hg hs hi
    have e1 := l3 k hk (by linarith)
    have e2 := u4 k (by omega) (by linarith)
    have e3 : (lowIndex b lo) ≤ k ∧ 0 ≤ lowIndex b lo := by rw [lowIndex]; split_ifs <;> omega
    have e4 : (k : ℤ) < uppIndex b hi := by rw [uppIndex]; split_ifs <;> omega
    rw [Finset.mem_Ico]; omega
  · intro j hj hj'
    rcases lt_trichotomy j k with h | h | h
    · linarith [Grid.le hg (show j + 1 ≤ k by omega) (by omega), hj'.2]
    · exact h
    · linarith [Grid.le hg (show k + 1 ≤ j by omega) (by omega), hj'.1]

theorem range_valid (b : Nodes) (hg : Grid b.x b.size) (hs : 2 ≤ b.size) (lo hi : ℝ) {k : ℕ}
    (hk : k ∈ Finset.Ico (lowIndex b lo).toNat ((lowIndex b lo).toNat + (uppIndex b hi - lowIndex b lo).toNat)) : k + 1 < b.size := by
  rw [Finset.mem_Ico] at hk
  obtain ⟨_, _, _, _, l5, l6⟩ := bin_range b hg hs lo
  obtain ⟨_, _, _, _, u5, u6⟩ := bin_range b hg hs hi
  have : uppIndex b hi ≤ (b.size : ℤ) - 1 := by rw [uppIndex]; split_ifs <;> omega
  have : 0 ≤ lowIndex b lo := by rw [lowIndex]; split_ifs <;> omega
  omega

theorem nodes_null (b : Nodes) : (∀ᵐ p : ℝ × ℝ, ∀ i < b.size, p.1 ≠ b.x i) ∧ (∀ᵐ p : ℝ × ℝ, ∀ i < b.size, p.2 ≠ b.x i) := by
  constructor
  · rw [ae_all_iff]; intro i
    filter_upwards [boundary_null ⟨⟨b.x i, 0⟩, ⟨b.x i, 0⟩⟩, show ∀ᵐ p : ℝ × ℝ, p.1 ≠ b.x i by
      rw [ae_iff]
      have : {p : ℝ × ℝ | ¬ p.1 ≠ b.x i} = {b.x i} ×ˢ Set.univ := by ext p; simp
      rw [this, Measure.volume_eq_prod, Measure.prod_prod]; simp] with p _ h _
    exact h
  · rw [ae_all_iff]; intro i
    filter_upwards [show ∀ᵐ p : ℝ × ℝ, p.2 ≠ b.x i by
      rw [ae_iff]
      have : {p : ℝ × ℝ | ¬ p.2 ≠ b.x i} = Set.univ ×ˢ {b.x i} := by ext p; simp
      rw [this, Measure.volume_eq_prod, Measure.prod_prod]; simp] with p h _
    exact h

/-- The sum of integrals over the cells of the range is the whole integral. -/
theorem cells_sum (N : ℕ) (hN : N ≤ 1) (bx bY : Nodes) (gx : Grid bx.x bx.size) (gy : Grid bY.x bY.size) (sx : 2 ≤ bx.size) (sy : 2 ≤ bY.size)
    (P : Polygon) (kx ky : ℕ) (hk : kx < bx.numValues N) (xmin xmax ymin ymax : ℝ)
    (hb : ∀ p ∈ P, xmin ≤ p.x ∧ p.x ≤ xmax ∧ ymin ≤ p.y ∧ p.y ≤ ymax) :
    ∑ iy ∈ Finset.Ico (lowIndex bY ymin).toNat ((lowIndex bY ymin).toNat + (uppIndex bY ymax - lowIndex bY ymin).toNat),
      ∑ ix ∈ Finset.Ico (lowIndex bx xmin).toNat ((lowIndex bx xmin).toNat + (uppIndex bx xmax - lowIndex bx xmin).toNat),
        ∫ p in (cellRect bx bY ix iy).set, (windingNumber p.1 p.2 P : ℝ) * tensor N bx bY kx ky p =
    polyInt P (tensor N bx bY kx ky) := by
  set RY := Finset.Ico (lowIndex bY ymin).toNat ((lowIndex bY ymin).toNat + (uppIndex bY ymax - lowIndex bY ymin).toNat) with hRY
  set RX := Finset.Ico (lowIndex bx xmin).toNat ((lowIndex bx xmin).toNat + (uppIndex bx xmax - lowIndex bx xmin).toNat) with hRX
  set F : ℝ × ℝ → ℝ := fun p => (windingNumber p.1 p.2 P : ℝ) * tensor N bx bY kx ky p with hF
  have vx : ∀ i ∈ RX, i + 1 < bx.size := fun i hi => range_valid bx gx sx xmin xmax hi
  have vy : ∀ i ∈ RY, i + 1 < bY.size := fun i hi => range_valid bY gy sy ymin ymax hi
  have hI : ∀ iy ∈ RY, ∀ ix ∈ RX, Integrable ((cellRect bx bY ix iy).set.indicator F) := by
    intro iy hy ix hx
    exact (integrable_indicator_iff (cellRect bx bY ix iy).set_measurable).2 (cell_out N hN bx bY gx gy ix iy (vx ix hx) (vy iy hy) P kx ky hk).1
  have e : ∑ iy ∈ RY, ∑ ix ∈ RX, ∫ p in (cellRect bx bY ix iy).set, F p =
      ∫ p, ∑ iy ∈ RY, ∑ ix ∈ RX, (cellRect bx bY ix iy).set.indicator F p := by
    rw [integral_finsetSum _ (fun iy hy => integrable_finsetSum _ (fun ix hx => hI iy hy ix hx))]
    apply Finset.sum_congr rfl
    intro iy hy
    rw [integral_finsetSum _ (fun ix hx => hI iy hy ix hx)]
    apply Finset.sum_congr rfl
    intro ix hx
    rw [integral_indicator (cellRect bx bY ix iy).set_measurable]
  rw [e, polyInt]
  apply integral_congr_ae
  filter_upwards [(nodes_null bx).1, (nodes_null bY).2] with p h1 h2
  by_cases hz : F p = 0
  · have : ∀ iy ix, (cellRect bx bY ix iy).set.indicator F p = 0 := by
      intro iy ix
      by_cases hp : p ∈ (cellRect bx bY ix iy).set
      · rw [Set.indicator_of_mem hp, hz]
      · rw [Set.indicator_of_notMem hp]
    simp only [this, Finset.sum_const_zero]
    exact hz.symm
  · have w0 : windingNumber p.1 p.2 P ≠ 0 := by intro h; apply hz; rw [hF]; dsimp only; rw [h]; simp
    have t0 : tensor N bx bY kx ky p ≠ 0 := by intro h; apply hz; rw [hF]; dsimp only; rw [h]; simp
    have hc : (⟨⟨xmin, ymin⟩, ⟨xmax, ymax⟩⟩ : Rectangle).Contains p.1 p.2 := by
      by_contra hc
      exact w0 (winding_outside P ⟨⟨xmin, ymin⟩, ⟨xmax, ymax⟩⟩ (fun q hq => hb q hq) p.1 p.2 hc)
    have bx0 : basis N bx kx p.1 ≠ 0 := fun h => t0 (by rw [tensor, h, zero_mul])
    have by0 : basis N bY ky p.2 ≠ 0 := fun h => t0 (by rw [tensor, h, mul_zero])
    have inx : bx.x 0 ≤ p.1 ∧ p.1 ≤ bx.x (bx.size - 1) := by
      constructor <;> by_contra h <;> push Not at h
      · exact bx0 (basis_outside N bx gx sx kx p.1 (Or.inl h))
      · exact bx0 (basis_outside N bx gx sx kx p.1 (Or.inr h))
    have iny : bY.x 0 ≤ p.2 ∧ p.2 ≤ bY.x (bY.size - 1) := by
      constructor <;> by_contra h <;> push Not at h
      · exact by0 (basis_outside N bY gy sy ky p.2 (Or.inl h))
      · exact by0 (basis_outside N bY gy sy ky p.2 (Or.inr h))
    obtain ⟨i, hi, _, ii, iu⟩ := cell_unique bx gx sx (lo := xmin) (hi := xmax) hc.1 hc.2.1 inx.1 inx.2 h1
    obtain ⟨j, hj, _, jj, ju⟩ := cell_unique bY gy sy (lo := ymin) (hi := ymax) hc.2.2.1 hc.2.2.2 iny.1 iny.2 h2
    rw [Finset.sum_eq_single_of_mem j hj, Finset.sum_eq_single_of_mem i hi, Set.indicator_of_mem (show p ∈ (cellRect bx bY i j).set from ⟨ii, jj⟩)]
    · intro i' hi' hne
      exact Set.indicator_of_notMem (fun hc => hne (iu i' (vx i' hi') hc.1)) _
    · intro j' hj' hne
      apply Finset.sum_eq_zero
      intro i' hi'
      exact Set.indicator_of_notMem (fun hc => hne (ju j' (vy j' hj') hc.2)) _

theorem short_winding (P : Polygon) (h : P.length ≤ 2) (x y : ℝ) : windingNumber x y P = 0 := by
  rw [windingNumber_eq]
  rcases P with _ | ⟨a, _ | ⟨b, _ | ⟨c, t⟩⟩⟩
  · rfl
  · simp [cyc, path, windStep_self]
  · simp [cyc, path, windStep_anti x y a b]
  · simp at h

/-- C80: for B-splines of degree 0 and 1 on any two grids, and any polygon (of any shape, also extending beyond the grid), the output array is
incremented by the exact integrals of the products of basis functions over the polygon (with the positive sign irrespective of its orientation),
and the returned flag tells whether any vertex is outside of the grid. -/
theorem C80_integrals (N : ℕ) (hN : N ≤ 1) (bx bY : Nodes) (gx : Grid bx.x bx.size) (gy : Grid bY.x bY.size) (sx : 2 ≤ bx.size) (sy : 2 ≤ bY.size)
    (P : Polygon) (output : ℕ → ℝ) :
    (∀ kx ky, kx < bx.numValues N → (computeBsplineIntegralsOverPolygon N P bx bY output).2 (ky * bx.numValues N + kx) =
      output (ky * bx.numValues N + kx) + (if 0 ≤ polygonArea P then 1 else -1) * polyInt P (fun p => basis N bx kx p.1 * basis N bY ky p.2)) ∧
    ((computeBsplineIntegralsOverPolygon N P bx bY output).1 = true ↔ 3 ≤ P.length ∧
      ∃ p ∈ P, ¬ (⟨⟨bx.x 0, bY.x 0⟩, ⟨bx.x (bx.size - 1), bY.x (bY.size - 1)⟩⟩ : Rectangle).Contains p.x p.y) := by
  by_cases hl : P.length ≤ 2
  · have e : computeBsplineIntegralsOverPolygon N P bx bY output = (false, output) := by
      cases P with
      | nil => rfl
      | cons a t => rw [computeBsplineIntegralsOverPolygon, if_pos hl]
    rw [e]
    refine ⟨?_, by simp; omega⟩
    intro kx ky _
    simp [polyInt, short_winding P hl]
  · cases P with
    | nil => simp at hl
    | cons first others =>
      set xmin := others.foldl (fun m v => min m v.x) first.x with hxmin
      set xmax := others.foldl (fun m v => max m v.x) first.x with hxmax
      set ymin := others.foldl (fun m v => min m v.y) first.y with hymin
      set ymax := others.foldl (fun m v => max m v.y) first.y with hymax
      obtain ⟨a1, a2, a3⟩ := foldl_min_spec Point2d.x others first.x
      obtain ⟨b1, b2, b3⟩ := foldl_max_spec Point2d.x others first.x
      obtain ⟨c1, c2, c3⟩ := foldl_min_spec Point2d.y others first.y
      obtain ⟨d1, d2, d3⟩ := foldl_max_spec Point2d.y others first.y
      have harea : orientLoop first (first :: others) 0 = polygonArea (first :: others) := by
        rw [orientLoop_eq, zero_add, polygonArea_eq, cyc_next]
      have hbound : ∀ p ∈ first :: others, xmin ≤ p.x ∧ p.x ≤ xmax ∧ ymin ≤ p.y ∧ p.y ≤ ymax := by
        intro p hp
        rw [List.mem_cons] at hp
        rcases hp with rfl | hp
        · exact ⟨a1, b1, c1, d1⟩
        · exact ⟨a2 p hp, b2 p hp, c2 p hp, d2 p hp⟩
      set Q := if polygonArea (first :: others) ≥ 0 then first :: others else (first :: others).reverse with hQ
      have hboundQ : ∀ p ∈ Q, xmin ≤ p.x ∧ p.x ≤ xmax ∧ ymin ≤ p.y ∧ p.y ≤ ymax := by
        intro p hp
        apply hbound p
        rw [hQ] at hp
        split_ifs at hp
        · exact hp
        · exact List.mem_reverse.1 hp
      have e : computeBsplineIntegralsOverPolygon N (first :: others) bx bY output =
          (decide (bin bx.x bx.size xmin < 0 ∨ bin bY.x bY.size ymin < 0 ∨ bin bx.x bx.size xmax + 1 > (bx.size : ℤ) - 1 ∨
            bin bY.x bY.size ymax + 1 > (bY.size : ℤ) - 1),
          (List.range' (lowIndex bY ymin).toNat (uppIndex bY ymax - lowIndex bY ymin).toNat).foldl (fun output iy =>
            (List.range' (lowIndex bx xmin).toNat (uppIndex bx xmax - lowIndex bx xmin).toNat).foldl (fun output ix =>
              integrateOverPolygon N (clipPolygonByRectangle Q (cellRect bx bY ix iy)) bx bY output) output) output) := by
        rw [computeBsplineIntegralsOverPolygon, if_neg hl]
        dsimp only
        rw [harea]
        rfl
      rw [e]
      refine ⟨?_, ?_⟩
      · intro kx ky hk
        dsimp only
        have hsign : (if 0 ≤ polygonArea (first :: others) then 1 else -1) * polyInt (first :: others) (fun p => basis N bx kx p.1 * basis N bY ky p.2) =
            polyInt Q (tensor N bx bY kx ky) := by
          rw [hQ]
          by_cases ha : polygonArea (first :: others) ≥ 0
          · simp only [ge_iff_le] at ha ⊢
            rw [if_pos ha, if_pos ha, one_mul]; rfl
          · simp only [ge_iff_le] at ha ⊢
            rw [if_neg ha, if_neg ha, polyInt, polyInt, neg_one_mul, ← integral_neg]
            congr 1
            funext p
            rw [winding_reverse, tensor]; push_cast; ring
        rw [hsign, ← cells_sum N hN bx bY gx gy sx sy Q kx ky hk xmin xmax ymin ymax hboundQ, ← range'_sum_ico]
        rw [fold_inc (ky * bx.numValues N + kx) (fun iy output => (List.range' (lowIndex bx xmin).toNat (uppIndex bx xmax - lowIndex bx xmin).toNat).foldl (fun output ix =>
              integrateOverPolygon N (clipPolygonByRectangle Q (cellRect bx bY ix iy)) bx bY output) output)
          (fun iy => ∑ ix ∈ Finset.Ico (lowIndex bx xmin).toNat ((lowIndex bx xmin).toNat + (uppIndex bx xmax - lowIndex bx xmin).toNat),
            ∫ p in (cellRect bx bY ix iy).set, (windingNumber p.1 p.2 Q : ℝ) * tensor N bx bY kx ky p)]
        intro iy hiy o
        rw [← range'_sum_ico]
        refine fold_inc (ky * bx.numValues N + kx) (fun ix output => integrateOverPolygon N (clipPolygonByRectangle Q (cellRect bx bY ix iy)) bx bY output) _ _ ?_ o
        intro ix hix o'
        rw [List.mem_range'_1, ← Finset.mem_Ico] at hix hiy
        exact (cell_out N hN bx bY gx gy ix iy (range_valid bx gx sx xmin xmax hix) (range_valid bY gy sy ymin ymax hiy) Q kx ky hk).2 o'
      · dsimp only
        rw [decide_eq_true_eq, (bin_range bx gx sx xmin).1, (bin_range bY gy sy ymin).1, (bin_range bx gx sx xmax).2.1, (bin_range bY gy sy ymax).2.1]
        constructor
        · intro h
          refine ⟨by omega, ?_⟩
          rcases h with h | h | h | h
          · rcases a3 with a3 | ⟨p, hp, a3⟩
            · exact ⟨first, by simp, fun hc => by have := hc.1; dsimp only at this; rw [hxmin, a3] at h; linarith⟩
            · exact ⟨p, by simp [hp], fun hc => by have := hc.1; dsimp only at this; rw [hxmin, a3] at h; linarith⟩
          · rcases c3 with a3 | ⟨p, hp, a3⟩
            · exact ⟨first, by simp, fun hc => by have := hc.2.2.1; dsimp only at this; rw [hymin, a3] at h; linarith⟩
            · exact ⟨p, by simp [hp], fun hc => by have := hc.2.2.1; dsimp only at this; rw [hymin, a3] at h; linarith⟩
          · rcases b3 with a3 | ⟨p, hp, a3⟩
            · exact ⟨first, by simp, fun hc => by have := hc.2.1; dsimp only at this; rw [hxmax, a3] at h; linarith⟩
            · exact ⟨p, by simp [hp], fun hc => by have := hc.2.1; dsimp only at this; rw [hxmax, a3] at h; linarith⟩
          · rcases d3 with a3 | ⟨p, hp, a3⟩
            · exact ⟨first, by simp, fun hc => by have := hc.2.2.2; dsimp only at this; rw [hymax, a3] at h; linarith⟩
            · exact ⟨p, by simp [hp], fun hc => by have := hc.2.2.2; dsimp only at this; rw [hymax, a3] at h; linarith⟩
        · rintro ⟨_, p, hp, hc⟩
          obtain ⟨q1, q2, q3, q4⟩ := hbound p hp
          by_contra hcon
          push Not at hcon
          exact hc ⟨hcon.1.trans q1, q2.trans hcon.2.2.1, hcon.2.1.trans q3, q4.trans hcon.2.2.2⟩

/-- The hypotheses of C80: a 3 by 2 grid (4 by 3 nodes) and a clockwise triangle, one vertex of which is outside. -/
example : Grid (fun i => (i : ℝ)) 4 ∧ Grid (fun i => (2 * i : ℝ)) 3 ∧ polygonArea [⟨0.5, 0.5⟩, ⟨0.5, 5⟩, ⟨2.5, 0.5⟩] < 0 ∧
    ¬ (⟨⟨0, 0⟩, ⟨3, 4⟩⟩ : Rectangle).Contains 0.5 5 := by
  refine ⟨?_, ?_, ?_, ?_⟩
  · intro i j h _; dsimp only; exact_mod_cast h
  · intro i j h _; dsimp only; have : (i : ℝ) < j := by exact_mod_cast h
    linarith
  · norm_num [polygonArea, areaLoop]
  · rw [Rectangle.Contains]; norm_num

end

end Verif.Geom
