import Verif.Spline.Tensor

/-! C95: evaluation of the two-dimensional interpolators. -/

namespace Verif.Spline

open Verif.BSpline (Grid)

noncomputable section

/-- the closed rectangle spanned by the nodes -/
def Nodes2.Inside (g : Nodes2) (x y : ℝ) : Prop := g.x 0 ≤ x ∧ x ≤ g.x (g.nx - 1) ∧ g.y 0 ≤ y ∧ y ≤ g.y (g.ny - 1)

/-- strictly increasing nodes, at least two in each direction (the checks of the constructor, math_spline.cpp:2157-2163) -/
structure Nodes2.Ok (g : Nodes2) : Prop where
  gx : Grid g.x g.nx
  gy : Grid g.y g.ny
  nx2 : 2 ≤ g.nx
  ny2 : 2 ≤ g.ny

/-- What a user of a smooth two-dimensional interpolator relies on: the values, both first derivatives and the mixed derivative at the nodes are the given ones; the reported first derivatives and the mixed derivative are the partial derivatives of the reported value and first derivatives, everywhere, and all these four functions are continuous; the other second derivatives are the derivatives of the first ones between the lines of nodes. -/
structure Smooth2 (g : Nodes2) (S : ℝ → ℝ → Jet2) (f fx fy fxy : ℕ → ℕ → ℝ) : Prop where
  nodes : ∀ i < g.nx, ∀ j < g.ny, (S (g.x i) (g.y j)).z = f i j ∧ (S (g.x i) (g.y j)).zx = fx i j ∧
    (S (g.x i) (g.y j)).zy = fy i j ∧ (S (g.x i) (g.y j)).zxy = fxy i j
  dx : ∀ x y, HasDerivAt (fun x => (S x y).z) (S x y).zx x
  dy : ∀ x y, HasDerivAt (fun y => (S x y).z) (S x y).zy y
  dxy : ∀ x y, HasDerivAt (fun y => (S x y).zx) (S x y).zxy y
  dyx : ∀ x y, HasDerivAt (fun x => (S x y).zy) (S x y).zxy x
  dxx : ∀ x y, (∀ i < g.nx, x ≠ g.x i) → HasDerivAt (fun x => (S x y).zx) (S x y).zxx x
  dyy : ∀ x y, (∀ j < g.ny, y ≠ g.y j) → HasDerivAt (fun y => (S x y).zy) (S x y).zyy y
  cont : Continuous (fun p : ℝ × ℝ => (S p.1 p.2).z) ∧ Continuous (fun p : ℝ × ℝ => (S p.1 p.2).zx) ∧
    Continuous (fun p : ℝ × ℝ => (S p.1 p.2).zy) ∧ Continuous (fun p : ℝ × ℝ => (S p.1 p.2).zxy)

def jet2 (X Y : (ℕ → ℕ → ℝ) → ℝ → Jet3) (D : ℕ → ℕ → ℕ → ℕ → ℝ) (x y : ℝ) : Jet2 :=
  ⟨nest X Y D 0 0 x y, nest X Y D 1 0 x y, nest X Y D 0 1 x y, nest X Y D 2 0 x y, nest X Y D 1 1 x y, nest X Y D 0 2 x y⟩

theorem smooth2_of {g : Nodes2} {X Y : (ℕ → ℕ → ℝ) → ℝ → Jet3} {mx my : ℕ} (hX : Fam g.x g.nx mx X) (hY : Fam g.y g.ny my Y)
    (D : ℕ → ℕ → ℕ → ℕ → ℝ) : Smooth2 g (jet2 X Y D) (D 0 0) (D 1 0) (D 0 1) (D 1 1) where
  nodes := by
    intro i hi j hj
    simp only [jet2, nest, Jet3.get_zero, Jet3.get_one]
    rw [hX.nodeVal _ i hi, hX.nodeDer _ i hi, hX.nodeVal _ i hi, hX.nodeDer _ i hi, hY.nodeVal _ j hj, hY.nodeVal _ j hj, hY.nodeDer _ j hj, hY.nodeDer _ j hj]
    exact ⟨rfl, rfl, rfl, rfl⟩
  dx := fun x y => hX.der _ x
  dyx := fun x y => hX.der _ x
  dxx := fun x y h => hX.der2 _ x h
  dy := fun x y => by simp only [jet2, nest_swap hX hY]; exact hY.der _ y
  dxy := fun x y => by simp only [jet2, nest_swap hX hY]; exact hY.der _ y
  dyy := fun x y h => by simp only [jet2, nest_swap hX hY]; exact hY.der2 _ y h
  cont := ⟨nest_continuous hX hY D (r := 0) (s := 0) (by omega) (by omega), nest_continuous hX hY D (r := 1) (s := 0) (by omega) (by omega),
    nest_continuous hX hY D (r := 0) (s := 1) (by omega) (by omega), nest_continuous hX hY D (r := 1) (s := 1) (by omega) (by omega)⟩

theorem off_iff {g : Nodes2} (hg : g.Ok) (x y : ℝ) : g.off (bin g.x g.nx x) (bin g.y g.ny y) ↔ ¬g.Inside x y := by
  rw [Nodes2.off, Nodes2.Inside]
  have hx := bin_out hg.gx hg.nx2 x
  have hy := bin_out hg.gy hg.ny2 y
  tauto

theorem evalCubic_shift (t a b fl fh dl dh c : ℝ) : evalCubic t a b (fl - c) (fh - c) dl dh =
    { evalCubic t a b fl fh dl dh with val := (evalCubic t a b fl fh dl dh).val - c } := by
  simp only [evalCubic]
  ext <;> simp only <;> ring

theorem evalQuintic_shift (t a b fl fh dl dh el eh c : ℝ) : evalQuintic t a b (fl - c) (fh - c) dl dh el eh =
    { evalQuintic t a b fl fh dl dh el eh with val := (evalQuintic t a b fl fh dl dh el eh).val - c } := by
  simp only [evalQuintic]
  split_ifs <;> ext <;> simp only <;> ring

/-- the node data of the cubic spline: index of the x-derivative, of the y-derivative, of the nodes -/
def dat2 (ny : ℕ) (f00 f10 f01 f11 : ℕ → ℝ) (a b i j : ℕ) : ℝ :=
  (if a = 0 then (if b = 0 then f00 else f01) else (if b = 0 then f10 else f11)) (i * ny + j)

theorem cubic2d_inside {g : Nodes2} (hg : g.Ok) (fval fx fy fxy : ℕ → ℝ) {x y : ℝ} (h : g.Inside x y) :
    CubicSpline2d.evalDeriv g fval fx fy fxy x y =
      some (jet2 (cubicE g.x g.nx) (cubicE g.y g.ny) (dat2 g.ny fval fx fy fxy) x y) := by
  obtain ⟨k, hk, _, _, _, hb⟩ := bin_in hg.gx hg.nx2 h.1 h.2.1
  obtain ⟨l, hl, _, _, _, hc⟩ := bin_in hg.gy hg.ny2 h.2.2.1 h.2.2.2
  have ho : ¬ g.off (bin g.x g.nx x) (bin g.y g.ny y) := by rw [off_iff hg]; exact not_not.2 h
  simp only [CubicSpline2d.evalDeriv]
  rw [if_neg ho]
  simp only [hb, hc, Int.toNat_natCast, jet2, nest, Jet3.get_zero, Jet3.get_one, Jet3.get_two, cubicE_in _ x hk hb, cubicE_in _ y hl hc,
    evalCubic_shift, dat2, if_true, one_ne_zero, if_false]
  have e1 : k * g.ny + l + g.ny = (k + 1) * g.ny + l := by ring
  have e2 : k * g.ny + l + 1 = k * g.ny + (l + 1) := by ring
  have e3 : (k + 1) * g.ny + l + 1 = (k + 1) * g.ny + (l + 1) := by ring
  simp only [e1, e2, e3, sub_add_cancel]

/-- C95: for any node data of a two-dimensional cubic spline, there is a function which is defined on the whole plane and is smooth in the sense of `Smooth2`, and the spline reports this function and its derivatives in the closed rectangle spanned by the nodes, and NaN outside. -/
theorem C95_cubic (g : Nodes2) (hg : g.Ok) (fval fx fy fxy : ℕ → ℝ) : ∃ S : ℝ → ℝ → Jet2,
    (∀ x y, g.Inside x y → CubicSpline2d.evalDeriv g fval fx fy fxy x y = some (S x y)) ∧
    (∀ x y, ¬g.Inside x y → CubicSpline2d.evalDeriv g fval fx fy fxy x y = none) ∧
    Smooth2 g S (fun i j => fval (i * g.ny + j)) (fun i j => fx (i * g.ny + j)) (fun i j => fy (i * g.ny + j)) (fun i j => fxy (i * g.ny + j)) := by
  refine ⟨_, fun x y h => cubic2d_inside hg fval fx fy fxy h, fun x y h => ?_, smooth2_of (cubic_fam hg.gx hg.nx2) (cubic_fam hg.gy hg.ny2) _⟩
  simp only [CubicSpline2d.evalDeriv]
  rw [if_pos ((off_iff hg x y).2 h)]

/-- node data of the quintic spline -/
def dat3 (ny : ℕ) (f00 f10 f01 f20 f11 f02 f21 f12 f22 : ℕ → ℝ) (a b i j : ℕ) : ℝ :=
  (if a = 0 then (if b = 0 then f00 else if b = 1 then f01 else f02) else if a = 1 then (if b = 0 then f10 else if b = 1 then f11 else f12)
   else (if b = 0 then f20 else if b = 1 then f21 else f22)) (i * ny + j)

theorem quintic2d_inside {g : Nodes2} (hg : g.Ok) (fval fx fy fxx fxy fyy fxxy fxyy fxxyy : ℕ → ℝ) {x y : ℝ} (h : g.Inside x y) :
    QuinticSpline2d.evalDeriv g fval fx fy fxx fxy fyy fxxy fxyy fxxyy x y =
      some (jet2 (quinticE g.x g.nx) (quinticE g.y g.ny) (dat3 g.ny fval fx fy fxx fxy fyy fxxy fxyy fxxyy) x y) := by
  obtain ⟨k, hk, _, _, _, hb⟩ := bin_in hg.gx hg.nx2 h.1 h.2.1
  obtain ⟨l, hl, _, _, _, hc⟩ := bin_in hg.gy hg.ny2 h.2.2.1 h.2.2.2
  have ho : ¬ g.off (bin g.x g.nx x) (bin g.y g.ny y) := by rw [off_iff hg]; exact not_not.2 h
  simp only [QuinticSpline2d.evalDeriv]
  rw [if_neg ho]
  simp only [hb, hc, Int.toNat_natCast, jet2, nest, Jet3.get_zero, Jet3.get_one, Jet3.get_two, quinticE_in _ x hk hb, quinticE_in _ y hl hc,
    evalQuintic_shift, dat3, if_true, one_ne_zero, if_false, OfNat.ofNat_ne_zero, OfNat.ofNat_ne_one]
  have e1 : k * g.ny + l + g.ny = (k + 1) * g.ny + l := by ring
  have e2 : k * g.ny + l + 1 = k * g.ny + (l + 1) := by ring
  have e3 : (k + 1) * g.ny + l + 1 = (k + 1) * g.ny + (l + 1) := by ring
  simp only [e1, e2, e3, sub_add_cancel]

/-- C95: the same for the two-dimensional quintic spline; in addition, strictly inside of the rectangle all second derivatives exist and are continuous also at the nodes and across the lines of nodes, and have the given values at the nodes. -/
theorem C95_quintic (g : Nodes2) (hg : g.Ok) (fval fx fy fxx fxy fyy fxxy fxyy fxxyy : ℕ → ℝ) : ∃ S : ℝ → ℝ → Jet2,
    (∀ x y, g.Inside x y → QuinticSpline2d.evalDeriv g fval fx fy fxx fxy fyy fxxy fxyy fxxyy x y = some (S x y)) ∧
    (∀ x y, ¬g.Inside x y → QuinticSpline2d.evalDeriv g fval fx fy fxx fxy fyy fxxy fxyy fxxyy x y = none) ∧
    Smooth2 g S (fun i j => fval (i * g.ny + j)) (fun i j => fx (i * g.ny + j)) (fun i j => fy (i * g.ny + j)) (fun i j => fxy (i * g.ny + j)) ∧
    (∀ x y, g.x 0 < x → x < g.x (g.nx - 1) → HasDerivAt (fun x => (S x y).zx) (S x y).zxx x ∧ ContinuousAt (fun p : ℝ × ℝ => (S p.1 p.2).zxx) (x, y)) ∧
    (∀ x y, g.y 0 < y → y < g.y (g.ny - 1) → HasDerivAt (fun y => (S x y).zy) (S x y).zyy y ∧ ContinuousAt (fun p : ℝ × ℝ => (S p.1 p.2).zyy) (x, y)) ∧
    (∀ i j, 0 < i → i + 1 < g.nx → j < g.ny → (S (g.x i) (g.y j)).zxx = fxx (i * g.ny + j)) ∧
    (∀ i j, 0 < j → j + 1 < g.ny → i < g.nx → (S (g.x i) (g.y j)).zyy = fyy (i * g.ny + j)) := by
  have hX := quintic_fam hg.gx hg.nx2
  have hY := quintic_fam hg.gy hg.ny2
  have nd2 : ∀ {x : ℕ → ℝ} {n : ℕ} (hg : Grid x n) (hn : 2 ≤ n) (D : ℕ → ℕ → ℝ) (i : ℕ), 0 < i → i + 1 < n → (quinticE x n D (x i)).der2 = D 2 i := by
    intro x n hg hn D i h0 h1
    obtain ⟨S, hS, _, _, h⟩ := C69_quintic x (D 0) (D 1) (D 2) n hg (by omega)
    rw [quinticE, hS]; exact h i h0 h1
  refine ⟨_, fun x y h => quintic2d_inside hg fval fx fy fxx fxy fyy fxxy fxyy fxxyy h, fun x y h => ?_, smooth2_of hX hY _, ?_, ?_, ?_, ?_⟩
  · simp only [QuinticSpline2d.evalDeriv]
    rw [if_pos ((off_iff hg x y).2 h)]
  · intro x y h0 h1
    refine ⟨(quintic_inner hg.gx hg.nx2 _ x h0 h1).1, ?_⟩
    exact nest_continuousAt hX hY _ (r := 2) (s := 0) (fun D => (quintic_inner hg.gx hg.nx2 D x h0 h1).2) (fun D => (hY.cont_get D (r := 0) (by omega)).continuousAt)
  · intro x y h0 h1
    refine ⟨?_, ?_⟩
    · simp only [jet2, nest_swap hX hY]; exact (quintic_inner hg.gy hg.ny2 _ y h0 h1).1
    · exact nest_continuousAt hX hY _ (r := 0) (s := 2) (fun D => (hX.cont_get D (r := 0) (by omega)).continuousAt) (fun D => (quintic_inner hg.gy hg.ny2 D y h0 h1).2)
  · intro i j h0 h1 hj
    simp only [jet2, nest, Jet3.get_zero, Jet3.get_two]
    rw [nd2 hg.gx hg.nx2 _ i h0 h1, hY.nodeVal _ j hj]; rfl
  · intro i j h0 h1 hi
    simp only [jet2, nest, Jet3.get_zero, Jet3.get_two]
    rw [hX.nodeVal _ i hi, nd2 hg.gy hg.ny2 _ j h0 h1]; rfl

/-! ### reproduction of polynomials -/

/-- r-th derivative (r ≤ 2) of t^k -/
def dpow (r k : ℕ) (t : ℝ) : ℝ := if r = 0 then t ^ k else if r = 1 then k * t ^ (k - 1) else k * ((k - 1 : ℕ) * t ^ (k - 2))

/-- the derivatives of order r in x and s in y of the polynomial ∑ c k l x^k y^l of degree at most deg in each variable -/
def poly2 (c : ℕ → ℕ → ℝ) (deg r s : ℕ) (x y : ℝ) : ℝ := ∑ k ∈ Finset.range (deg + 1), ∑ l ∈ Finset.range (deg + 1), c k l * dpow r k x * dpow s l y

def poly2Jet (c : ℕ → ℕ → ℝ) (deg : ℕ) (x y : ℝ) : Jet2 :=
  ⟨poly2 c deg 0 0 x y, poly2 c deg 1 0 x y, poly2 c deg 0 1 x y, poly2 c deg 2 0 x y, poly2 c deg 1 1 x y, poly2 c deg 0 2 x y⟩

theorem polyJet_get (c : ℕ → ℝ) (deg : ℕ) (t : ℝ) (r : ℕ) : (polyJet c deg t).get r = ∑ k ∈ Finset.range (deg + 1), c k * dpow r k t := by
  by_cases h0 : r = 0
  · subst h0; simp [polyJet, dpow]
  · by_cases h1 : r = 1
    · subst h1; simp [polyJet, dpow]
    · simp [Jet3.get, polyJet, dpow, if_neg h0, if_neg h1]

theorem poly2_y (c : ℕ → ℕ → ℝ) (deg r s : ℕ) (x y : ℝ) : poly2 c deg r s x y = (polyJet (fun l => ∑ k ∈ Finset.range (deg + 1), c k l * dpow r k x) deg y).get s := by
  rw [poly2, polyJet_get, Finset.sum_comm]
  exact Finset.sum_congr rfl fun l _ => by rw [Finset.sum_mul]

theorem poly2_x (c : ℕ → ℕ → ℝ) (deg r s : ℕ) (x y : ℝ) : poly2 c deg r s x y = (polyJet (fun k => ∑ l ∈ Finset.range (deg + 1), c k l * dpow s l y) deg x).get r := by
  rw [poly2, polyJet_get]
  refine Finset.sum_congr rfl fun k _ => ?_
  rw [Finset.sum_mul]
  exact Finset.sum_congr rfl fun l _ => by ring

theorem nest_poly {X Y : (ℕ → ℕ → ℝ) → ℝ → Jet3} {xs ys : ℕ → ℝ} {deg m nx ny : ℕ} {x y : ℝ}
    (hX : ∀ c, ∀ D : ℕ → ℕ → ℝ, (∀ a < m, ∀ i < nx, D a i = (polyJet c deg (xs i)).get a) → X D x = polyJet c deg x)
    (hY : ∀ c, ∀ D : ℕ → ℕ → ℝ, (∀ a < m, ∀ i < ny, D a i = (polyJet c deg (ys i)).get a) → Y D y = polyJet c deg y)
    (c : ℕ → ℕ → ℝ) (D : ℕ → ℕ → ℕ → ℕ → ℝ) (hD : ∀ a < m, ∀ b < m, ∀ i < nx, ∀ j < ny, D a b i j = poly2 c deg a b (xs i) (ys j)) (r s : ℕ) :
    nest X Y D r s x y = poly2 c deg r s x y := by
  rw [nest, poly2_x, hX (fun k => ∑ l ∈ Finset.range (deg + 1), c k l * dpow s l y)]
  intro a ha i hi
  rw [hY (fun l => ∑ k ∈ Finset.range (deg + 1), c k l * dpow a k (xs i)), ← poly2_y, ← poly2_x]
  intro b hb j hj
  rw [hD a ha b hb i hi j hj, poly2_y]

/-- C95: if the node values, first derivatives and mixed derivatives are those of a polynomial of degree at most 3 in each of the variables, the two-dimensional cubic spline reproduces the polynomial and its derivatives in the whole rectangle. -/
theorem C95_cubic_exact (g : Nodes2) (hg : g.Ok) (c : ℕ → ℕ → ℝ) (fval fx fy fxy : ℕ → ℝ)
    (h00 : ∀ i < g.nx, ∀ j < g.ny, fval (i * g.ny + j) = poly2 c 3 0 0 (g.x i) (g.y j)) (h10 : ∀ i < g.nx, ∀ j < g.ny, fx (i * g.ny + j) = poly2 c 3 1 0 (g.x i) (g.y j))
    (h01 : ∀ i < g.nx, ∀ j < g.ny, fy (i * g.ny + j) = poly2 c 3 0 1 (g.x i) (g.y j)) (h11 : ∀ i < g.nx, ∀ j < g.ny, fxy (i * g.ny + j) = poly2 c 3 1 1 (g.x i) (g.y j))
    (x y : ℝ) (h : g.Inside x y) : CubicSpline2d.evalDeriv g fval fx fy fxy x y = some (poly2Jet c 3 x y) := by
  rw [cubic2d_inside hg fval fx fy fxy h]
  have key : ∀ {xs : ℕ → ℝ} {n : ℕ} {t : ℝ}, Grid xs n → 2 ≤ n → xs 0 ≤ t → t ≤ xs (n - 1) → ∀ c, ∀ D : ℕ → ℕ → ℝ,
      (∀ a < 2, ∀ i < n, D a i = (polyJet c 3 (xs i)).get a) → cubicE xs n D t = polyJet c 3 t := by
    intro xs n t h1 h2 h3 h4 c D hD
    obtain ⟨k, hk, _, _, _, hb⟩ := bin_in h1 h2 h3 h4
    have e : cubicE xs n D t = cubicE xs n (fun a i => (polyJet c 3 (xs i)).get a) t := by
      rw [cubicE_in D t hk hb, cubicE_in _ t hk hb, hD 0 (by omega) k (by omega), hD 0 (by omega) (k + 1) hk, hD 1 (by omega) k (by omega), hD 1 (by omega) (k + 1) hk]
    rw [e, cubicE]
    simp only [Jet3.get_zero, Jet3.get_one]
    rw [C69_cubic_exact xs n h1 h2 c t h3 h4]
    rfl
  have hD : ∀ a < 2, ∀ b < 2, ∀ i < g.nx, ∀ j < g.ny, dat2 g.ny fval fx fy fxy a b i j = poly2 c 3 a b (g.x i) (g.y j) := by
    intro a ha b hb i hi j hj
    rcases (by omega : a = 0 ∨ a = 1) with rfl | rfl <;> rcases (by omega : b = 0 ∨ b = 1) with rfl | rfl <;> simp [dat2, h00, h01, h10, h11, hi, hj]
  simp only [jet2, poly2Jet, nest_poly (key hg.gx hg.nx2 h.1 h.2.1) (key hg.gy hg.ny2 h.2.2.1 h.2.2.2) c _ hD]

/-- C95: the same for the quintic spline and polynomials of degree at most 5 in each variable. -/
theorem C95_quintic_exact (g : Nodes2) (hg : g.Ok) (c : ℕ → ℕ → ℝ) (fval fx fy fxx fxy fyy fxxy fxyy fxxyy : ℕ → ℝ)
    (h00 : ∀ i < g.nx, ∀ j < g.ny, fval (i * g.ny + j) = poly2 c 5 0 0 (g.x i) (g.y j)) (h10 : ∀ i < g.nx, ∀ j < g.ny, fx (i * g.ny + j) = poly2 c 5 1 0 (g.x i) (g.y j))
    (h01 : ∀ i < g.nx, ∀ j < g.ny, fy (i * g.ny + j) = poly2 c 5 0 1 (g.x i) (g.y j)) (h11 : ∀ i < g.nx, ∀ j < g.ny, fxy (i * g.ny + j) = poly2 c 5 1 1 (g.x i) (g.y j))
    (h20 : ∀ i < g.nx, ∀ j < g.ny, fxx (i * g.ny + j) = poly2 c 5 2 0 (g.x i) (g.y j)) (h02 : ∀ i < g.nx, ∀ j < g.ny, fyy (i * g.ny + j) = poly2 c 5 0 2 (g.x i) (g.y j))
    (h21 : ∀ i < g.nx, ∀ j < g.ny, fxxy (i * g.ny + j) = poly2 c 5 2 1 (g.x i) (g.y j)) (h12 : ∀ i < g.nx, ∀ j < g.ny, fxyy (i * g.ny + j) = poly2 c 5 1 2 (g.x i) (g.y j))
    (h22 : ∀ i < g.nx, ∀ j < g.ny, fxxyy (i * g.ny + j) = poly2 c 5 2 2 (g.x i) (g.y j))
    (x y : ℝ) (h : g.Inside x y) : QuinticSpline2d.evalDeriv g fval fx fy fxx fxy fyy fxxy fxyy fxxyy x y = some (poly2Jet c 5 x y) := by
  rw [quintic2d_inside hg fval fx fy fxx fxy fyy fxxy fxyy fxxyy h]
  have key : ∀ {xs : ℕ → ℝ} {n : ℕ} {t : ℝ}, Grid xs n → 2 ≤ n → xs 0 ≤ t → t ≤ xs (n - 1) → ∀ c, ∀ D : ℕ → ℕ → ℝ,
      (∀ a < 3, ∀ i < n, D a i = (polyJet c 5 (xs i)).get a) → quinticE xs n D t = polyJet c 5 t := by
    intro xs n t h1 h2 h3 h4 c D hD
    obtain ⟨k, hk, _, _, _, hb⟩ := bin_in h1 h2 h3 h4
    have e : quinticE xs n D t = quinticE xs n (fun a i => (polyJet c 5 (xs i)).get a) t := by
      rw [quinticE_in D t hk hb, quinticE_in _ t hk hb, hD 0 (by omega) k (by omega), hD 0 (by omega) (k + 1) hk, hD 1 (by omega) k (by omega), hD 1 (by omega) (k + 1) hk,
        hD 2 (by omega) k (by omega), hD 2 (by omega) (k + 1) hk]
    rw [e, quinticE]
    simp only [Jet3.get_zero, Jet3.get_one, Jet3.get_two]
    rw [C69_quintic_exact xs n h1 h2 c t h3 h4]
    rfl
  have hD : ∀ a < 3, ∀ b < 3, ∀ i < g.nx, ∀ j < g.ny, dat3 g.ny fval fx fy fxx fxy fyy fxxy fxyy fxxyy a b i j = poly2 c 5 a b (g.x i) (g.y j) := by
    intro a ha b hb i hi j hj
    rcases (by omega : a = 0 ∨ a = 1 ∨ a = 2) with rfl | rfl | rfl <;> rcases (by omega : b = 0 ∨ b = 1 ∨ b = 2) with rfl | rfl | rfl <;>
      simp [dat3, h00, h01, h10, h11, h20, h02, h21, h12, h22, hi, hj]
  simp only [jet2, poly2Jet, nest_poly (key hg.gx hg.nx2 h.1 h.2.1) (key hg.gy hg.ny2 h.2.2.1 h.2.2.2) c _ hD]

/-! ### bilinear interpolation -/

theorem linear_cell {x : ℕ → ℝ} {n : ℕ} (hg : Grid x n) (hn : 2 ≤ n) (D : ℕ → ℕ → ℝ) {i : ℕ} (hi : i + 1 < n) {t : ℝ} (h0 : x i ≤ t) (h1 : t ≤ x (i + 1)) :
    (linearE x n D t).val = (x (i + 1) - t) / (x (i + 1) - x i) * D 0 i + (t - x i) / (x (i + 1) - x i) * D 0 (i + 1) := by
  obtain ⟨S, hS, _, _, h, _⟩ := C69_linear x (D 0) n hg hn
  rw [linearE, hS, Option.getD_some, h i hi t (Or.inl h0) (Or.inl h1)]
  have : x (i + 1) - x i ≠ 0 := sub_ne_zero.2 (hg _ _ (by omega) hi).ne'
  field_simp; ring

theorem linear_cont {x : ℕ → ℝ} {n : ℕ} (hg : Grid x n) (hn : 2 ≤ n) (D : ℕ → ℕ → ℝ) : Continuous fun t => (linearE x n D t).val := by
  obtain ⟨S, hS, _, hc, _⟩ := C69_linear x (D 0) n hg hn
  have : linearE x n D = S := by funext t; rw [linearE, hS]; rfl
  rw [this]; exact hc

theorem linear_node {x : ℕ → ℝ} {n : ℕ} (hg : Grid x n) (hn : 2 ≤ n) (D : ℕ → ℕ → ℝ) {i : ℕ} (hi : i < n) : (linearE x n D (x i)).val = D 0 i := by
  obtain ⟨S, hS, h, _⟩ := C69_linear x (D 0) n hg hn
  rw [linearE, hS, Option.getD_some, h i hi]

theorem linear_lin {x : ℕ → ℝ} {n : ℕ} (hg : Grid x n) (hn : 2 ≤ n) (D : ℕ → ℕ → ℝ) (t : ℝ) :
    (linearE x n D t).val = ∑ i ∈ Finset.range n, D 0 i * (linearE x n (delta 0 i) t).val := by
  have key : ∃ k, k + 1 < n ∧ (x k ≤ t ∨ k = 0) ∧ (t ≤ x (k + 1) ∨ k + 2 = n) := by
    rcases bin_cases hg (by omega) t with ⟨h, _⟩ | ⟨h, _⟩ | ⟨h, _, _⟩ | ⟨k, hk, h1, h2, _, _⟩
    · exact ⟨0, by omega, Or.inr rfl, Or.inl (h.le.trans (hg 0 1 (by omega) (by omega)).le)⟩
    · exact ⟨n - 2, by omega, Or.inl ((hg (n - 2) (n - 1) (by omega) (by omega)).le.trans h.le), Or.inr (by omega)⟩
    · omega
    · exact ⟨k, hk, Or.inl h1, Or.inl h2⟩
  obtain ⟨k, hk, h1, h2⟩ := key
  have := lin_of_local (n := n) (m := 1) hk (e := fun D => (linearE x n D t).val) (A := fun _ => 1 - (t - x k) / (x (k + 1) - x k)) (B := fun _ => (t - x k) / (x (k + 1) - x k)) (fun D => by
    obtain ⟨S, hS, _, _, h, _⟩ := C69_linear x (D 0) n hg hn
    simp only [Finset.sum_range_one]
    rw [linearE, hS, Option.getD_some, h k hk t h1 h2]; ring) D
  simpa using this

def bilin (g : Nodes2) (fval : ℕ → ℝ) (x y : ℝ) : ℝ :=
  (linearE g.x g.nx (fun _ i => (linearE g.y g.ny (fun _ j => fval (i * g.ny + j)) y).val) x).val

theorem bilin_cont {g : Nodes2} (hg : g.Ok) (fval : ℕ → ℝ) : Continuous fun p : ℝ × ℝ => bilin g fval p.1 p.2 := by
  have e : (fun p : ℝ × ℝ => bilin g fval p.1 p.2) = fun p : ℝ × ℝ => ∑ i ∈ Finset.range g.nx,
      (linearE g.y g.ny (fun _ j => fval (i * g.ny + j)) p.2).val * (linearE g.x g.nx (delta 0 i) p.1).val := by
    funext p; rw [bilin, linear_lin hg.gx hg.nx2]
  rw [e]
  refine continuous_finsetSum _ fun i _ => ?_
  exact ((linear_cont hg.gy hg.ny2 _).comp continuous_snd).mul ((linear_cont hg.gx hg.nx2 _).comp continuous_fst)

theorem bilin_inside {g : Nodes2} (hg : g.Ok) (fval : ℕ → ℝ) {x y : ℝ} (h : g.Inside x y) {k l : ℕ} (hk : k + 1 < g.nx) (hl : l + 1 < g.ny)
    (hb : bin g.x g.nx x = k) (hc : bin g.y g.ny y = l) : LinearInterpolator2d.evalDeriv g fval x y = (some (bilin g fval x y,
      ((g.y (l + 1) - y) / (g.y (l + 1) - g.y l) * (fval ((k + 1) * g.ny + l) - fval (k * g.ny + l)) +
        (y - g.y l) / (g.y (l + 1) - g.y l) * (fval ((k + 1) * g.ny + (l + 1)) - fval (k * g.ny + (l + 1)))) / (g.x (k + 1) - g.x k),
      ((g.x (k + 1) - x) / (g.x (k + 1) - g.x k) * (fval (k * g.ny + (l + 1)) - fval (k * g.ny + l)) +
        (x - g.x k) / (g.x (k + 1) - g.x k) * (fval ((k + 1) * g.ny + (l + 1)) - fval ((k + 1) * g.ny + l))) / (g.y (l + 1) - g.y l)), 0, 0, 0) := by
  have ho : ¬ g.off (bin g.x g.nx x) (bin g.y g.ny y) := by rw [off_iff hg]; exact not_not.2 h
  simp only [LinearInterpolator2d.evalDeriv]
  rw [if_neg ho]
  have hx : g.x (k + 1) - g.x k ≠ 0 := sub_ne_zero.2 (hg.gx _ _ (by omega) hk).ne'
  have hy : g.y (l + 1) - g.y l ≠ 0 := sub_ne_zero.2 (hg.gy _ _ (by omega) hl).ne'
  have e1 : k * g.ny + l + g.ny = (k + 1) * g.ny + l := by ring
  have e2 : k * g.ny + l + 1 = k * g.ny + (l + 1) := by ring
  have e3 : (k + 1) * g.ny + l + 1 = (k + 1) * g.ny + (l + 1) := by ring
  simp only [hb, hc, Int.toNat_natCast, e1, e2, e3]
  refine Prod.ext ?_ rfl
  simp only [Option.some.injEq]
  refine Prod.ext ?_ (Prod.ext ?_ ?_)
  · simp only [bilin, linearE_in _ x hk hb, linearE_in _ y hl hc, Verif.Core.linearInterp]
    field_simp
    ring
  · simp only; rw [show 1 - (y - g.y l) / (g.y (l + 1) - g.y l) = (g.y (l + 1) - y) / (g.y (l + 1) - g.y l) by field_simp; ring]
  · simp only; rw [show 1 - (x - g.x k) / (g.x (k + 1) - g.x k) = (g.x (k + 1) - x) / (g.x (k + 1) - g.x k) by field_simp; ring]

theorem bin_strict {x : ℕ → ℝ} {n : ℕ} (hg : Grid x n) (hn : 2 ≤ n) {i : ℕ} (hi : i + 1 < n) {t : ℝ} (h0 : x i < t) (h1 : t < x (i + 1)) : bin x n t = i := by
  obtain ⟨k, hk, h2, h3, _, hb⟩ := bin_in hg hn ((Grid.le hg (Nat.zero_le i) (by omega)).trans h0.le) (h1.le.trans (Grid.le hg (by omega) (by omega)))
  rw [hb]
  rcases Nat.lt_trichotomy k i with h | h | h
  · have := Grid.le hg (show k + 1 ≤ i by omega) (by omega); linarith
  · rw [h]
  · have := Grid.le hg (show i + 1 ≤ k by omega) (by omega); linarith

theorem inside_of_cell {g : Nodes2} (hg : g.Ok) {i j : ℕ} (hi : i + 1 < g.nx) (hj : j + 1 < g.ny) {x y : ℝ} (h0 : g.x i ≤ x) (h1 : x ≤ g.x (i + 1)) (h2 : g.y j ≤ y)
    (h3 : y ≤ g.y (j + 1)) : g.Inside x y :=
  ⟨(Grid.le hg.gx (Nat.zero_le i) (by omega)).trans h0, h1.trans (Grid.le hg.gx (by omega) (by omega)),
    (Grid.le hg.gy (Nat.zero_le j) (by omega)).trans h2, h3.trans (Grid.le hg.gy (by omega) (by omega))⟩

theorem bilin_cell {g : Nodes2} (hg : g.Ok) (fval : ℕ → ℝ) {i j : ℕ} (hi : i + 1 < g.nx) (hj : j + 1 < g.ny) {x y : ℝ} (h0 : g.x i ≤ x) (h1 : x ≤ g.x (i + 1)) (h2 : g.y j ≤ y)
    (h3 : y ≤ g.y (j + 1)) : bilin g fval x y =
      (g.x (i + 1) - x) / (g.x (i + 1) - g.x i) * ((g.y (j + 1) - y) / (g.y (j + 1) - g.y j) * fval (i * g.ny + j) + (y - g.y j) / (g.y (j + 1) - g.y j) * fval (i * g.ny + (j + 1))) +
      (x - g.x i) / (g.x (i + 1) - g.x i) * ((g.y (j + 1) - y) / (g.y (j + 1) - g.y j) * fval ((i + 1) * g.ny + j) + (y - g.y j) / (g.y (j + 1) - g.y j) * fval ((i + 1) * g.ny + (j + 1))) := by
  rw [bilin, linear_cell hg.gx hg.nx2 _ hi h0 h1, linear_cell hg.gy hg.ny2 _ hj h2 h3, linear_cell hg.gy hg.ny2 _ hj h2 h3]

theorem affine_deriv (a b c d e t : ℝ) : HasDerivAt (fun t => (a - t) / b * c + (t - d) / b * e) ((e - c) / b) t := by
  have h1 : HasDerivAt (fun t : ℝ => (a - t) / b * c) (-1 / b * c) t := by
    simpa using ((((hasDerivAt_id t).const_sub a).div_const b).mul_const c)
  have h2 : HasDerivAt (fun t : ℝ => (t - d) / b * e) (1 / b * e) t := by
    simpa using ((((hasDerivAt_id t).sub_const d).div_const b).mul_const e)
  exact (h1.add h2).congr_deriv (by ring)

/-- C95: bilinear interpolation. There is a function continuous in the whole plane, with the given values at the nodes, which is the value reported in the closed rectangle (NaN outside); in each cell it is the bilinear function with the given corner values (so it lies between the least and the greatest of these, and any function of the form a+bx+cy+dxy is reproduced); and strictly inside of each cell the reported first derivatives are its partial derivatives. -/
theorem C95_bilinear (g : Nodes2) (hg : g.Ok) (fval : ℕ → ℝ) : ∃ S : ℝ → ℝ → ℝ, (Continuous fun p : ℝ × ℝ => S p.1 p.2) ∧
    (∀ x y, ¬g.Inside x y → (LinearInterpolator2d.evalDeriv g fval x y).1 = none) ∧
    (∀ x y, g.Inside x y → ((LinearInterpolator2d.evalDeriv g fval x y).1.map fun r => r.1) = some (S x y)) ∧
    (∀ i < g.nx, ∀ j < g.ny, S (g.x i) (g.y j) = fval (i * g.ny + j)) ∧
    (∀ i j, i + 1 < g.nx → j + 1 < g.ny → ∀ x y, g.x i ≤ x → x ≤ g.x (i + 1) → g.y j ≤ y → y ≤ g.y (j + 1) →
      (g.x (i + 1) - g.x i) * (g.y (j + 1) - g.y j) * S x y =
        (g.x (i + 1) - x) * (g.y (j + 1) - y) * fval (i * g.ny + j) + (g.x (i + 1) - x) * (y - g.y j) * fval (i * g.ny + (j + 1)) +
        (x - g.x i) * (g.y (j + 1) - y) * fval ((i + 1) * g.ny + j) + (x - g.x i) * (y - g.y j) * fval ((i + 1) * g.ny + (j + 1))) ∧
    (∀ i j, i + 1 < g.nx → j + 1 < g.ny → ∀ x y, g.x i < x → x < g.x (i + 1) → g.y j < y → y < g.y (j + 1) →
      ∃ zx zy, (LinearInterpolator2d.evalDeriv g fval x y).1 = some (S x y, zx, zy) ∧ HasDerivAt (fun x => S x y) zx x ∧ HasDerivAt (fun y => S x y) zy y) := by
  refine ⟨bilin g fval, bilin_cont hg fval, ?_, ?_, ?_, ?_, ?_⟩
  · intro x y h
    simp only [LinearInterpolator2d.evalDeriv]
    rw [if_pos ((off_iff hg x y).2 h)]
  · intro x y h
    obtain ⟨k, hk, _, _, _, hb⟩ := bin_in hg.gx hg.nx2 h.1 h.2.1
    obtain ⟨l, hl, _, _, _, hc⟩ := bin_in hg.gy hg.ny2 h.2.2.1 h.2.2.2
    rw [bilin_inside hg fval h hk hl hb hc]; rfl
  · intro i hi j hj
    rw [bilin, linear_node hg.gx hg.nx2 _ hi, linear_node hg.gy hg.ny2 _ hj]
  · intro i j hi hj x y h0 h1 h2 h3
    have hx : g.x (i + 1) - g.x i ≠ 0 := sub_ne_zero.2 (hg.gx _ _ (by omega) hi).ne'
    have hy : g.y (j + 1) - g.y j ≠ 0 := sub_ne_zero.2 (hg.gy _ _ (by omega) hj).ne'
    rw [bilin_cell hg fval hi hj h0 h1 h2 h3]
    field_simp; ring
  · intro i j hi hj x y h0 h1 h2 h3
    have hin := inside_of_cell hg hi hj h0.le h1.le h2.le h3.le
    refine ⟨_, _, by rw [bilin_inside hg fval hin hi hj (bin_strict hg.gx hg.nx2 hi h0 h1) (bin_strict hg.gy hg.ny2 hj h2 h3)], ?_, ?_⟩
    · have e : (fun x => bilin g fval x y) =ᶠ[nhds x] fun x => (g.x (i + 1) - x) / (g.x (i + 1) - g.x i) *
          ((g.y (j + 1) - y) / (g.y (j + 1) - g.y j) * fval (i * g.ny + j) + (y - g.y j) / (g.y (j + 1) - g.y j) * fval (i * g.ny + (j + 1))) +
          (x - g.x i) / (g.x (i + 1) - g.x i) * ((g.y (j + 1) - y) / (g.y (j + 1) - g.y j) * fval ((i + 1) * g.ny + j) + (y - g.y j) / (g.y (j + 1) - g.y j) * fval ((i + 1) * g.ny + (j + 1))) := by
        filter_upwards [Ioo_mem_nhds h0 h1] with x hx
        exact bilin_cell hg fval hi hj hx.1.le hx.2.le h2.le h3.le
      exact HasDerivAt.congr_of_eventuallyEq ((affine_deriv _ _ _ _ _ x).congr_deriv (by ring)) e
    · have e : (fun y => bilin g fval x y) =ᶠ[nhds y] fun y => (g.y (j + 1) - y) / (g.y (j + 1) - g.y j) *
          ((g.x (i + 1) - x) / (g.x (i + 1) - g.x i) * fval (i * g.ny + j) + (x - g.x i) / (g.x (i + 1) - g.x i) * fval ((i + 1) * g.ny + j)) +
          (y - g.y j) / (g.y (j + 1) - g.y j) * ((g.x (i + 1) - x) / (g.x (i + 1) - g.x i) * fval (i * g.ny + (j + 1)) + (x - g.x i) / (g.x (i + 1) - g.x i) * fval ((i + 1) * g.ny + (j + 1))) := by
        filter_upwards [Ioo_mem_nhds h2 h3] with y hy
        rw [bilin_cell hg fval hi hj h0.le h1.le hy.1.le hy.2.le]; ring
      exact HasDerivAt.congr_of_eventuallyEq ((affine_deriv _ _ _ _ _ y).congr_deriv (by ring)) e

/-- C95: the value of the bilinear interpolator is between the least and the greatest of the values at the corners of the cell. -/
theorem C95_bilinear_bounds (g : Nodes2) (hg : g.Ok) (fval : ℕ → ℝ) (i j : ℕ) (hi : i + 1 < g.nx) (hj : j + 1 < g.ny) (x y lo hi' : ℝ)
    (h0 : g.x i ≤ x) (h1 : x ≤ g.x (i + 1)) (h2 : g.y j ≤ y) (h3 : y ≤ g.y (j + 1))
    (hf : ∀ a ≤ 1, ∀ b ≤ 1, lo ≤ fval ((i + a) * g.ny + (j + b)) ∧ fval ((i + a) * g.ny + (j + b)) ≤ hi') :
    ∃ z zx zy, (LinearInterpolator2d.evalDeriv g fval x y).1 = some (z, zx, zy) ∧ lo ≤ z ∧ z ≤ hi' := by
  have hin := inside_of_cell hg hi hj h0 h1 h2 h3
  obtain ⟨k, hk, _, _, _, hb⟩ := bin_in hg.gx hg.nx2 hin.1 hin.2.1
  obtain ⟨l, hl, _, _, _, hc⟩ := bin_in hg.gy hg.ny2 hin.2.2.1 hin.2.2.2
  refine ⟨_, _, _, by rw [bilin_inside hg fval hin hk hl hb hc], ?_⟩
  rw [bilin_cell hg fval hi hj h0 h1 h2 h3]
  have hx : 0 < g.x (i + 1) - g.x i := sub_pos.2 (hg.gx _ _ (by omega) hi)
  have hy : 0 < g.y (j + 1) - g.y j := sub_pos.2 (hg.gy _ _ (by omega) hj)
  have ex : (g.x (i + 1) - x) / (g.x (i + 1) - g.x i) + (x - g.x i) / (g.x (i + 1) - g.x i) = 1 := by field_simp; ring
  have ey : (g.y (j + 1) - y) / (g.y (j + 1) - g.y j) + (y - g.y j) / (g.y (j + 1) - g.y j) = 1 := by field_simp; ring
  have px : 0 ≤ (g.x (i + 1) - x) / (g.x (i + 1) - g.x i) := div_nonneg (by linarith) hx.le
  have qx : 0 ≤ (x - g.x i) / (g.x (i + 1) - g.x i) := div_nonneg (by linarith) hx.le
  have py : 0 ≤ (g.y (j + 1) - y) / (g.y (j + 1) - g.y j) := div_nonneg (by linarith) hy.le
  have qy : 0 ≤ (y - g.y j) / (g.y (j + 1) - g.y j) := div_nonneg (by linarith) hy.le
  generalize (g.x (i + 1) - x) / (g.x (i + 1) - g.x i) = P at *
  generalize (x - g.x i) / (g.x (i + 1) - g.x i) = Q at *
  generalize (g.y (j + 1) - y) / (g.y (j + 1) - g.y j) = R at *
  generalize (y - g.y j) / (g.y (j + 1) - g.y j) = T at *
  have conv : ∀ {p q a b : ℝ}, 0 ≤ p → 0 ≤ q → p + q = 1 → lo ≤ a ∧ a ≤ hi' → lo ≤ b ∧ b ≤ hi' → lo ≤ p * a + q * b ∧ p * a + q * b ≤ hi' := by
    intro p q a b hp hq h ha hb
    constructor
    · have e : p * lo + q * lo = lo := by rw [← add_mul, h, one_mul]
      linarith [mul_le_mul_of_nonneg_left ha.1 hp, mul_le_mul_of_nonneg_left hb.1 hq]
    · have e : p * hi' + q * hi' = hi' := by rw [← add_mul, h, one_mul]
      linarith [mul_le_mul_of_nonneg_left ha.2 hp, mul_le_mul_of_nonneg_left hb.2 hq]
  exact conv px qx ex (conv py qy ey (hf 0 (by omega) 0 (by omega)) (hf 0 (by omega) 1 le_rfl)) (conv py qy ey (hf 1 le_rfl 0 (by omega)) (hf 1 le_rfl 1 le_rfl))

/-- C95 (refutation): the mixed second derivative of the bilinear interpolator is reported as zero (the comment in the code says "2nd derivatives are always zero"), but strictly inside of a cell the derivative in y of the reported z_x is (f_uu - f_ul - f_lu + f_ll) / (dx dy), in general not zero. -/
theorem C95_refuted_bilinear_mixed (g : Nodes2) (hg : g.Ok) (fval : ℕ → ℝ) (i j : ℕ) (hi : i + 1 < g.nx) (hj : j + 1 < g.ny) (x y : ℝ)
    (h0 : g.x i < x) (h1 : x < g.x (i + 1)) (h2 : g.y j < y) (h3 : y < g.y (j + 1)) :
    (LinearInterpolator2d.evalDeriv g fval x y).2 = (0, 0, 0) ∧
    ∃ Zx : ℝ → ℝ, (∀ y', g.y j < y' → y' < g.y (j + 1) → ∃ z zy, (LinearInterpolator2d.evalDeriv g fval x y').1 = some (z, Zx y', zy)) ∧
      HasDerivAt Zx ((fval ((i + 1) * g.ny + (j + 1)) - fval ((i + 1) * g.ny + j) - fval (i * g.ny + (j + 1)) + fval (i * g.ny + j)) /
        ((g.x (i + 1) - g.x i) * (g.y (j + 1) - g.y j))) y := by
  have key : ∀ y', g.y j < y' → y' < g.y (j + 1) → _ := fun y' a b =>
    bilin_inside hg fval (inside_of_cell hg hi hj h0.le h1.le a.le b.le) hi hj (bin_strict hg.gx hg.nx2 hi h0 h1) (bin_strict hg.gy hg.ny2 hj a b)
  refine ⟨by rw [key y h2 h3], _, fun y' a b => ⟨_, _, by rw [key y' a b]⟩, ?_⟩
  exact ((affine_deriv _ _ _ _ _ y).div_const _).congr_deriv (by
    have hx : g.x (i + 1) - g.x i ≠ 0 := sub_ne_zero.2 (hg.gx _ _ (by omega) hi).ne'
    have hy : g.y (j + 1) - g.y j ≠ 0 := sub_ne_zero.2 (hg.gy _ _ (by omega) hj).ne'
    field_simp; ring)

/-- Non-vacuity: nodes 0, 1, 2 and 0, 1; the values x*y at the nodes are not those of a linear function, and the mixed derivative in a cell is 1. -/
example : (⟨fun i => i, 3, fun j => j, 2⟩ : Nodes2).Ok ∧ (⟨fun i => i, 3, fun j => j, 2⟩ : Nodes2).Inside 1.5 0.5 ∧ ¬(⟨fun i => i, 3, fun j => j, 2⟩ : Nodes2).Inside 1.5 1.5 ∧
    (fun n : ℕ => ((n / 2 : ℕ) : ℝ) * ((n % 2 : ℕ) : ℝ)) ((1 + 1) * 2 + (0 + 1)) - (fun n : ℕ => ((n / 2 : ℕ) : ℝ) * ((n % 2 : ℕ) : ℝ)) ((1 + 1) * 2 + 0) -
      (fun n : ℕ => ((n / 2 : ℕ) : ℝ) * ((n % 2 : ℕ) : ℝ)) (1 * 2 + (0 + 1)) + (fun n : ℕ => ((n / 2 : ℕ) : ℝ) * ((n % 2 : ℕ) : ℝ)) (1 * 2 + 0) = 1 := by
  refine ⟨⟨fun i j h _ => by simpa using h, fun i j h _ => by simpa using h, by simp, by simp⟩, by norm_num [Nodes2.Inside], by norm_num [Nodes2.Inside], by norm_num⟩

end

end Verif.Spline
