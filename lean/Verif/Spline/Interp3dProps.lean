import Verif.Spline.Interp2dProps

/-! C95: evaluation of the three-dimensional interpolators. -/

namespace Verif.Spline

open Verif.BSpline (Grid)

noncomputable section

/-- the closed box spanned by the nodes -/
def Nodes3.Inside (g : Nodes3) (x y z : ℝ) : Prop :=
  (g.x 0 ≤ x ∧ x ≤ g.x (g.nx - 1)) ∧ (g.y 0 ≤ y ∧ y ≤ g.y (g.ny - 1)) ∧ (g.z 0 ≤ z ∧ z ≤ g.z (g.nz - 1))

/-- strictly increasing nodes, at least two in each direction (the checks of the constructors, math_spline.cpp:2631-2637, 2697-2702) -/
structure Nodes3.Ok (g : Nodes3) : Prop where
  gx : Grid g.x g.nx
  gy : Grid g.y g.ny
  gz : Grid g.z g.nz
  nx2 : 2 ≤ g.nx
  ny2 : 2 ≤ g.ny
  nz2 : 2 ≤ g.nz

/-- index of the node (i, j, k) in the flattened arrays -/
def Nodes3.idx (g : Nodes3) (i j k : ℕ) : ℕ := (i * g.ny + j) * g.nz + k

theorem off3_iff {g : Nodes3} (hg : g.Ok) (x y z : ℝ) : g.off (bin g.x g.nx x) (bin g.y g.ny y) (bin g.z g.nz z) ↔ ¬g.Inside x y z := by
  rw [Nodes3.off, Nodes3.Inside]
  have hx := bin_out hg.gx hg.nx2 x
  have hy := bin_out hg.gy hg.ny2 y
  have hz := bin_out hg.gz hg.nz2 z
  have e : ∀ A B C : Prop, ¬(A ∧ B ∧ C) ↔ ¬A ∨ ¬B ∨ ¬C := fun A B C => by simp only [not_and_or]
  rw [e, ← hx, ← hy, ← hz]
  simp only [or_assoc]

variable {X Y Z : (ℕ → ℕ → ℝ) → ℝ → Jet3} {xs ys zs : ℕ → ℝ} {nx ny nz mx my mz : ℕ}

theorem Fam.node (hX : Fam xs nx mx X) (D : ℕ → ℕ → ℝ) {r : ℕ} (hr : r ≤ 1) {i : ℕ} (hi : i < nx) : (X D (xs i)).get r = D r i := by
  rcases (by omega : r = 0 ∨ r = 1) with rfl | rfl
  · exact hX.nodeVal D i hi
  · exact hX.nodeDer D i hi

/-- nested evaluation: first in x, then in y, then in z -/
def nest3 (X Y Z : (ℕ → ℕ → ℝ) → ℝ → Jet3) (D : ℕ → ℕ → ℕ → ℕ → ℕ → ℕ → ℝ) (r s t : ℕ) (x y z : ℝ) : ℝ :=
  (Z (fun c k => (Y (fun b j => (X (fun a i => D a b c i j k) x).get r) y).get s) z).get t

theorem nest3_eq (hX : Fam xs nx mx X) (hY : Fam ys ny my Y) (hZ : Fam zs nz mz Z) (D : ℕ → ℕ → ℕ → ℕ → ℕ → ℕ → ℝ) (r s t : ℕ) (x y z : ℝ) :
    nest3 X Y Z D r s t x y z = ∑ c ∈ Finset.range mz, ∑ k ∈ Finset.range nz, ∑ b ∈ Finset.range my, ∑ j ∈ Finset.range ny, ∑ a ∈ Finset.range mx, ∑ i ∈ Finset.range nx,
      D a b c i j k * (X (delta a i) x).get r * (Y (delta b j) y).get s * (Z (delta c k) z).get t := by
  rw [nest3, hZ.lin]
  refine Finset.sum_congr rfl fun c _ => Finset.sum_congr rfl fun k _ => ?_
  rw [hY.lin, Finset.sum_mul]
  refine Finset.sum_congr rfl fun b _ => ?_
  rw [Finset.sum_mul]
  refine Finset.sum_congr rfl fun j _ => ?_
  rw [hX.lin, Finset.sum_mul, Finset.sum_mul]
  refine Finset.sum_congr rfl fun a _ => ?_
  rw [Finset.sum_mul, Finset.sum_mul]

theorem nest3_node (hX : Fam xs nx mx X) (hY : Fam ys ny my Y) (hZ : Fam zs nz mz Z) (D : ℕ → ℕ → ℕ → ℕ → ℕ → ℕ → ℝ) {r s t : ℕ} (hr : r ≤ 1) (hs : s ≤ 1) (ht : t ≤ 1)
    {i j k : ℕ} (hi : i < nx) (hj : j < ny) (hk : k < nz) : nest3 X Y Z D r s t (xs i) (ys j) (zs k) = D r s t i j k := by
  rw [nest3, hZ.node _ ht hk, hY.node _ hs hj, hX.node _ hr hi]

theorem nest3_continuous (hX : Fam xs nx mx X) (hY : Fam ys ny my Y) (hZ : Fam zs nz mz Z) (D : ℕ → ℕ → ℕ → ℕ → ℕ → ℕ → ℝ) {r s t : ℕ} (hr : r ≤ 1) (hs : s ≤ 1) (ht : t ≤ 1) :
    Continuous fun p : ℝ × ℝ × ℝ => nest3 X Y Z D r s t p.1 p.2.1 p.2.2 := by
  simp only [nest3_eq hX hY hZ]
  refine continuous_finsetSum _ fun c _ => continuous_finsetSum _ fun k _ => continuous_finsetSum _ fun b _ => continuous_finsetSum _ fun j _ =>
    continuous_finsetSum _ fun a _ => continuous_finsetSum _ fun i _ => ?_
  exact ((continuous_const.mul ((hX.cont_get _ hr).comp continuous_fst)).mul ((hY.cont_get _ hs).comp (continuous_fst.comp continuous_snd))).mul
    ((hZ.cont_get _ ht).comp (continuous_snd.comp continuous_snd))

theorem nest3_dx (hX : Fam xs nx mx X) (hY : Fam ys ny my Y) (hZ : Fam zs nz mz Z) (D : ℕ → ℕ → ℕ → ℕ → ℕ → ℕ → ℝ) (s t : ℕ) (x y z : ℝ) :
    HasDerivAt (fun x => nest3 X Y Z D 0 s t x y z) (nest3 X Y Z D 1 s t x y z) x := by
  simp only [nest3_eq hX hY hZ]
  refine HasDerivAt.fun_sum fun c _ => HasDerivAt.fun_sum fun k _ => HasDerivAt.fun_sum fun b _ => HasDerivAt.fun_sum fun j _ => HasDerivAt.fun_sum fun a _ => HasDerivAt.fun_sum fun i _ => ?_
  exact (((hX.der (delta a i) x).const_mul _).mul_const _).mul_const _

theorem nest3_dy (hX : Fam xs nx mx X) (hY : Fam ys ny my Y) (hZ : Fam zs nz mz Z) (D : ℕ → ℕ → ℕ → ℕ → ℕ → ℕ → ℝ) (r t : ℕ) (x y z : ℝ) :
    HasDerivAt (fun y => nest3 X Y Z D r 0 t x y z) (nest3 X Y Z D r 1 t x y z) y := by
  simp only [nest3_eq hX hY hZ]
  refine HasDerivAt.fun_sum fun c _ => HasDerivAt.fun_sum fun k _ => HasDerivAt.fun_sum fun b _ => HasDerivAt.fun_sum fun j _ => HasDerivAt.fun_sum fun a _ => HasDerivAt.fun_sum fun i _ => ?_
  exact ((hY.der (delta b j) y).const_mul _).mul_const _

theorem nest3_dz (hZ : Fam zs nz mz Z) (D : ℕ → ℕ → ℕ → ℕ → ℕ → ℕ → ℝ) (r s : ℕ) (x y z : ℝ) :
    HasDerivAt (fun z => nest3 X Y Z D r s 0 x y z) (nest3 X Y Z D r s 1 x y z) z := hZ.der _ z

/-- node data of the three-dimensional spline -/
def dat33 (g : Nodes3) (d : Data3) (a b c i j k : ℕ) : ℝ :=
  (if a = 0 then (if b = 0 then (if c = 0 then d.f else d.fz) else (if c = 0 then d.fy else d.fyz))
   else (if b = 0 then (if c = 0 then d.fx else d.fxz) else (if c = 0 then d.fxy else d.fxyz))) (g.idx i j k)

theorem cubic3d_inside {g : Nodes3} (hg : g.Ok) (d : Data3) {x y z : ℝ} (h : g.Inside x y z) :
    CubicSpline3d.value g d x y z = some (nest3 (cubicE g.x g.nx) (cubicE g.y g.ny) (cubicE g.z g.nz) (dat33 g d) 0 0 0 x y z) := by
  obtain ⟨k, hk, _, _, _, hb⟩ := bin_in hg.gx hg.nx2 h.1.1 h.1.2
  obtain ⟨l, hl, _, _, _, hc⟩ := bin_in hg.gy hg.ny2 h.2.1.1 h.2.1.2
  obtain ⟨m, hm, _, _, _, hd⟩ := bin_in hg.gz hg.nz2 h.2.2.1 h.2.2.2
  have ho : ¬ g.off (bin g.x g.nx x) (bin g.y g.ny y) (bin g.z g.nz z) := by rw [off3_iff hg]; exact not_not.2 h
  simp only [CubicSpline3d.value]
  rw [if_neg ho]
  have e0 : (k * g.ny + l) * g.nz + m = g.idx k l m := rfl
  have e1 : g.idx k l m + 1 = g.idx k l (m + 1) := rfl
  have e2 : g.idx k l m + g.nz = g.idx k (l + 1) m := by simp only [Nodes3.idx]; ring
  have e3 : g.idx k (l + 1) m + 1 = g.idx k (l + 1) (m + 1) := rfl
  have e4 : g.idx k l m + g.ny * g.nz = g.idx (k + 1) l m := by simp only [Nodes3.idx]; ring
  have e5 : g.idx (k + 1) l m + 1 = g.idx (k + 1) l (m + 1) := rfl
  have e6 : g.idx (k + 1) l m + g.nz = g.idx (k + 1) (l + 1) m := by simp only [Nodes3.idx]; ring
  have e7 : g.idx (k + 1) (l + 1) m + 1 = g.idx (k + 1) (l + 1) (m + 1) := rfl
  simp only [hb, hc, hd, Int.toNat_natCast, nest3, Jet3.get_zero, cubicE_in _ x hk hb, cubicE_in _ y hl hc, cubicE_in _ z hm hd, dat33, if_true, one_ne_zero, if_false,
    e0, e1, e2, e3, e4, e5, e6, e7]
  simp

/-- C95: for any node data of a three-dimensional cubic spline there is a function F on the whole space with continuous derivatives F_x, F_y, F_z; at the nodes, it and its derivatives (including the mixed ones) have the given values; the spline reports F in the closed box spanned by the nodes, and NaN outside. -/
theorem C95_cubic3d (g : Nodes3) (hg : g.Ok) (d : Data3) : ∃ F : ℕ → ℕ → ℕ → ℝ → ℝ → ℝ → ℝ,
    (∀ x y z, g.Inside x y z → CubicSpline3d.value g d x y z = some (F 0 0 0 x y z)) ∧
    (∀ x y z, ¬g.Inside x y z → CubicSpline3d.value g d x y z = none) ∧
    (∀ a ≤ 1, ∀ b ≤ 1, ∀ c ≤ 1, Continuous fun p : ℝ × ℝ × ℝ => F a b c p.1 p.2.1 p.2.2) ∧
    (∀ b c x y z, HasDerivAt (fun x => F 0 b c x y z) (F 1 b c x y z) x) ∧
    (∀ a c x y z, HasDerivAt (fun y => F a 0 c x y z) (F a 1 c x y z) y) ∧
    (∀ a b x y z, HasDerivAt (fun z => F a b 0 x y z) (F a b 1 x y z) z) ∧
    (∀ i < g.nx, ∀ j < g.ny, ∀ k < g.nz, F 0 0 0 (g.x i) (g.y j) (g.z k) = d.f (g.idx i j k) ∧
      F 1 0 0 (g.x i) (g.y j) (g.z k) = d.fx (g.idx i j k) ∧ F 0 1 0 (g.x i) (g.y j) (g.z k) = d.fy (g.idx i j k) ∧ F 0 0 1 (g.x i) (g.y j) (g.z k) = d.fz (g.idx i j k) ∧
      F 1 1 0 (g.x i) (g.y j) (g.z k) = d.fxy (g.idx i j k) ∧ F 1 0 1 (g.x i) (g.y j) (g.z k) = d.fxz (g.idx i j k) ∧
      F 0 1 1 (g.x i) (g.y j) (g.z k) = d.fyz (g.idx i j k) ∧ F 1 1 1 (g.x i) (g.y j) (g.z k) = d.fxyz (g.idx i j k)) := by
  have hX := cubic_fam hg.gx hg.nx2
  have hY := cubic_fam hg.gy hg.ny2
  have hZ := cubic_fam hg.gz hg.nz2
  refine ⟨_, fun x y z h => cubic3d_inside hg d h, fun x y z h => ?_, fun a ha b hb c hc => nest3_continuous hX hY hZ _ ha hb hc,
    fun b c x y z => nest3_dx hX hY hZ _ b c x y z, fun a c x y z => nest3_dy hX hY hZ _ a c x y z, fun a b x y z => nest3_dz hZ _ a b x y z, fun i hi j hj k hk => ?_⟩
  · simp only [CubicSpline3d.value]
    rw [if_pos ((off3_iff hg x y z).2 h)]
  · refine ⟨?_, ?_, ?_, ?_, ?_, ?_, ?_, ?_⟩ <;> (rw [nest3_node hX hY hZ _ (by omega) (by omega) (by omega) hi hj hk]; simp [dat33])

/-- derivatives of order r, s, t of the polynomial ∑ c k l m x^k y^l z^m of degree at most 3 in each variable -/
def poly3 (c : ℕ → ℕ → ℕ → ℝ) (r s t : ℕ) (x y z : ℝ) : ℝ :=
  ∑ k ∈ Finset.range 4, ∑ l ∈ Finset.range 4, ∑ m ∈ Finset.range 4, c k l m * dpow r k x * dpow s l y * dpow t m z

theorem cubicE_poly {xs : ℕ → ℝ} {n : ℕ} {t : ℝ} (h1 : Grid xs n) (h2 : 2 ≤ n) (h3 : xs 0 ≤ t) (h4 : t ≤ xs (n - 1)) (c : ℕ → ℝ) (D : ℕ → ℕ → ℝ)
    (hD : ∀ a < 2, ∀ i < n, D a i = ∑ k ∈ Finset.range 4, c k * dpow a k (xs i)) (r : ℕ) : (cubicE xs n D t).get r = ∑ k ∈ Finset.range 4, c k * dpow r k t := by
  obtain ⟨k, hk, _, _, _, hb⟩ := bin_in h1 h2 h3 h4
  have e : cubicE xs n D t = cubicE xs n (fun a i => (polyJet c 3 (xs i)).get a) t := by
    rw [cubicE_in D t hk hb, cubicE_in _ t hk hb]
    simp only [polyJet_get]
    rw [hD 0 (by omega) k (by omega), hD 0 (by omega) (k + 1) hk, hD 1 (by omega) k (by omega), hD 1 (by omega) (k + 1) hk]
  rw [e, cubicE]
  simp only [Jet3.get_zero, Jet3.get_one]
  rw [C69_cubic_exact xs n h1 h2 c t h3 h4, Option.getD_some, polyJet_get]

/-- C95: if the node data are the values and derivatives of a polynomial of degree at most 3 in each variable, the three-dimensional cubic spline reproduces it in the whole box. -/
theorem C95_cubic3d_exact (g : Nodes3) (hg : g.Ok) (d : Data3) (c : ℕ → ℕ → ℕ → ℝ)
    (h : ∀ i < g.nx, ∀ j < g.ny, ∀ k < g.nz, d.f (g.idx i j k) = poly3 c 0 0 0 (g.x i) (g.y j) (g.z k) ∧
      d.fx (g.idx i j k) = poly3 c 1 0 0 (g.x i) (g.y j) (g.z k) ∧ d.fy (g.idx i j k) = poly3 c 0 1 0 (g.x i) (g.y j) (g.z k) ∧ d.fz (g.idx i j k) = poly3 c 0 0 1 (g.x i) (g.y j) (g.z k) ∧
      d.fxy (g.idx i j k) = poly3 c 1 1 0 (g.x i) (g.y j) (g.z k) ∧ d.fxz (g.idx i j k) = poly3 c 1 0 1 (g.x i) (g.y j) (g.z k) ∧
      d.fyz (g.idx i j k) = poly3 c 0 1 1 (g.x i) (g.y j) (g.z k) ∧ d.fxyz (g.idx i j k) = poly3 c 1 1 1 (g.x i) (g.y j) (g.z k))
    (x y z : ℝ) (hin : g.Inside x y z) : CubicSpline3d.value g d x y z = some (poly3 c 0 0 0 x y z) := by
  rw [cubic3d_inside hg d hin, nest3]
  have hD : ∀ a < 2, ∀ b < 2, ∀ e < 2, ∀ i < g.nx, ∀ j < g.ny, ∀ k < g.nz, dat33 g d a b e i j k = poly3 c a b e (g.x i) (g.y j) (g.z k) := by
    intro a ha b hb e he i hi j hj k hk
    have := h i hi j hj k hk
    rcases (by omega : a = 0 ∨ a = 1) with rfl | rfl <;> rcases (by omega : b = 0 ∨ b = 1) with rfl | rfl <;> rcases (by omega : e = 0 ∨ e = 1) with rfl | rfl <;> simp [dat33, this]
  rw [cubicE_poly hg.gz hg.nz2 hin.2.2.1 hin.2.2.2 (fun m => ∑ l ∈ Finset.range 4, (∑ k ∈ Finset.range 4, c k l m * dpow 0 k x) * dpow 0 l y)]
  · rw [poly3]
    congr 1
    simp only [Finset.sum_mul]
    rw [Finset.sum_comm]
    rw [Finset.sum_congr rfl fun l _ => Finset.sum_comm, Finset.sum_comm]
  · intro e he k hk
    rw [cubicE_poly hg.gy hg.ny2 hin.2.1.1 hin.2.1.2 (fun l => ∑ m ∈ Finset.range 4, (∑ k ∈ Finset.range 4, c k l m * dpow 0 k x) * dpow e m (g.z k))]
    · simp only [Finset.sum_mul]
      rw [Finset.sum_comm]
      refine Finset.sum_congr rfl fun m _ => Finset.sum_congr rfl fun l _ => Finset.sum_congr rfl fun k _ => by ring
    · intro b hb j hj
      rw [cubicE_poly hg.gx hg.nx2 hin.1.1 hin.1.2 (fun k' => ∑ l ∈ Finset.range 4, ∑ m ∈ Finset.range 4, c k' l m * dpow b l (g.y j) * dpow e m (g.z k))]
      · simp only [Finset.sum_mul]
        rw [Finset.sum_comm]
        refine Finset.sum_congr rfl fun l _ => ?_
        rw [Finset.sum_comm]
        exact Finset.sum_congr rfl fun m _ => Finset.sum_congr rfl fun k _ => by ring
      · intro a ha i hi
        rw [hD a ha b hb e he i hi j hj k hk, poly3]
        simp only [Finset.sum_mul]
        exact Finset.sum_congr rfl fun k _ => Finset.sum_congr rfl fun l _ => Finset.sum_congr rfl fun m _ => by ring

/-! ### trilinear interpolation -/

def trilin (g : Nodes3) (fval : ℕ → ℝ) (x y z : ℝ) : ℝ :=
  (linearE g.x g.nx (fun _ i => (linearE g.y g.ny (fun _ j => (linearE g.z g.nz (fun _ k => fval (g.idx i j k)) z).val) y).val) x).val

theorem trilin_inside {g : Nodes3} (hg : g.Ok) (fval : ℕ → ℝ) {x y z : ℝ} (h : g.Inside x y z) :
    LinearInterpolator3d.value g fval x y z = some (trilin g fval x y z) := by
  obtain ⟨k, hk, _, _, _, hb⟩ := bin_in hg.gx hg.nx2 h.1.1 h.1.2
  obtain ⟨l, hl, _, _, _, hc⟩ := bin_in hg.gy hg.ny2 h.2.1.1 h.2.1.2
  obtain ⟨m, hm, _, _, _, hd⟩ := bin_in hg.gz hg.nz2 h.2.2.1 h.2.2.2
  have ho : ¬ g.off (bin g.x g.nx x) (bin g.y g.ny y) (bin g.z g.nz z) := by rw [off3_iff hg]; exact not_not.2 h
  simp only [LinearInterpolator3d.value]
  rw [if_neg ho]
  have hx : g.x (k + 1) - g.x k ≠ 0 := sub_ne_zero.2 (hg.gx _ _ (by omega) hk).ne'
  have hy : g.y (l + 1) - g.y l ≠ 0 := sub_ne_zero.2 (hg.gy _ _ (by omega) hl).ne'
  have hz : g.z (m + 1) - g.z m ≠ 0 := sub_ne_zero.2 (hg.gz _ _ (by omega) hm).ne'
  have e0 : (k * g.ny + l) * g.nz + m = g.idx k l m := rfl
  have e1 : g.idx k l m + 1 = g.idx k l (m + 1) := rfl
  have e2 : g.idx k l m + g.nz = g.idx k (l + 1) m := by simp only [Nodes3.idx]; ring
  have e3 : g.idx k (l + 1) m + 1 = g.idx k (l + 1) (m + 1) := rfl
  have e4 : g.idx k l m + g.ny * g.nz = g.idx (k + 1) l m := by simp only [Nodes3.idx]; ring
  have e5 : g.idx (k + 1) l m + 1 = g.idx (k + 1) l (m + 1) := rfl
  have e6 : g.idx (k + 1) l m + g.nz = g.idx (k + 1) (l + 1) m := by simp only [Nodes3.idx]; ring
  have e7 : g.idx (k + 1) (l + 1) m + 1 = g.idx (k + 1) (l + 1) (m + 1) := rfl
  simp only [hb, hc, hd, Int.toNat_natCast, e0, e1, e2, e3, e4, e5, e6, e7, trilin, linearE_in _ x hk hb, linearE_in _ y hl hc, linearE_in _ z hm hd]
  congr 1
  have key : ∀ t a b fl fh : ℝ, b - a ≠ 0 → Verif.Core.linearInterp t a b fl fh = (1 - (t - a) / (b - a)) * fl + (t - a) / (b - a) * fh := by
    intro t a b fl fh h
    rw [Verif.Core.linearInterp]; field_simp; ring
  simp only [key _ _ _ _ _ hx, key _ _ _ _ _ hy, key _ _ _ _ _ hz]
  ring

theorem trilin_cont {g : Nodes3} (hg : g.Ok) (fval : ℕ → ℝ) : Continuous fun p : ℝ × ℝ × ℝ => trilin g fval p.1 p.2.1 p.2.2 := by
  have e : (fun p : ℝ × ℝ × ℝ => trilin g fval p.1 p.2.1 p.2.2) = fun p : ℝ × ℝ × ℝ => ∑ i ∈ Finset.range g.nx, (∑ j ∈ Finset.range g.ny,
      (linearE g.z g.nz (fun _ k => fval (g.idx i j k)) p.2.2).val * (linearE g.y g.ny (delta 0 j) p.2.1).val) * (linearE g.x g.nx (delta 0 i) p.1).val := by
    funext p
    rw [trilin, linear_lin hg.gx hg.nx2]
    exact Finset.sum_congr rfl fun i _ => by rw [linear_lin hg.gy hg.ny2]
  rw [e]
  refine continuous_finsetSum _ fun i _ => (continuous_finsetSum _ fun j _ => ?_).mul ((linear_cont hg.gx hg.nx2 _).comp continuous_fst)
  exact ((linear_cont hg.gz hg.nz2 _).comp (continuous_snd.comp continuous_snd)).mul ((linear_cont hg.gy hg.ny2 _).comp (continuous_fst.comp continuous_snd))

/-- C95: trilinear interpolation. There is a function continuous in the whole space, with the given values at the nodes, which is the value reported in the closed box (NaN outside); in each cell it is the trilinear function with the given corner values. -/
theorem C95_trilinear (g : Nodes3) (hg : g.Ok) (fval : ℕ → ℝ) : ∃ S : ℝ → ℝ → ℝ → ℝ, (Continuous fun p : ℝ × ℝ × ℝ => S p.1 p.2.1 p.2.2) ∧
    (∀ x y z, g.Inside x y z → LinearInterpolator3d.value g fval x y z = some (S x y z)) ∧
    (∀ x y z, ¬g.Inside x y z → LinearInterpolator3d.value g fval x y z = none) ∧
    (∀ i < g.nx, ∀ j < g.ny, ∀ k < g.nz, S (g.x i) (g.y j) (g.z k) = fval (g.idx i j k)) ∧
    (∀ i j k, i + 1 < g.nx → j + 1 < g.ny → k + 1 < g.nz → ∃ c : ℕ → ℕ → ℕ → ℝ, ∀ x y z, g.x i ≤ x → x ≤ g.x (i + 1) → g.y j ≤ y → y ≤ g.y (j + 1) → g.z k ≤ z → z ≤ g.z (k + 1) →
      S x y z = ∑ p ∈ Finset.range 2, ∑ q ∈ Finset.range 2, ∑ r ∈ Finset.range 2, c p q r * x ^ p * y ^ q * z ^ r) ∧
    (∀ i j k, i + 1 < g.nx → j + 1 < g.ny → k + 1 < g.nz → ∀ lo hi : ℝ,
      (∀ a ≤ 1, ∀ b ≤ 1, ∀ c ≤ 1, lo ≤ fval (g.idx (i + a) (j + b) (k + c)) ∧ fval (g.idx (i + a) (j + b) (k + c)) ≤ hi) →
      ∀ x y z, g.x i ≤ x → x ≤ g.x (i + 1) → g.y j ≤ y → y ≤ g.y (j + 1) → g.z k ≤ z → z ≤ g.z (k + 1) → lo ≤ S x y z ∧ S x y z ≤ hi) := by
  refine ⟨trilin g fval, trilin_cont hg fval, fun x y z h => trilin_inside hg fval h, fun x y z h => ?_, fun i hi j hj k hk => ?_, ?_, ?_⟩
  · simp only [LinearInterpolator3d.value]
    rw [if_pos ((off3_iff hg x y z).2 h)]
  · rw [trilin, linear_node hg.gx hg.nx2 _ hi, linear_node hg.gy hg.ny2 _ hj, linear_node hg.gz hg.nz2 _ hk]
  · intro i j k hi hj hk
    let u (x : ℕ → ℝ) (i p a : ℕ) : ℝ := (if p = 0 then (if a = 0 then x (i + 1) else - x i) else (if a = 0 then -1 else 1)) / (x (i + 1) - x i)
    refine ⟨fun p q r => ∑ a ∈ Finset.range 2, ∑ b ∈ Finset.range 2, ∑ c ∈ Finset.range 2, u g.x i p a * u g.y j q b * u g.z k r c * fval (g.idx (i + a) (j + b) (k + c)), ?_⟩
    intro x y z h0 h1 h2 h3 h4 h5
    rw [trilin, linear_cell hg.gx hg.nx2 _ hi h0 h1, linear_cell hg.gy hg.ny2 _ hj h2 h3, linear_cell hg.gz hg.nz2 _ hk h4 h5, linear_cell hg.gy hg.ny2 _ hj h2 h3, linear_cell hg.gz hg.nz2 _ hk h4 h5, linear_cell hg.gz hg.nz2 _ hk h4 h5, linear_cell hg.gz hg.nz2 _ hk h4 h5]
    simp only [Finset.sum_range_succ, Finset.sum_range_zero, u, if_true, one_ne_zero, if_false, add_zero]
    ring
  · intro i j k hi hj hk lo up hf x y z h0 h1 h2 h3 h4 h5
    have conv : ∀ {p q a b : ℝ}, 0 ≤ p → 0 ≤ q → p + q = 1 → lo ≤ a ∧ a ≤ up → lo ≤ b ∧ b ≤ up → lo ≤ p * a + q * b ∧ p * a + q * b ≤ up := by
      intro p q a b hp hq h ha hb
      constructor
      · have e : p * lo + q * lo = lo := by rw [← add_mul, h, one_mul]
        linarith [mul_le_mul_of_nonneg_left ha.1 hp, mul_le_mul_of_nonneg_left hb.1 hq]
      · have e : p * up + q * up = up := by rw [← add_mul, h, one_mul]
        linarith [mul_le_mul_of_nonneg_left ha.2 hp, mul_le_mul_of_nonneg_left hb.2 hq]
    have step : ∀ {xs : ℕ → ℝ} {n : ℕ}, Grid xs n → 2 ≤ n → ∀ {i : ℕ}, i + 1 < n → ∀ {t : ℝ}, xs i ≤ t → t ≤ xs (i + 1) → ∀ D : ℕ → ℕ → ℝ, (∀ a ≤ 1, lo ≤ D 0 (i + a) ∧ D 0 (i + a) ≤ up) →
        lo ≤ (linearE xs n D t).val ∧ (linearE xs n D t).val ≤ up := by
      intro xs n hG hn i hi t ha hb D hD
      rw [linear_cell hG hn D hi ha hb]
      have hx : 0 < xs (i + 1) - xs i := sub_pos.2 (hG _ _ (by omega) hi)
      exact conv (div_nonneg (by linarith) hx.le) (div_nonneg (by linarith) hx.le) (by field_simp; ring) (hD 0 (by omega)) (hD 1 le_rfl)
    exact step hg.gx hg.nx2 hi h0 h1 _ fun a ha => step hg.gy hg.ny2 hj h2 h3 _ fun b hb => step hg.gz hg.nz2 hk h4 h5 _ fun c hc => hf a ha b hb c hc

/-- Non-vacuity: a box of 3*2*2 nodes; the index runs through the flattened array in the order of the nodes. -/
example : (⟨fun i => i, 3, fun j => j, 2, fun k => k, 2⟩ : Nodes3).Ok ∧ (⟨fun i => i, 3, fun j => j, 2, fun k => k, 2⟩ : Nodes3).Inside 1.5 0.5 1 ∧
    ¬(⟨fun i => i, 3, fun j => j, 2, fun k => k, 2⟩ : Nodes3).Inside 1.5 0.5 1.5 ∧ (⟨fun i => i, 3, fun j => j, 2, fun k => k, 2⟩ : Nodes3).idx 2 1 1 = 11 := by
  refine ⟨⟨fun i j h _ => by simpa using h, fun i j h _ => by simpa using h, fun i j h _ => by simpa using h, by simp, by simp, by simp⟩, by norm_num [Nodes3.Inside], by norm_num [Nodes3.Inside], by norm_num [Nodes3.idx]⟩

end

end Verif.Spline
