import Verif.Spline.Interp2dProps

/-! C96: construction of the two-dimensional cubic spline. -/

namespace Verif.Spline

open Verif.BSpline (Grid)

noncomputable section

/-! ### linear combinations of splines -/

theorem curvL_get (x f d : ℕ → ℝ) (i : ℕ) : curvL x f d i = (evalCubic (x i) (x i) (x (i + 1)) (f i) (f (i + 1)) (d i) (d (i + 1))).get 2 := by
  rw [curvL]; rfl
theorem curvR_get (x f d : ℕ → ℝ) (i : ℕ) : curvR x f d i = (evalCubic (x (i + 1)) (x i) (x (i + 1)) (f i) (f (i + 1)) (d i) (d (i + 1))).get 2 := by
  rw [curvR]; rfl

theorem curv_sum {ι : Type} (J : Finset ι) (c : ι → ℝ) (x : ℕ → ℝ) (f d : ι → ℕ → ℝ) (i : ℕ) :
    curvL x (fun i => ∑ j ∈ J, c j * f j i) (fun i => ∑ j ∈ J, c j * d j i) i = ∑ j ∈ J, c j * curvL x (f j) (d j) i ∧
    curvR x (fun i => ∑ j ∈ J, c j * f j i) (fun i => ∑ j ∈ J, c j * d j i) i = ∑ j ∈ J, c j * curvR x (f j) (d j) i := by
  simp only [curvL_get, curvR_get]
  constructor
  · rw [evalCubic_lin]
    simp only [Finset.sum_mul, ← Finset.sum_add_distrib]
    exact Finset.sum_congr rfl fun j _ => by rw [evalCubic_lin _ _ _ (f j i)]; ring
  · rw [evalCubic_lin]
    simp only [Finset.sum_mul, ← Finset.sum_add_distrib]
    exact Finset.sum_congr rfl fun j _ => by rw [evalCubic_lin _ _ _ (f j i)]; ring

theorem smooth_sum {ι : Type} (J : Finset ι) (c : ι → ℝ) {x : ℕ → ℝ} {n : ℕ} (f d : ι → ℕ → ℝ) (dl dr : Option ℝ) (l r : ι → ℝ)
    (h : ∀ j ∈ J, Smooth x (f j) (d j) n (dl.map fun _ => l j) (dr.map fun _ => r j)) :
    Smooth x (fun i => ∑ j ∈ J, c j * f j i) (fun i => ∑ j ∈ J, c j * d j i) n (dl.map fun _ => ∑ j ∈ J, c j * l j) (dr.map fun _ => ∑ j ∈ J, c j * r j) where
  interior := by
    intro i hi
    rw [(curv_sum J c x f d i).2, (curv_sum J c x f d (i + 1)).1]
    exact Finset.sum_congr rfl fun j hj => by rw [(h j hj).interior i hi]
  left := by
    have := fun j hj => (h j hj).left
    rw [(curv_sum J c x f d 0).1]
    cases dl with
    | none => simp only [EndCond, Option.map_none] at this ⊢; exact Finset.sum_eq_zero fun j hj => by rw [this j hj, mul_zero]
    | some v => simp only [EndCond, Option.map_some] at this ⊢; exact Finset.sum_congr rfl fun j hj => by rw [this j hj]
  right := by
    have := fun j hj => (h j hj).right
    rw [(curv_sum J c x f d (n - 2)).2]
    cases dr with
    | none => simp only [EndCond, Option.map_none] at this ⊢; exact Finset.sum_eq_zero fun j hj => by rw [this j hj, mul_zero]
    | some v => simp only [EndCond, Option.map_some] at this ⊢; exact Finset.sum_congr rfl fun j hj => by rw [this j hj]

theorem smooth_congr {x f d f' d' : ℕ → ℝ} {n : ℕ} (hn : 2 ≤ n) {dl dr : Option ℝ} (h : Smooth x f d n dl dr) (hf : ∀ i < n, f' i = f i) (hd : ∀ i < n, d' i = d i) :
    Smooth x f' d' n dl dr := by
  have eL : ∀ i, i + 1 < n → curvL x f' d' i = curvL x f d i := by
    intro i hi; rw [curvL, curvL, hf i (by omega), hf (i + 1) hi, hd i (by omega), hd (i + 1) hi]
  have eR : ∀ i, i + 1 < n → curvR x f' d' i = curvR x f d i := by
    intro i hi; rw [curvR, curvR, hf i (by omega), hf (i + 1) hi, hd i (by omega), hd (i + 1) hi]
  exact ⟨fun i hi => by rw [eR i (by omega), eL (i + 1) (by omega)]; exact h.interior i hi,
    by rw [eL 0 (by omega), hd 0 (by omega)]; exact h.left, by rw [eR (n - 2) (by omega), hd (n - 1) (by omega)]; exact h.right⟩

theorem smooth_unique {x f d d' : ℕ → ℝ} {n : ℕ} (hg : Grid x n) (hn : 2 ≤ n) {dl dr : Option ℝ} (h : Smooth x f d n dl dr) (h' : Smooth x f d' n dl dr) : ∀ i < n, d i = d' i := by
  obtain ⟨s, _, _, hu⟩ := solve_spec hg hn f dl dr
  intro i hi; rw [hu d h i hi, hu d' h' i hi]

theorem smooth_exists {x : ℕ → ℝ} {n : ℕ} (hg : Grid x n) (hn : 2 ≤ n) (f : ℕ → ℝ) (dl dr : Option ℝ) : ∃ d, Smooth x f d n dl dr := by
  obtain ⟨s, _, h, _⟩ := solve_spec hg hn f dl dr
  exact ⟨_, h⟩

theorem curv_const (x : ℕ → ℝ) (v : ℝ) (i : ℕ) : curvL x (fun _ => v) (fun _ => 0) i = 0 ∧ curvR x (fun _ => v) (fun _ => 0) i = 0 := by
  simp only [curvL, curvR, evalCubic]
  constructor <;> simp

theorem smooth_const (x : ℕ → ℝ) (n : ℕ) (v : ℝ) (dl dr : Option ℝ) : Smooth x (fun _ => v) (fun _ => 0) n (dl.map fun _ => 0) (dr.map fun _ => 0) where
  interior := fun i _ => by rw [(curv_const x v i).2, (curv_const x v (i + 1)).1]
  left := by cases dl <;> simp [EndCond, (curv_const x v 0).1]
  right := by cases dr <;> simp [EndCond, (curv_const x v (n - 2)).2]

theorem map_zero_ends (dl dr : Option ℝ) (h : dr = dl.map (- ·)) : (dr.map fun _ => (0 : ℝ)) = (dl.map fun _ => (0 : ℝ)).map (- ·) := by
  subst h; cases dl <;> simp

theorem map_self (b : Option ℝ) : (b.map fun _ => b.getD 0) = b := by cases b <;> simp

/-- The two orders of differentiation agree: if fy are the slopes of the splines in y through f, fx the slopes of the splines in x through f, and fxy the slopes of the splines in x through fy (with zero slopes at the ends where slopes are prescribed), then fxy are also the slopes of the splines in y through fx. -/
theorem mixed_commute {g : Nodes2} (hg : g.Ok) {xmin xmax ymin ymax : Option ℝ} {f fx fy fxy : ℕ → ℕ → ℝ}
    (hy : ∀ i < g.nx, Smooth g.y (f i) (fy i) g.ny ymin ymax) (hx : ∀ j < g.ny, Smooth g.x (fun i => f i j) (fun i => fx i j) g.nx xmin xmax)
    (hxy : ∀ j < g.ny, Smooth g.x (fun i => fy i j) (fun i => fxy i j) g.nx (xmin.map fun _ => 0) (xmax.map fun _ => 0)) :
    ∀ i < g.nx, Smooth g.y (fx i) (fxy i) g.ny (ymin.map fun _ => 0) (ymax.map fun _ => 0) := by
  have hM := fun k : ℕ => smooth_exists hg.gx hg.nx2 (fun i => if i = k then (1 : ℝ) else 0) (xmin.map fun _ => 0) (xmax.map fun _ => 0)
  choose M hM using hM
  obtain ⟨c, hc⟩ := smooth_exists hg.gx hg.nx2 (fun _ => 0) xmin xmax
  have comb : ∀ v : ℕ → ℝ, Smooth g.x v (fun i => ∑ k ∈ Finset.range g.nx, v k * M k i) g.nx (xmin.map fun _ => 0) (xmax.map fun _ => 0) := by
    intro v
    have := smooth_sum (Finset.range g.nx) v (fun k i => if i = k then (1 : ℝ) else 0) M xmin xmax (fun _ => 0) (fun _ => 0) (fun k _ => hM k)
    simp only [mul_zero, Finset.sum_const_zero] at this
    refine smooth_congr hg.nx2 this (fun i hi => ?_) (fun i hi => rfl)
    simp [hi]
  have hsum0 : ∀ i < g.nx, ∑ k ∈ Finset.range g.nx, M k i = 0 := by
    intro i hi
    have := smooth_unique hg.gx hg.nx2 (comb fun _ => 1) (smooth_const g.x g.nx 1 xmin xmax) i hi
    simpa using this
  have e1 : ∀ i < g.nx, ∀ j < g.ny, fx i j = (∑ k ∈ Finset.range g.nx, f k j * M k i) + c i := by
    intro i hi j hj
    have h2 := smooth_sum (Finset.range 2) (fun _ => 1) (fun b i => if b = 0 then f i j else 0) (fun b i => if b = 0 then ∑ k ∈ Finset.range g.nx, f k j * M k i else c i) xmin xmax
      (fun b => if b = 0 then 0 else xmin.getD 0) (fun b => if b = 0 then 0 else xmax.getD 0) (n := g.nx) (x := g.x) (by
        intro b hb
        rcases (by have := Finset.mem_range.1 hb; omega : b = 0 ∨ b = 1) with rfl | rfl
        · simp only [if_true]; exact comb fun k => f k j
        · simp only [one_ne_zero, if_false, map_self]; exact hc)
    simp only [Finset.sum_range_succ, Finset.sum_range_zero, if_true, one_ne_zero, if_false, one_mul, zero_add, add_zero, map_self] at h2
    exact smooth_unique hg.gx hg.nx2 (hx j hj) h2 i hi
  have e2 : ∀ i < g.nx, ∀ j < g.ny, fxy i j = ∑ k ∈ Finset.range g.nx, fy k j * M k i := fun i hi j hj => smooth_unique hg.gx hg.nx2 (hxy j hj) (comb fun k => fy k j) i hi
  intro i hi
  have h3 := smooth_sum (Finset.range g.nx) (fun k => M k i) f fy ymin ymax (fun _ => ymin.getD 0) (fun _ => ymax.getD 0) (n := g.ny) (x := g.y) (fun k hk => by
    rw [map_self, map_self]; exact hy k (Finset.mem_range.1 hk))
  simp only [← Finset.sum_mul, hsum0 i hi, zero_mul] at h3
  have h4 := smooth_sum (Finset.range 2) (fun _ => 1) (fun b j => if b = 0 then ∑ k ∈ Finset.range g.nx, M k i * f k j else c i) (fun b j => if b = 0 then ∑ k ∈ Finset.range g.nx, M k i * fy k j else 0) ymin ymax
    (fun _ => 0) (fun _ => 0) (n := g.ny) (x := g.y) (by
      intro b hb
      rcases (by have := Finset.mem_range.1 hb; omega : b = 0 ∨ b = 1) with rfl | rfl
      · simp only [if_true]; exact h3
      · simp only [one_ne_zero, if_false]; exact smooth_const g.y g.ny (c i) ymin ymax)
  simp only [Finset.sum_range_succ, Finset.sum_range_zero, if_true, one_ne_zero, if_false, one_mul, zero_add, add_zero] at h4
  refine smooth_congr hg.ny2 h4 (fun j hj => ?_) (fun j hj => ?_)
  · rw [e1 i hi j hj]; congr 1; exact Finset.sum_congr rfl fun k _ => by ring
  · rw [e2 i hi j hj]; exact Finset.sum_congr rfl fun k _ => by ring

/-! ### the two-dimensional spline -/

theorem cubic_unity {x : ℕ → ℝ} {n : ℕ} (hg : Grid x n) (hn : 2 ≤ n) (t : ℝ) : ∑ j ∈ Finset.range n, (cubicE x n (delta 0 j) t).val = 1 := by
  have h1 : (cubicE x n (fun a _ => if a = 0 then 1 else 0) t).val = 1 := by
    rcases bin_cases hg (by omega) t with ⟨h, hb⟩ | ⟨h, hb⟩ | ⟨h, _, _⟩ | ⟨k, hk, _, _, _, hb⟩
    · rw [cubicE, CubicSpline.evalDeriv, if_neg (by omega)]
      simp only [hb]
      rw [if_pos (by norm_num)]; simp
    · rw [cubicE, CubicSpline.evalDeriv, if_neg (by omega)]
      simp only [hb]
      rw [if_neg (by omega), if_pos le_rfl]; simp
    · omega
    · rw [cubicE_in _ t hk hb]; simp [evalCubic]
  have h2 := (cubic_fam hg hn).lin (fun a _ => if a = 0 then 1 else 0) t 0
  simp only [Jet3.get_zero, Finset.sum_range_succ _ 1, Finset.sum_range_one, if_true, one_ne_zero, if_false, zero_mul, one_mul, Finset.sum_const_zero, add_zero] at h2
  rw [← h2, h1]

/-- at any y, the section of the two-dimensional spline along x is a smooth spline with the prescribed ends -/
theorem section_smooth {xs ys : ℕ → ℝ} {nx ny : ℕ} (_hgx : Grid xs nx) (hgy : Grid ys ny) (hnx : 2 ≤ nx) (hny : 2 ≤ ny) {xmin xmax : Option ℝ} (D : ℕ → ℕ → ℕ → ℕ → ℝ)
    (h0 : ∀ j < ny, Smooth xs (fun i => D 0 0 i j) (fun i => D 1 0 i j) nx xmin xmax)
    (h1 : ∀ j < ny, Smooth xs (fun i => D 0 1 i j) (fun i => D 1 1 i j) nx (xmin.map fun _ => 0) (xmax.map fun _ => 0)) (y : ℝ) :
    Smooth xs (fun i => (cubicE ys ny (fun b j => D 0 b i j) y).get 0) (fun i => (cubicE ys ny (fun b j => D 1 b i j) y).get 0) nx xmin xmax := by
  have lin := (cubic_fam hgy hny).lin
  have s0 := smooth_sum (Finset.range ny) (fun j => (cubicE ys ny (delta 0 j) y).val) (fun j i => D 0 0 i j) (fun j i => D 1 0 i j) xmin xmax (fun _ => xmin.getD 0) (fun _ => xmax.getD 0)
    (n := nx) (x := xs) (fun j hj => by rw [map_self, map_self]; exact h0 j (Finset.mem_range.1 hj))
  have s1 := smooth_sum (Finset.range ny) (fun j => (cubicE ys ny (delta 1 j) y).val) (fun j i => D 0 1 i j) (fun j i => D 1 1 i j) xmin xmax (fun _ => 0) (fun _ => 0)
    (n := nx) (x := xs) (fun j hj => h1 j (Finset.mem_range.1 hj))
  simp only [← Finset.sum_mul, cubic_unity hgy hny y, one_mul, map_self] at s0
  simp only [mul_zero, Finset.sum_const_zero] at s1
  have s2 := smooth_sum (Finset.range 2) (fun _ => 1) (fun b i => ∑ j ∈ Finset.range ny, (cubicE ys ny (delta b j) y).val * D 0 b i j)
    (fun b i => ∑ j ∈ Finset.range ny, (cubicE ys ny (delta b j) y).val * D 1 b i j) xmin xmax
    (fun b => if b = 0 then xmin.getD 0 else 0) (fun b => if b = 0 then xmax.getD 0 else 0) (n := nx) (x := xs) (by
      intro b hb
      rcases (by have := Finset.mem_range.1 hb; omega : b = 0 ∨ b = 1) with rfl | rfl
      · simp only [if_true, map_self]; exact s0
      · simp only [one_ne_zero, if_false]; exact s1)
  have hz : ∀ b : Option ℝ, (b.map fun _ => ∑ j ∈ Finset.range 2, 1 * (if j = 0 then b.getD 0 else 0)) = b := by
    intro b; simp only [Finset.sum_range_succ, Finset.sum_range_zero, if_true, one_ne_zero, if_false, one_mul, zero_add, add_zero, map_self]
  rw [hz, hz] at s2
  refine smooth_congr hnx s2 (fun i _ => ?_) (fun i _ => ?_)
  · rw [lin]; exact Finset.sum_congr rfl fun b _ => by rw [one_mul]; exact Finset.sum_congr rfl fun j _ => by rw [mul_comm]; rfl
  · rw [lin]; exact Finset.sum_congr rfl fun b _ => by rw [one_mul]; exact Finset.sum_congr rfl fun j _ => by rw [mul_comm]; rfl

theorem spline_unique {x f : ℕ → ℝ} {n : ℕ} (hg : Grid x n) (hn : 2 ≤ n) {dl dr : Option ℝ} {G H : ℝ → ℝ} (h : IsCubicSpline x f n dl dr G) (h' : IsCubicSpline x f n dl dr H)
    {t : ℝ} (h0 : x 0 ≤ t) (h1 : t ≤ x (n - 1)) : G t = H t := by
  obtain ⟨d, a1, a2⟩ := spline_slopes hg hn h
  obtain ⟨d', b1, b2⟩ := spline_slopes hg hn h'
  obtain ⟨i, hi, u, v⟩ := segment_of hg hn h0 h1
  have e := smooth_unique hg hn a1 b1
  rw [a2 i hi t u v, b2 i hi t u v, e i (by omega), e (i + 1) hi]

theorem cubicE_spline {x f d : ℕ → ℝ} {n : ℕ} {dl dr : Option ℝ} (hg : Grid x n) (hn : 2 ≤ n) (h : Smooth x f d n dl dr) (D : ℕ → ℕ → ℝ) (h0 : D 0 = f) (h1 : D 1 = d) :
    SmoothSpline x f n dl dr (cubicE x n D) := by
  obtain ⟨S, hS, hI⟩ := smooth_spline hg hn h
  have : cubicE x n D = S := by funext t; rw [cubicE, h0, h1, hS]; rfl
  rw [this]; exact hI

/-- the flattened array -/
def flat (g : Nodes2) (f : ℕ → ℕ → ℝ) (n : ℕ) : ℝ := f (n / g.ny) (n % g.ny)

theorem flat_at (g : Nodes2) (f : ℕ → ℕ → ℝ) {i j : ℕ} (hj : j < g.ny) : flat g f (i * g.ny + j) = f i j := by
  rw [flat, show (i * g.ny + j) / g.ny = i by rw [Nat.mul_comm, Nat.mul_add_div (by omega), Nat.div_eq_of_lt hj, add_zero],
    Nat.mul_add_mod_self_right, Nat.mod_eq_of_lt hj]

theorem rows_some {m : ℕ} {deriv : (ℕ → ℝ) → Option (ℕ → ℝ)} {v : ℕ → ℕ → ℝ} {P : ℕ → (ℕ → ℝ) → Prop} (h : ∀ i < m, ∃ d, deriv (v i) = some d ∧ P i d) :
    ∃ r, rows m deriv v = some r ∧ ∀ i < m, P i (r i) := by
  rw [rows, if_pos (fun i hi => by obtain ⟨d, e, _⟩ := h i hi; rw [e]; rfl)]
  refine ⟨_, rfl, fun i hi => ?_⟩
  obtain ⟨d, e, hp⟩ := h i hi
  simp only [e, Option.getD_some]; exact hp

theorem create_false {x : ℕ → ℝ} {n : ℕ} (hg : Grid x n) (hn : 2 ≤ n) (f : ℕ → ℝ) (dl dr : Option ℝ) (hs : (∀ i < n, x i = -x (n - 1 - i)) → dr = dl.map (- ·)) :
    ∃ d, CubicSpline.create x f n false dl dr = some d ∧ Smooth x f d n dl dr := by
  obtain ⟨d, e, h⟩ := construct_smooth hg hn f dl dr (fun h => hs fun i hi => (h i hi).1)
  exact ⟨d, by rw [CubicSpline.create, e]; rfl, h⟩

/-- C96: the two-dimensional cubic spline constructed from values without the regularization filter. Provided that the slopes prescribed at opposite edges do not contradict the symmetry of the nodes (for nodes symmetric with respect to 0), the construction succeeds, and the spline S is smooth in the sense of `Smooth2` with node values f and the slopes computed by the constructor. At any y, the section of S along x is a twice continuously differentiable cubic spline with the prescribed slopes (or vanishing second derivatives) at the edges, and the same for sections along y; all second derivatives are continuous functions of two variables strictly inside of the rectangle. S is the only function with these properties, so that it does not depend on the order in which the two directions are processed. -/
theorem C96_cubic (g : Nodes2) (hg : g.Ok) (f : ℕ → ℕ → ℝ) (xmin xmax ymin ymax : Option ℝ)
    (hsx : (∀ i < g.nx, g.x i = -g.x (g.nx - 1 - i)) → xmax = xmin.map (- ·)) (hsy : (∀ j < g.ny, g.y j = -g.y (g.ny - 1 - j)) → ymax = ymin.map (- ·)) :
    ∃ fx fy fxy, CubicSpline2d.create g f false xmin xmax ymin ymax = some (fx, fy, fxy) ∧ ∃ S : ℝ → ℝ → Jet2,
      (∀ x y, g.Inside x y → CubicSpline2d.evalDeriv g (flat g f) (flat g fx) (flat g fy) (flat g fxy) x y = some (S x y)) ∧
      Smooth2 g S f fx fy fxy ∧
      (∀ y, IsCubicSpline g.x (fun i => (S (g.x i) y).z) g.nx xmin xmax (fun x => (S x y).z)) ∧
      (∀ x, IsCubicSpline g.y (fun j => (S x (g.y j)).z) g.ny ymin ymax (fun y => (S x y).z)) ∧
      (∀ x y, g.x 0 < x → x < g.x (g.nx - 1) → HasDerivAt (fun x => (S x y).zx) (S x y).zxx x ∧ ContinuousAt (fun p : ℝ × ℝ => (S p.1 p.2).zxx) (x, y)) ∧
      (∀ x y, g.y 0 < y → y < g.y (g.ny - 1) → HasDerivAt (fun y => (S x y).zy) (S x y).zyy y ∧ ContinuousAt (fun p : ℝ × ℝ => (S p.1 p.2).zyy) (x, y)) ∧
      (∀ G : ℝ → ℝ → ℝ, (∀ i < g.nx, IsCubicSpline g.y (f i) g.ny ymin ymax (G (g.x i))) →
        (∀ y, g.y 0 ≤ y → y ≤ g.y (g.ny - 1) → IsCubicSpline g.x (fun i => G (g.x i) y) g.nx xmin xmax (fun x => G x y)) →
        ∀ x y, g.Inside x y → G x y = (S x y).z) ∧
      (∀ G : ℝ → ℝ → ℝ, (∀ j < g.ny, IsCubicSpline g.x (fun i => f i j) g.nx xmin xmax (fun x => G x (g.y j))) →
        (∀ x, g.x 0 ≤ x → x ≤ g.x (g.nx - 1) → IsCubicSpline g.y (fun j => G x (g.y j)) g.ny ymin ymax (G x)) →
        ∀ x y, g.Inside x y → G x y = (S x y).z) := by
  obtain ⟨fy, efy, hfy⟩ := rows_some (m := g.nx) (v := f) (deriv := fun v => CubicSpline.create g.y v g.ny false ymin ymax) (P := fun i d => Smooth g.y (f i) d g.ny ymin ymax) (fun i _ => create_false hg.gy hg.ny2 (f i) ymin ymax hsy)
  obtain ⟨fxT, efx, hfx⟩ := rows_some (m := g.ny) (v := fun j i => f i j) (deriv := fun v => CubicSpline.create g.x v g.nx false xmin xmax) (P := fun j d => Smooth g.x (fun i => f i j) d g.nx xmin xmax)
    (fun j _ => create_false hg.gx hg.nx2 (fun i => f i j) xmin xmax hsx)
  obtain ⟨fxyT, efxy, hfxy⟩ := rows_some (m := g.ny) (v := fun j i => fy i j) (deriv := fun v => CubicSpline.create g.x v g.nx false (xmin.map fun _ => 0) (xmax.map fun _ => 0)) (P := fun j d => Smooth g.x (fun i => fy i j) d g.nx (xmin.map fun _ => 0) (xmax.map fun _ => 0))
    (fun j _ => create_false hg.gx hg.nx2 (fun i => fy i j) _ _ (fun h => map_zero_ends xmin xmax (hsx h)))
  refine ⟨fun i j => fxT j i, fy, fun i j => if (j = 0 ∧ ymin.isSome) ∨ (j = g.ny - 1 ∧ ymax.isSome) then 0 else fxyT j i, ?_, ?_⟩
  · simp only [CubicSpline2d.create, efy, efx, efxy, Option.bind_eq_bind, Option.bind_some]; rfl
  generalize hM : (fun i j => if (j = 0 ∧ ymin.isSome = true) ∨ (j = g.ny - 1 ∧ ymax.isSome = true) then 0 else fxyT j i) = fxy
  have hxy : ∀ j < g.ny, Smooth g.x (fun i => fy i j) (fun i => fxy i j) g.nx (xmin.map fun _ => 0) (xmax.map fun _ => 0) := by
    intro j hj
    subst hM
    by_cases hc : (j = 0 ∧ ymin.isSome = true) ∨ (j = g.ny - 1 ∧ ymax.isSome = true)
    · simp only [if_pos hc]
      have : ∃ v, ∀ i < g.nx, fy i j = v := by
        rcases hc with ⟨rfl, h⟩ | ⟨rfl, h⟩
        · obtain ⟨v, rfl⟩ := Option.isSome_iff_exists.1 h
          exact ⟨v, fun i hi => (hfy i hi).left⟩
        · obtain ⟨v, rfl⟩ := Option.isSome_iff_exists.1 h
          exact ⟨v, fun i hi => (hfy i hi).right⟩
      obtain ⟨v, hv⟩ := this
      exact smooth_congr hg.nx2 (smooth_const g.x g.nx v xmin xmax) hv (fun _ _ => rfl)
    · simp only [if_neg hc]; exact hfxy j hj
  have hyx := mixed_commute (fx := fun i j => fxT j i) hg hfy hfx hxy
  -- node data
  let D := dat2 g.ny (flat g f) (flat g fun i j => fxT j i) (flat g fy) (flat g fxy)
  have d00 : ∀ i, ∀ j < g.ny, D 0 0 i j = f i j := fun i j hj => by simp only [D, dat2, if_true]; exact flat_at g f hj
  have d10 : ∀ i, ∀ j < g.ny, D 1 0 i j = fxT j i := fun i j hj => by simp only [D, dat2, if_true, one_ne_zero, if_false]; exact flat_at g _ hj
  have d01 : ∀ i, ∀ j < g.ny, D 0 1 i j = fy i j := fun i j hj => by simp only [D, dat2, if_true, one_ne_zero, if_false]; exact flat_at g fy hj
  have d11 : ∀ i, ∀ j < g.ny, D 1 1 i j = fxy i j := fun i j hj => by simp only [D, dat2, one_ne_zero, if_false]; exact flat_at g fxy hj
  have sx0 : ∀ j < g.ny, Smooth g.x (fun i => D 0 0 i j) (fun i => D 1 0 i j) g.nx xmin xmax := fun j hj => by
    simp only [fun i => d00 i j hj, fun i => d10 i j hj]; exact hfx j hj
  have sx1 : ∀ j < g.ny, Smooth g.x (fun i => D 0 1 i j) (fun i => D 1 1 i j) g.nx (xmin.map fun _ => 0) (xmax.map fun _ => 0) := fun j hj => by
    simp only [fun i => d01 i j hj, fun i => d11 i j hj]; exact hxy j hj
  have sy0 : ∀ i < g.nx, Smooth g.y (fun j => D 0 0 i j) (fun j => D 0 1 i j) g.ny ymin ymax := fun i hi =>
    smooth_congr hg.ny2 (hfy i hi) (fun j hj => d00 i j hj) (fun j hj => d01 i j hj)
  have sy1 : ∀ i < g.nx, Smooth g.y (fun j => D 1 0 i j) (fun j => D 1 1 i j) g.ny (ymin.map fun _ => 0) (ymax.map fun _ => 0) := fun i hi =>
    smooth_congr hg.ny2 (hyx i hi) (fun j hj => d10 i j hj) (fun j hj => d11 i j hj)
  have hX := cubic_fam hg.gx hg.nx2
  have hY := cubic_fam hg.gy hg.ny2
  let S := jet2 (cubicE g.x g.nx) (cubicE g.y g.ny) D
  have secX : ∀ y, SmoothSpline g.x (fun i => (cubicE g.y g.ny (fun b j => D 0 b i j) y).get 0) g.nx xmin xmax (cubicE g.x g.nx fun a i => (cubicE g.y g.ny (fun b j => D a b i j) y).get 0) :=
    fun y => cubicE_spline hg.gx hg.nx2 (section_smooth hg.gx hg.gy hg.nx2 hg.ny2 D sx0 sx1 y) _ rfl rfl
  have secY : ∀ x, SmoothSpline g.y (fun j => (cubicE g.x g.nx (fun a i => D a 0 i j) x).get 0) g.ny ymin ymax (cubicE g.y g.ny fun b j => (cubicE g.x g.nx (fun a i => D a b i j) x).get 0) :=
    fun x => cubicE_spline hg.gy hg.ny2 (section_smooth hg.gy hg.gx hg.ny2 hg.nx2 (fun b a j i => D a b i j) sy0 sy1 x) _ rfl rfl
  have nodeX : ∀ i < g.nx, ∀ y, (S (g.x i) y).z = (cubicE g.y g.ny (fun b j => D 0 b i j) y).get 0 := fun i hi y => hX.nodeVal _ i hi
  have nodeY : ∀ j < g.ny, ∀ x, (S x (g.y j)).z = (cubicE g.x g.nx (fun a i => D a 0 i j) x).get 0 := fun j hj x => by
    simp only [S, jet2, nest_swap hX hY]; exact hY.nodeVal _ j hj
  have isX : ∀ y, IsCubicSpline g.x (fun i => (S (g.x i) y).z) g.nx xmin xmax (fun x => (S x y).z) := fun y =>
    ⟨fun _ _ => rfl, (secX y).spline.pieces⟩
  have isY : ∀ x, IsCubicSpline g.y (fun j => (S x (g.y j)).z) g.ny ymin ymax (fun y => (S x y).z) := fun x => by
    refine ⟨fun _ _ => rfl, ?_⟩
    have := (secY x).spline.pieces
    simp only [S, jet2, nest_swap hX hY]; exact this
  have sm : Smooth2 g S (D 0 0) (D 1 0) (D 0 1) (D 1 1) := smooth2_of hX hY D
  refine ⟨S, fun x y h => cubic2d_inside hg _ _ _ _ h, ?_, isX, isY, ?_, ?_, ?_, ?_⟩
  · refine { sm with nodes := fun i hi j hj => ?_ }
    have := sm.nodes i hi j hj
    rw [d00 i j hj, d10 i j hj, d01 i j hj, d11 i j hj] at this
    exact this
  · intro x y h0 h1
    refine ⟨((secX y).deriv2 x h0 h1).1, ?_⟩
    have ez : (fun p : ℝ × ℝ => (S p.1 p.2).zxx) = fun p => ∑ b ∈ Finset.range 2, ∑ j ∈ Finset.range g.ny,
        (cubicE g.x g.nx (fun a i => D a b i j) p.1).get 2 * (cubicE g.y g.ny (delta b j) p.2).get 0 := by
      funext p
      show nest (cubicE g.x g.nx) (cubicE g.y g.ny) D 2 0 p.1 p.2 = _
      rw [nest_swap hX hY, nest, hY.lin]
    rw [ez]
    refine tendsto_finsetSum _ fun b hb => tendsto_finsetSum _ fun j hj => ?_
    have hj := Finset.mem_range.1 hj
    have c1 : ContinuousAt (fun t => (cubicE g.x g.nx (fun a i => D a b i j) t).get 2) x := by
      rcases (by have := Finset.mem_range.1 hb; omega : b = 0 ∨ b = 1) with rfl | rfl
      · exact ((cubicE_spline hg.gx hg.nx2 (sx0 j hj) (fun a i => D a 0 i j) rfl rfl).deriv2 x h0 h1).2
      · exact ((cubicE_spline hg.gx hg.nx2 (sx1 j hj) (fun a i => D a 1 i j) rfl rfl).deriv2 x h0 h1).2
    have c2 : ContinuousAt (fun p : ℝ × ℝ => (cubicE g.x g.nx (fun a i => D a b i j) p.1).get 2) (x, y) :=
      ContinuousAt.comp (g := fun t => (cubicE g.x g.nx (fun a i => D a b i j) t).get 2) (f := Prod.fst) (x := (x, y)) c1 continuousAt_fst
    exact c2.mul ((hY.cont_get (delta b j) (r := 0) (by omega)).comp continuous_snd).continuousAt
  · intro x y h0 h1
    refine ⟨by simp only [S, jet2, nest_swap hX hY]; exact ((secY x).deriv2 y h0 h1).1, ?_⟩
    have ez : (fun p : ℝ × ℝ => (S p.1 p.2).zyy) = fun p => ∑ a ∈ Finset.range 2, ∑ i ∈ Finset.range g.nx,
        (cubicE g.y g.ny (fun b j => D a b i j) p.2).get 2 * (cubicE g.x g.nx (delta a i) p.1).get 0 := by
      funext p
      show nest (cubicE g.x g.nx) (cubicE g.y g.ny) D 0 2 p.1 p.2 = _
      rw [nest, hX.lin]
    rw [ez]
    refine tendsto_finsetSum _ fun a ha => tendsto_finsetSum _ fun i hi => ?_
    have hi := Finset.mem_range.1 hi
    have c1 : ContinuousAt (fun t => (cubicE g.y g.ny (fun b j => D a b i j) t).get 2) y := by
      rcases (by have := Finset.mem_range.1 ha; omega : a = 0 ∨ a = 1) with rfl | rfl
      · exact ((cubicE_spline hg.gy hg.ny2 (sy0 i hi) (fun b j => D 0 b i j) rfl rfl).deriv2 y h0 h1).2
      · exact ((cubicE_spline hg.gy hg.ny2 (sy1 i hi) (fun b j => D 1 b i j) rfl rfl).deriv2 y h0 h1).2
    have c2 : ContinuousAt (fun p : ℝ × ℝ => (cubicE g.y g.ny (fun b j => D a b i j) p.2).get 2) (x, y) :=
      ContinuousAt.comp (g := fun t => (cubicE g.y g.ny (fun b j => D a b i j) t).get 2) (f := Prod.snd) (x := (x, y)) c1 continuousAt_snd
    exact c2.mul ((hX.cont_get (delta a i) (r := 0) (by omega)).comp continuous_fst).continuousAt
  · intro G h1 h2 x y h
    have e : ∀ i < g.nx, G (g.x i) y = (S (g.x i) y).z := by
      intro i hi
      refine spline_unique hg.gy hg.ny2 (h1 i hi) (H := fun y => (S (g.x i) y).z) ?_ h.2.2.1 h.2.2.2
      refine ⟨fun j hj => ?_, (isY (g.x i)).pieces⟩
      rw [nodeX i hi]; show (cubicE g.y g.ny (fun b j => D 0 b i j) (g.y j)).val = _
      rw [hY.nodeVal _ j hj, d00 i j hj]
    exact spline_unique hg.gx hg.nx2 ⟨fun i hi => by rw [e i hi], (h2 y h.2.2.1 h.2.2.2).pieces⟩ (isX y) h.1 h.2.1
  · intro G h1 h2 x y h
    have e : ∀ j < g.ny, G x (g.y j) = (S x (g.y j)).z := by
      intro j hj
      refine spline_unique hg.gx hg.nx2 (h1 j hj) (H := fun x => (S x (g.y j)).z) ?_ h.1 h.2.1
      refine ⟨fun i hi => ?_, (isX (g.y j)).pieces⟩
      rw [nodeY j hj]; show (cubicE g.x g.nx (fun a i => D a 0 i j) (g.x i)).val = _
      rw [hX.nodeVal _ i hi, d00 i j hj]
    exact spline_unique hg.gy hg.ny2 ⟨fun j hj => by rw [e j hj], (h2 x h.1 h.2.1).pieces⟩ (isY x) h.2.2.1 h.2.2.2

theorem rows_inv {m : ℕ} {deriv : (ℕ → ℝ) → Option (ℕ → ℝ)} {v r : ℕ → ℕ → ℝ} (h : rows m deriv v = some r) : ∀ i < m, deriv (v i) = some (r i) := by
  rw [rows] at h
  split_ifs at h with hc
  intro i hi
  rw [← Option.some.inj h]
  obtain ⟨d, e⟩ := Option.isSome_iff_exists.1 (hc i hi)
  simp [e]

/-- C96: with or without the regularization filter, and for any prescribed slopes at the edges, along the lines of nodes the two-dimensional spline coincides with the one-dimensional splines constructed from the same values with the same options (hence it shares with them the monotonicity, C71). -/
theorem C96_gridlines (g : Nodes2) (hg : g.Ok) (f fx fy fxy : ℕ → ℕ → ℝ) (regularize : Bool) (xmin xmax ymin ymax : Option ℝ)
    (h : CubicSpline2d.create g f regularize xmin xmax ymin ymax = some (fx, fy, fxy)) :
    (∀ i < g.nx, ∃ d, CubicSpline.create g.y (f i) g.ny regularize ymin ymax = some d ∧ ∀ y, g.y 0 ≤ y → y ≤ g.y (g.ny - 1) →
      ∃ J j, CubicSpline2d.evalDeriv g (flat g f) (flat g fx) (flat g fy) (flat g fxy) (g.x i) y = some J ∧ CubicSpline.evalDeriv g.y (f i) d g.ny y = some j ∧
        J.z = j.val ∧ J.zy = j.der ∧ J.zyy = j.der2) ∧
    (∀ j < g.ny, ∃ d, CubicSpline.create g.x (fun i => f i j) g.nx regularize xmin xmax = some d ∧ ∀ x, g.x 0 ≤ x → x ≤ g.x (g.nx - 1) →
      ∃ J k, CubicSpline2d.evalDeriv g (flat g f) (flat g fx) (flat g fy) (flat g fxy) x (g.y j) = some J ∧ CubicSpline.evalDeriv g.x (fun i => f i j) d g.nx x = some k ∧
        J.z = k.val ∧ J.zx = k.der ∧ J.zxx = k.der2) := by
  simp only [CubicSpline2d.create, Option.bind_eq_bind, Option.bind_eq_some_iff] at h
  obtain ⟨fy', e1, fxT, e2, fxyT, e3, e4⟩ := h
  obtain ⟨rfl, rfl, hxy⟩ : (fun i j => fxT j i) = fx ∧ fy' = fy ∧ _ = fxy := by simpa only [Option.pure_def, Option.some.injEq, Prod.mk.injEq] using e4
  have hX := cubic_fam hg.gx hg.nx2
  have hY := cubic_fam hg.gy hg.ny2
  have ev : ∀ {x : ℕ → ℝ} {n : ℕ} (_ : 2 ≤ n) (D : ℕ → ℕ → ℝ) (v d : ℕ → ℝ) (t : ℝ), Grid x n → x 0 ≤ t → t ≤ x (n - 1) → (∀ i < n, D 0 i = v i) → (∀ i < n, D 1 i = d i) →
      CubicSpline.evalDeriv x v d n t = some (cubicE x n D t) := by
    intro x n hn D v d t hG h0 h1 hv hd
    obtain ⟨k, hk, _, _, _, hb⟩ := bin_in hG hn h0 h1
    rw [cubicE_in D t hk hb, hv k (by omega), hv (k + 1) hk, hd k (by omega), hd (k + 1) hk]
    have := cubicE_in (fun a => if a = 0 then v else d) t hk hb
    simp only [if_true, one_ne_zero, if_false] at this
    rw [← this, cubicE]
    simp only [if_true, one_ne_zero, if_false]
    rw [CubicSpline.evalDeriv, if_neg (by omega)]
    simp only
    split_ifs <;> rfl
  have lo : ∀ {x : ℕ → ℝ} {n : ℕ}, Grid x n → ∀ i < n, x 0 ≤ x i ∧ x i ≤ x (n - 1) := fun hG i hi => ⟨Grid.le hG (Nat.zero_le i) hi, Grid.le hG (by omega) (by omega)⟩
  constructor
  · intro i hi
    refine ⟨fy' i, rows_inv e1 i hi, fun y h0 h1 => ⟨_, _, cubic2d_inside hg _ _ _ _ ⟨(lo hg.gx i hi).1, (lo hg.gx i hi).2, h0, h1⟩,
      ev hg.ny2 (fun b j => dat2 g.ny (flat g f) (flat g fun i j => fxT j i) (flat g fy') (flat g fxy) 0 b i j) (f i) (fy' i) y hg.gy h0 h1 ?_ ?_, ?_, ?_, ?_⟩⟩
    · intro j hj; simp only [dat2, if_true]; exact flat_at g f hj
    · intro j hj; simp only [dat2, if_true, one_ne_zero, if_false]; exact flat_at g fy' hj
    · exact hX.nodeVal _ i hi
    · exact hX.nodeVal _ i hi
    · exact hX.nodeVal _ i hi
  · intro j hj
    refine ⟨fxT j, rows_inv e2 j hj, fun x h0 h1 => ⟨_, _, cubic2d_inside hg _ _ _ _ ⟨h0, h1, (lo hg.gy j hj).1, (lo hg.gy j hj).2⟩,
      ev hg.nx2 (fun a i => dat2 g.ny (flat g f) (flat g fun i j => fxT j i) (flat g fy') (flat g fxy) a 0 i j) (fun i => f i j) (fxT j) x hg.gx h0 h1 ?_ ?_, ?_, ?_, ?_⟩⟩
    · intro i hi; simp only [dat2, if_true]; exact flat_at g f hj
    · intro i hi; simp only [dat2, if_true, one_ne_zero, if_false]; exact flat_at g (fun i j => fxT j i) hj
    all_goals (simp only [jet2, nest_swap hX hY]; exact hY.nodeVal _ j hj)

/-- Non-vacuity of C96: nodes 0, 1, 2 in both directions are not symmetric; a slope is prescribed at one of the edges, and the spline of x y through these nodes has this slope there. -/
example : ∃ fx fy fxy, CubicSpline2d.create ⟨fun i => i, 3, fun j => j, 3⟩ (fun i j => (i : ℝ) ^ 2 * j) false (some 5) none none none = some (fx, fy, fxy) ∧
    fx 0 0 = 5 ∧ fx 0 1 = 5 ∧ fx 0 2 = 5 := by
  have hG : Grid (fun i => (i : ℝ)) 3 := fun i j h _ => by simpa using h
  have ns : ¬ ∀ i < 3, ((i : ℕ) : ℝ) = -((3 - 1 - i : ℕ) : ℝ) := fun h => by have := h 0 (by omega); norm_num at this
  obtain ⟨fx, fy, fxy, e, S, _, h2, h3, _⟩ := C96_cubic ⟨fun i => i, 3, fun j => j, 3⟩ ⟨hG, hG, by simp, by simp⟩ (fun i j => (i : ℝ) ^ 2 * j) (some 5) none none none
    (fun h => absurd h ns) (fun _ => rfl)
  refine ⟨fx, fy, fxy, e, ?_⟩
  have key : ∀ j < 3, fx 0 j = 5 := by
    intro j hj
    simp only [CubicSpline2d.create, Option.bind_eq_bind, Option.bind_eq_some_iff] at e
    obtain ⟨fy', e1, fxT, e2, fxyT, e3, e4⟩ := e
    obtain ⟨rfl, rfl, hxy⟩ : (fun i j => fxT j i) = fx ∧ fy' = fy ∧ _ = fxy := by simpa only [Option.pure_def, Option.some.injEq, Prod.mk.injEq] using e4
    have := rows_inv e2 j hj
    obtain ⟨d, e5, hs⟩ := create_false hG (by omega) (fun i => (i : ℝ) ^ 2 * j) (some 5) none (fun h => absurd h ns)
    have e6 : some d = some (fxT j) := e5.symm.trans this
    show fxT j 0 = 5
    rw [← Option.some.inj e6]; exact hs.left
  exact ⟨key 0 (by omega), key 1 (by omega), key 2 (by omega)⟩

end

end Verif.Spline
