import Verif.Spline.Create2d

/-! # C96: the regularization filter applied to the mixed derivative -/

namespace Verif.Spline

open Verif.BSpline (Grid)

/-- C96 (regularized): with the regularization filter, the derivative across a line of nodes x=x_i is monotone along this line on each segment on which its values at the nodes rise together with the adjacent segments (if these exist), hence does not overshoot the values at the nodes. -/
theorem C96_regularized (g : Nodes2) (hg : g.Ok) (f fx fy fxy : ℕ → ℕ → ℝ) (xmin xmax ymin ymax : Option ℝ)
    (h : CubicSpline2d.create g f true xmin xmax ymin ymax = some (fx, fy, fxy)) (i : ℕ) (hi : i < g.nx) (j : ℕ) (hj : j + 1 < g.ny) (D : ℕ → ℝ)
    (hD : ∀ j < g.ny, ∃ J, CubicSpline2d.evalDeriv g (flat g f) (flat g fx) (flat g fy) (flat g fxy) (g.x i) (g.y j) = some J ∧ J.zx = D j)
    (hm : D j ≤ D (j + 1)) (hL : j = 0 ∨ D (j - 1) ≤ D j) (hR : j + 2 = g.ny ∨ D (j + 1) ≤ D (j + 2)) :
    ∃ S : ℝ → Jet2, (∀ y, g.y 0 ≤ y → y ≤ g.y (g.ny - 1) → CubicSpline2d.evalDeriv g (flat g f) (flat g fx) (flat g fy) (flat g fxy) (g.x i) y = some (S y)) ∧
      MonotoneOn (fun y => (S y).zx) (Set.Icc (g.y j) (g.y (j + 1))) ∧ ∀ y ∈ Set.Icc (g.y j) (g.y (j + 1)), D j ≤ (S y).zx ∧ (S y).zx ≤ D (j + 1) := by
  simp only [CubicSpline2d.create, Option.bind_eq_bind, Option.bind_eq_some_iff] at h
  obtain ⟨fy', e1, fxT, e2, fxyT, e3, e4⟩ := h
  obtain ⟨rfl, rfl, hxy⟩ : (fun i j => fxT j i) = fx ∧ fy' = fy ∧ _ = fxy := by simpa only [Option.pure_def, Option.some.injEq, Prod.mk.injEq] using e4
  have hX := cubic_fam hg.gx hg.nx2
  have hY := cubic_fam hg.gy hg.ny2
  have ev : ∀ {x : ℕ → ℝ} {n : ℕ} (_ : 2 ≤ n) (D : ℕ → ℕ → ℝ) (v d : ℕ → ℝ) (t : ℝ), Grid x n → x 0 ≤ t → t ≤ x (n - 1) → (∀ i < n, D 0 i = v i) → (∀ i < n, D 1 i = d i) →
      CubicSpline.evalDeriv x v d n t = some (cubicE x n D t) := by
    intro x n hn D v d t hG h0 h1 hv hd
    obtain ⟨k, hk, _, _, _, hb⟩ := bin_in hG hn h0 h1
    rw [cubicE_in D t hk hb, hv k (by omega), hv (k + 1) hk, hd k (by omega), hd (k + 1) hk]
    have := cubicE_in (fun a => if a = 0 then v else d) t hk hb
    simp only [if_true, one_ne_zero, if_false] at this
    rw [← this, cubicE]
    simp only [if_true, one_ne_zero, if_false]
    rw [CubicSpline.evalDeriv, if_neg (by omega)]
    simp only
    split_ifs <;> rfl
  have lo : ∀ {x : ℕ → ℝ} {n : ℕ}, Grid x n → ∀ i < n, x 0 ≤ x i ∧ x i ≤ x (n - 1) := fun hG i hi => ⟨Grid.le hG (Nat.zero_le i) hi, Grid.le hG (by omega) (by omega)⟩
  -- the derivative along the line of nodes is a one-dimensional spline
  have key : ∀ y, g.y 0 ≤ y → y ≤ g.y (g.ny - 1) → ∃ J k, CubicSpline2d.evalDeriv g (flat g f) (flat g fun i j => fxT j i) (flat g fy') (flat g fxy) (g.x i) y = some J ∧
      CubicSpline.evalDeriv g.y (fun j => fxT j i) (fxy i) g.ny y = some k ∧ J.zx = k.val := by
    intro y h0 h1
    refine ⟨_, _, cubic2d_inside hg _ _ _ _ ⟨(lo hg.gx i hi).1, (lo hg.gx i hi).2, h0, h1⟩,
      ev hg.ny2 (fun b j => dat2 g.ny (flat g f) (flat g fun i j => fxT j i) (flat g fy') (flat g fxy) 1 b i j) (fun j => fxT j i) (fxy i) y hg.gy h0 h1 ?_ ?_, ?_⟩
    · intro j hj; simp only [dat2, if_true, one_ne_zero, if_false]; exact flat_at g (fun i j => fxT j i) hj
    · intro j hj; simp only [dat2, one_ne_zero, if_false]; exact flat_at g fxy hj
    · exact hX.nodeDer _ i hi
  have hDe : ∀ j < g.ny, D j = fxT j i := by
    intro j hj
    obtain ⟨J, h1, h2⟩ := hD j hj
    obtain ⟨J', k, h3, h4, h5⟩ := key (g.y j) (lo hg.gy j hj).1 (lo hg.gy j hj).2
    obtain ⟨S, hS, hI⟩ := C69_cubic g.y (fun j => fxT j i) (fxy i) g.ny hg.gy (by have := hg.ny2; omega)
    rw [h1] at h3
    rw [hS] at h4
    rw [← h2, Option.some.inj h3, h5, ← Option.some.inj h4, (hI.nodes j hj).1]
  simp only [if_true] at hxy
  rw [hDe j (by omega), hDe (j + 1) hj] at hm
  have hL' : j = 0 ∨ fxT (j - 1) i ≤ fxT j i := hL.imp id fun q => by rw [← hDe _ (by omega), ← hDe _ (by omega)]; exact q
  have hR' : j + 2 = g.ny ∨ fxT (j + 1) i ≤ fxT (j + 2) i := by
    rcases hR with q | q
    · exact Or.inl q
    · by_cases q2 : j + 2 = g.ny
      · exact Or.inl q2
      · right; rw [← hDe _ (by omega), ← hDe _ (by omega)]; exact q
  obtain ⟨T, hT, hmono, -, hb⟩ := C71_rising g.y (fun j => fxT j i) (fun j => if (j = 0 ∧ ymin.isSome) ∨ (j = g.ny - 1 ∧ ymax.isSome) then 0 else fxyT j i) g.ny hg.gy j hj hm hL' hR'
  have hfi : fxy i = regularizeSpline g.y (fun j => fxT j i) g.ny (fun j => if (j = 0 ∧ ymin.isSome) ∨ (j = g.ny - 1 ∧ ymax.isSome) then 0 else fxyT j i) := by rw [← hxy]
  rw [← hfi] at hT
  refine ⟨fun y => (CubicSpline2d.evalDeriv g (flat g f) (flat g fun i j => fxT j i) (flat g fy') (flat g fxy) (g.x i) y).getD ⟨0, 0, 0, 0, 0, 0⟩, ?_, ?_⟩
  · intro y h0 h1
    obtain ⟨J, k, h3, -⟩ := key y h0 h1
    show _ = some (Option.getD _ _)
    rw [h3, Option.getD_some]
  · have e : ∀ y ∈ Set.Icc (g.y j) (g.y (j + 1)), ((CubicSpline2d.evalDeriv g (flat g f) (flat g fun i j => fxT j i) (flat g fy') (flat g fxy) (g.x i) y).getD ⟨0, 0, 0, 0, 0, 0⟩).zx = (T y).val := by
      intro y hy
      obtain ⟨J, k, h3, h4, h5⟩ := key y ((lo hg.gy j (by omega)).1.trans hy.1) (hy.2.trans (lo hg.gy (j + 1) hj).2)
      rw [h3, Option.getD_some, h5]
      rw [hT] at h4
      rw [← Option.some.inj h4]
    constructor
    · intro a ha b hb hab
      simp only [e a ha, e b hb]
      exact hmono ha hb hab
    · intro y hy
      rw [e y hy, hDe j (by omega), hDe (j + 1) hj]
      exact hb y hy

/-- C96 (regularized, falling): with the regularization filter, the derivative across a line of nodes x=x_i is monotone along this line on each segment on which its values at the nodes fall together with the adjacent segments (if these exist), hence does not overshoot the values at the nodes. -/
theorem C96_regularized_falling (g : Nodes2) (hg : g.Ok) (f fx fy fxy : ℕ → ℕ → ℝ) (xmin xmax ymin ymax : Option ℝ)
    (h : CubicSpline2d.create g f true xmin xmax ymin ymax = some (fx, fy, fxy)) (i : ℕ) (hi : i < g.nx) (j : ℕ) (hj : j + 1 < g.ny) (D : ℕ → ℝ)
    (hD : ∀ j < g.ny, ∃ J, CubicSpline2d.evalDeriv g (flat g f) (flat g fx) (flat g fy) (flat g fxy) (g.x i) (g.y j) = some J ∧ J.zx = D j)
    (hm : D (j + 1) ≤ D j) (hL : j = 0 ∨ D j ≤ D (j - 1)) (hR : j + 2 = g.ny ∨ D (j + 2) ≤ D (j + 1)) :
    ∃ S : ℝ → Jet2, (∀ y, g.y 0 ≤ y → y ≤ g.y (g.ny - 1) → CubicSpline2d.evalDeriv g (flat g f) (flat g fx) (flat g fy) (flat g fxy) (g.x i) y = some (S y)) ∧
      AntitoneOn (fun y => (S y).zx) (Set.Icc (g.y j) (g.y (j + 1))) ∧ ∀ y ∈ Set.Icc (g.y j) (g.y (j + 1)), D (j + 1) ≤ (S y).zx ∧ (S y).zx ≤ D j := by
  simp only [CubicSpline2d.create, Option.bind_eq_bind, Option.bind_eq_some_iff] at h
  obtain ⟨fy', e1, fxT, e2, fxyT, e3, e4⟩ := h
  obtain ⟨rfl, rfl, hxy⟩ : (fun i j => fxT j i) = fx ∧ fy' = fy ∧ _ = fxy := by simpa only [Option.pure_def, Option.some.injEq, Prod.mk.injEq] using e4
  have hX := cubic_fam hg.gx hg.nx2
  have hY := cubic_fam hg.gy hg.ny2
  have ev : ∀ {x : ℕ → ℝ} {n : ℕ} (_ : 2 ≤ n) (D : ℕ → ℕ → ℝ) (v d : ℕ → ℝ) (t : ℝ), Grid x n → x 0 ≤ t → t ≤ x (n - 1) → (∀ i < n, D 0 i = v i) → (∀ i < n, D 1 i = d i) →
      CubicSpline.evalDeriv x v d n t = some (cubicE x n D t) := by
    intro x n hn D v d t hG h0 h1 hv hd
    obtain ⟨k, hk, _, _, _, hb⟩ := bin_in hG hn h0 h1
    rw [cubicE_in D t hk hb, hv k (by omega), hv (k + 1) hk, hd k (by omega), hd (k + 1) hk]
    have := cubicE_in (fun a => if a = 0 then v else d) t hk hb
    simp only [if_true, one_ne_zero, if_false] at this
    rw [← this, cubicE]
    simp only [if_true, one_ne_zero, if_false]
    rw [CubicSpline.evalDeriv, if_neg (by omega)]
    simp only
    split_ifs <;> rfl
  have lo : ∀ {x : ℕ → ℝ} {n : ℕ}, Grid x n → ∀ i < n, x 0 ≤ x i ∧ x i ≤ x (n - 1) := fun hG i hi => ⟨Grid.le hG (Nat.zero_le i) hi, Grid.le hG (by omega) (by omega)⟩
  -- the derivative along the line of nodes is a one-dimensional spline
  have key : ∀ y, g.y 0 ≤ y → y ≤ g.y (g.ny - 1) → ∃ J k, CubicSpline2d.evalDeriv g (flat g f) (flat g fun i j => fxT j i) (flat g fy') (flat g fxy) (g.x i) y = some J ∧
      CubicSpline.evalDeriv g.y (fun j => fxT j i) (fxy i) g.ny y = some k ∧ J.zx = k.val := by
    intro y h0 h1
    refine ⟨_, _, cubic2d_inside hg _ _ _ _ ⟨(lo hg.gx i hi).1, (lo hg.gx i hi).2, h0, h1⟩,
      ev hg.ny2 (fun b j => dat2 g.ny (flat g f) (flat g fun i j => fxT j i) (flat g fy') (flat g fxy) 1 b i j) (fun j => fxT j i) (fxy i) y hg.gy h0 h1 ?_ ?_, ?_⟩
    · intro j hj; simp only [dat2, if_true, one_ne_zero, if_false]; exact flat_at g (fun i j => fxT j i) hj
    · intro j hj; simp only [dat2, one_ne_zero, if_false]; exact flat_at g fxy hj
    · exact hX.nodeDer _ i hi
  have hDe : ∀ j < g.ny, D j = fxT j i := by
    intro j hj
    obtain ⟨J, h1, h2⟩ := hD j hj
    obtain ⟨J', k, h3, h4, h5⟩ := key (g.y j) (lo hg.gy j hj).1 (lo hg.gy j hj).2
    obtain ⟨S, hS, hI⟩ := C69_cubic g.y (fun j => fxT j i) (fxy i) g.ny hg.gy (by have := hg.ny2; omega)
    rw [h1] at h3
    rw [hS] at h4
    rw [← h2, Option.some.inj h3, h5, ← Option.some.inj h4, (hI.nodes j hj).1]
  simp only [if_true] at hxy
  rw [hDe j (by omega), hDe (j + 1) hj] at hm
  have hL' : j = 0 ∨ fxT j i ≤ fxT (j - 1) i := hL.imp id fun q => by rw [← hDe _ (by omega), ← hDe _ (by omega)]; exact q
  have hR' : j + 2 = g.ny ∨ fxT (j + 2) i ≤ fxT (j + 1) i := by
    rcases hR with q | q
    · exact Or.inl q
    · by_cases q2 : j + 2 = g.ny
      · exact Or.inl q2
      · right; rw [← hDe _ (by omega), ← hDe _ (by omega)]; exact q
  obtain ⟨T, hT, hmono, -, hb⟩ := C71_falling g.y (fun j => fxT j i) (fun j => if (j = 0 ∧ ymin.isSome) ∨ (j = g.ny - 1 ∧ ymax.isSome) then 0 else fxyT j i) g.ny hg.gy j hj hm hL' hR'
  have hfi : fxy i = regularizeSpline g.y (fun j => fxT j i) g.ny (fun j => if (j = 0 ∧ ymin.isSome) ∨ (j = g.ny - 1 ∧ ymax.isSome) then 0 else fxyT j i) := by rw [← hxy]
  rw [← hfi] at hT
  refine ⟨fun y => (CubicSpline2d.evalDeriv g (flat g f) (flat g fun i j => fxT j i) (flat g fy') (flat g fxy) (g.x i) y).getD ⟨0, 0, 0, 0, 0, 0⟩, ?_, ?_⟩
  · intro y h0 h1
    obtain ⟨J, k, h3, -⟩ := key y h0 h1
    show _ = some (Option.getD _ _)
    rw [h3, Option.getD_some]
  · have e : ∀ y ∈ Set.Icc (g.y j) (g.y (j + 1)), ((CubicSpline2d.evalDeriv g (flat g f) (flat g fun i j => fxT j i) (flat g fy') (flat g fxy) (g.x i) y).getD ⟨0, 0, 0, 0, 0, 0⟩).zx = (T y).val := by
      intro y hy
      obtain ⟨J, k, h3, h4, h5⟩ := key y ((lo hg.gy j (by omega)).1.trans hy.1) (hy.2.trans (lo hg.gy (j + 1) hj).2)
      rw [h3, Option.getD_some, h5]
      rw [hT] at h4
      rw [← Option.some.inj h4]
    constructor
    · intro a ha b hb hab
      simp only [e a ha, e b hb]
      exact hmono ha hb hab
    · intro y hy
      rw [e y hy, hDe j (by omega), hDe (j + 1) hj]
      exact hb y hy

/-- regularization never prevents the construction -/
theorem create2d_some (g : Nodes2) (hg : g.Ok) (f : ℕ → ℕ → ℝ) (xmin xmax ymin ymax : Option ℝ) : ∃ fx fy fxy, CubicSpline2d.create g f true xmin xmax ymin ymax = some (fx, fy, fxy) := by
  have r : ∀ {x : ℕ → ℝ} {n : ℕ} (_ : Grid x n) (_ : 2 ≤ n) (m : ℕ) (dl dr : Option ℝ) (v : ℕ → ℕ → ℝ), ∃ q, rows m (fun v => CubicSpline.create x v n true dl dr) v = some q := by
    intro x n hG hn m dl dr v
    refine ⟨_, if_pos fun i _ => ?_⟩
    obtain ⟨d, e, -⟩ := C71_monotone x (v i) n hG hn dl dr
    beta_reduce
    rw [e]; rfl
  obtain ⟨q1, e1⟩ := r hg.gy hg.ny2 g.nx ymin ymax f
  obtain ⟨q2, e2⟩ := r hg.gx hg.nx2 g.ny xmin xmax fun j i => f i j
  obtain ⟨q3, e3⟩ := r hg.gx hg.nx2 g.ny (xmin.map fun _ => 0) (xmax.map fun _ => 0) fun j i => q1 i j
  simp only [CubicSpline2d.create, e1, e2, e3, Option.bind_eq_bind, Option.bind_some]
  exact ⟨_, _, _, rfl⟩

/-- non-vacuity: the values i*j on a grid of 2x2 nodes; the x-derivative rises along the line x=0 from 0 to a non-negative value -/
example : ∃ fx fy fxy, CubicSpline2d.create ⟨fun i => i, 2, fun j => j, 2⟩ (fun i j => (i : ℝ) * j) true none none none none = some (fx, fy, fxy) ∧ fx 0 0 ≤ fx 0 1 := by
  have hG : Grid (fun i => (i : ℝ)) 2 := fun i j h _ => by simpa using h
  obtain ⟨fx, fy, fxy, e⟩ := create2d_some ⟨fun i => i, 2, fun j => j, 2⟩ ⟨hG, hG, by simp, by simp⟩ (fun i j => (i : ℝ) * j) none none none none
  refine ⟨fx, fy, fxy, e, ?_⟩
  simp only [CubicSpline2d.create, Option.bind_eq_bind, Option.bind_eq_some_iff] at e
  obtain ⟨fy', e1, fxT, e2, fxyT, e3, e4⟩ := e
  obtain ⟨rfl, rfl, hxy⟩ : (fun i j => fxT j i) = fx ∧ fy' = fy ∧ _ = fxy := by simpa only [Option.pure_def, Option.some.injEq, Prod.mk.injEq] using e4
  have h0 := rows_inv e2 0 (by norm_num)
  have h1 := rows_inv e2 1 (by norm_num)
  simp only [CubicSpline.create, Option.bind_eq_bind, Option.bind_eq_some_iff, if_true, pure, Option.some.injEq] at h0 h1
  obtain ⟨d0, -, h0⟩ := h0
  obtain ⟨d1, -, h1⟩ := h1
  have a0 : fxT 0 0 = 0 := by
    rw [← h0]
    norm_num [regularizeSpline, clip]
    intro h h'
    exact absurd h' (not_lt.mpr h)
  have a1 : 0 ≤ fxT 1 0 := by
    rw [← h1]
    norm_num [regularizeSpline]
    exact (clip_bounds _ three_pos.1.le).1
  show fxT 0 0 ≤ fxT 1 0
  rw [a0]; exact a1

end Verif.Spline
