import Verif.Spline.Create2d

/-! C96: construction of the two-dimensional quintic spline from values, first derivatives and mixed second derivatives (math_spline.cpp:2496-2550). -/

namespace Verif.Spline

open Verif.BSpline (Grid)

noncomputable section

theorem third0_lin (H F dl dh el eh : ℝ) : third0 H F dl dh el eh = F * (60 / H / H ^ 2) + dl * (-36 / H ^ 2) + dh * (-24 / H ^ 2) + el * (-9 / H) + eh * (3 / H) := by rw [third0]; ring
theorem third1_lin (H F dl dh el eh : ℝ) : third1 H F dl dh el eh = F * (60 / H / H ^ 2) + dl * (-24 / H ^ 2) + dh * (-36 / H ^ 2) + el * (-3 / H) + eh * (9 / H) := by rw [third1]; ring
theorem fourth0_lin (H F dl dh el eh : ℝ) : fourth0 H F dl dh el eh = F * (-360 / H ^ 4) + dl * (192 * H / H ^ 4) + dh * (168 * H / H ^ 4) + el * (36 * H ^ 2 / H ^ 4) + eh * (-24 * H ^ 2 / H ^ 4) := by
  rw [fourth0]; ring
theorem fourth1_lin (H F dl dh el eh : ℝ) : fourth1 H F dl dh el eh = F * (360 / H ^ 4) + dl * (-168 * H / H ^ 4) + dh * (-192 * H / H ^ 4) + el * (-24 * H ^ 2 / H ^ 4) + eh * (36 * H ^ 2 / H ^ 4) := by
  rw [fourth1]; ring

theorem lin5_sum {ι : Type} (J : Finset ι) (c a b d e g h : ι → ℝ) (A B C D E : ℝ) :
    (∑ j ∈ J, c j * a j - ∑ j ∈ J, c j * b j) * A + (∑ j ∈ J, c j * d j) * B + (∑ j ∈ J, c j * e j) * C + (∑ j ∈ J, c j * g j) * D + (∑ j ∈ J, c j * h j) * E =
    ∑ j ∈ J, c j * ((a j - b j) * A + d j * B + e j * C + g j * D + h j * E) := by
  rw [← Finset.sum_sub_distrib]
  simp only [Finset.sum_mul, ← Finset.sum_add_distrib]
  exact Finset.sum_congr rfl fun j _ => by ring

/-- linear combinations of quintic splines -/
theorem qsmooth_sum {ι : Type} (J : Finset ι) (c : ι → ℝ) {x : ℕ → ℝ} {n : ℕ} (f d e : ι → ℕ → ℝ) (h : ∀ j ∈ J, QSmooth x (f j) (d j) (e j) n) :
    QSmooth x (fun i => ∑ j ∈ J, c j * f j i) (fun i => ∑ j ∈ J, c j * d j i) (fun i => ∑ j ∈ J, c j * e j i) n where
  interior := by
    intro i hi
    rw [third1_lin, third0_lin, lin5_sum, lin5_sum]
    refine Finset.sum_congr rfl fun j hj => ?_
    have := (h j hj).interior i hi
    rw [third1_lin, third0_lin] at this
    rw [this]
  left := by
    rw [fourth0_lin, lin5_sum]
    refine Finset.sum_eq_zero fun j hj => ?_
    have := (h j hj).left
    rw [fourth0_lin] at this
    rw [this, mul_zero]
  right := by
    rw [fourth1_lin, lin5_sum]
    refine Finset.sum_eq_zero fun j hj => ?_
    have := (h j hj).right
    rw [fourth1_lin] at this
    rw [this, mul_zero]

theorem qsmooth_congr {x f d e f' d' e' : ℕ → ℝ} {n : ℕ} (hn : 2 ≤ n) (h : QSmooth x f d e n) (hf : ∀ i < n, f' i = f i) (hd : ∀ i < n, d' i = d i) (he : ∀ i < n, e' i = e i) :
    QSmooth x f' d' e' n := by
  refine ⟨fun i hi => ?_, ?_, ?_⟩
  · rw [hf i (by omega), hf (i + 1) (by omega), hf (i + 2) hi, hd i (by omega), hd (i + 1) (by omega), hd (i + 2) hi, he i (by omega), he (i + 1) (by omega), he (i + 2) hi]
    exact h.interior i hi
  · rw [hf 0 (by omega), hf 1 (by omega), hd 0 (by omega), hd 1 (by omega), he 0 (by omega), he 1 (by omega)]; exact h.left
  · rw [hf (n - 2) (by omega), hf (n - 1) (by omega), hd (n - 2) (by omega), hd (n - 1) (by omega), he (n - 2) (by omega), he (n - 1) (by omega)]; exact h.right

theorem qsmooth_unique {x f d e e' : ℕ → ℝ} {n : ℕ} (hg : Grid x n) (hn : 2 ≤ n) (h : QSmooth x f d e n) (h' : QSmooth x f d e' n) : ∀ i < n, e i = e' i := by
  obtain ⟨s, _, _, hu⟩ := quintic_solve hg hn f d
  intro i hi; rw [hu e h i hi, hu e' h' i hi]

theorem qsmooth_exists {x : ℕ → ℝ} {n : ℕ} (hg : Grid x n) (hn : 2 ≤ n) (f d : ℕ → ℝ) : ∃ e, QSmooth x f d e n := by
  obtain ⟨s, _, h, _⟩ := quintic_solve hg hn f d
  exact ⟨_, h⟩

theorem sum_two (F : ℕ → ℝ) : ∑ b ∈ Finset.range 2, F b = F 0 + F 1 := by rw [Finset.sum_range_succ, Finset.sum_range_one]

/-- The second derivatives depend linearly on the values and slopes. -/
theorem quintic_kernel {x : ℕ → ℝ} {n : ℕ} (hg : Grid x n) (hn : 2 ≤ n) : ∃ M N : ℕ → ℕ → ℝ, ∀ f d e, QSmooth x f d e n → ∀ i < n,
    e i = ∑ k ∈ Finset.range n, (f k * M k i + d k * N k i) := by
  have hM := fun k : ℕ => qsmooth_exists hg hn (fun i => if i = k then (1 : ℝ) else 0) (fun _ => 0)
  choose M hM using hM
  have hN := fun k : ℕ => qsmooth_exists hg hn (fun _ => 0) (fun i => if i = k then (1 : ℝ) else 0)
  choose N hN using hN
  refine ⟨M, N, fun f d e h i hi => ?_⟩
  have h1 := qsmooth_sum (Finset.range n) f _ _ M (fun k _ => hM k)
  have h2 := qsmooth_sum (Finset.range n) d _ _ N (fun k _ => hN k)
  have h3 := qsmooth_sum (Finset.range 2) (fun _ => 1) (fun b i => if b = 0 then ∑ k ∈ Finset.range n, f k * (if i = k then (1 : ℝ) else 0) else ∑ k ∈ Finset.range n, d k * 0)
    (fun b i => if b = 0 then ∑ k ∈ Finset.range n, f k * 0 else ∑ k ∈ Finset.range n, d k * (if i = k then (1 : ℝ) else 0))
    (fun b i => if b = 0 then ∑ k ∈ Finset.range n, f k * M k i else ∑ k ∈ Finset.range n, d k * N k i) (n := n) (x := x) (by
      intro b hb
      rcases (by have := Finset.mem_range.1 hb; omega : b = 0 ∨ b = 1) with rfl | rfl
      · simp only [if_true]; exact h1
      · simp only [one_ne_zero, if_false]; exact h2)
  simp only [sum_two, if_true, one_ne_zero, if_false, one_mul, mul_zero, Finset.sum_const_zero, add_zero, zero_add] at h3
  have := qsmooth_unique hg hn h (qsmooth_congr hn h3 (fun i hi => ?_) (fun i hi => ?_) (fun i _ => rfl)) i hi
  · rw [this, ← Finset.sum_add_distrib]
  · simp [hi]
  · simp [hi]

/-- Applying the construction in x to each column of a family of splines in y gives splines in y. -/
theorem qmixed {g : Nodes2} (hg : g.Ok) {f d fy dy fyy dyy e ey eyy : ℕ → ℕ → ℝ}
    (h0 : ∀ i < g.nx, QSmooth g.y (f i) (fy i) (fyy i) g.ny) (h1 : ∀ i < g.nx, QSmooth g.y (d i) (dy i) (dyy i) g.ny)
    (x0 : ∀ j < g.ny, QSmooth g.x (fun i => f i j) (fun i => d i j) (fun i => e i j) g.nx)
    (x1 : ∀ j < g.ny, QSmooth g.x (fun i => fy i j) (fun i => dy i j) (fun i => ey i j) g.nx)
    (hy : ∀ i < g.nx, QSmooth g.y (e i) (ey i) (eyy i) g.ny) :
    ∀ j < g.ny, QSmooth g.x (fun i => fyy i j) (fun i => dyy i j) (fun i => eyy i j) g.nx := by
  obtain ⟨M, N, hK⟩ := quintic_kernel hg.gx hg.nx2
  have key : ∀ i < g.nx, ∀ j < g.ny, eyy i j = ∑ k ∈ Finset.range g.nx, (fyy k j * M k i + dyy k j * N k i) := by
    intro i hi
    have a := qsmooth_sum (Finset.range g.nx) (fun k => M k i) f fy fyy (fun k hk => h0 k (Finset.mem_range.1 hk))
    have b := qsmooth_sum (Finset.range g.nx) (fun k => N k i) d dy dyy (fun k hk => h1 k (Finset.mem_range.1 hk))
    have c := qsmooth_sum (Finset.range 2) (fun _ => 1) (fun b j => if b = 0 then ∑ k ∈ Finset.range g.nx, M k i * f k j else ∑ k ∈ Finset.range g.nx, N k i * d k j)
      (fun b j => if b = 0 then ∑ k ∈ Finset.range g.nx, M k i * fy k j else ∑ k ∈ Finset.range g.nx, N k i * dy k j)
      (fun b j => if b = 0 then ∑ k ∈ Finset.range g.nx, M k i * fyy k j else ∑ k ∈ Finset.range g.nx, N k i * dyy k j) (n := g.ny) (x := g.y) (by
        intro b hb
        rcases (by have := Finset.mem_range.1 hb; omega : b = 0 ∨ b = 1) with rfl | rfl
        · simp only [if_true]; exact a
        · simp only [one_ne_zero, if_false]; assumption)
    simp only [sum_two, if_true, one_ne_zero, if_false, one_mul, ← Finset.sum_add_distrib] at c
    have := qsmooth_unique hg.gy hg.ny2 (hy i hi) (qsmooth_congr hg.ny2 c (fun j hj => ?_) (fun j hj => ?_) (fun j _ => rfl))
    · intro j hj; rw [this j hj]; exact Finset.sum_congr rfl fun k _ => by ring
    · rw [hK _ _ _ (x0 j hj) i hi]; exact Finset.sum_congr rfl fun k _ => by ring
    · rw [hK _ _ _ (x1 j hj) i hi]; exact Finset.sum_congr rfl fun k _ => by ring
  intro j hj
  obtain ⟨v, hv⟩ := qsmooth_exists hg.gx hg.nx2 (fun i => fyy i j) (fun i => dyy i j)
  exact qsmooth_congr hg.nx2 hv (fun _ _ => rfl) (fun _ _ => rfl) fun i hi => by rw [key i hi j hj, hK _ _ _ hv i hi]

/-- at any y, the section of the two-dimensional quintic spline along x is a spline -/
theorem qsection_smooth {xs ys : ℕ → ℝ} {nx ny : ℕ} (hgy : Grid ys ny) (hnx : 2 ≤ nx) (hny : 2 ≤ ny) (D : ℕ → ℕ → ℕ → ℕ → ℝ)
    (h : ∀ b < 3, ∀ j < ny, QSmooth xs (fun i => D 0 b i j) (fun i => D 1 b i j) (fun i => D 2 b i j) nx) (y : ℝ) (s : ℕ) :
    QSmooth xs (fun i => (quinticE ys ny (fun b j => D 0 b i j) y).get s) (fun i => (quinticE ys ny (fun b j => D 1 b i j) y).get s)
      (fun i => (quinticE ys ny (fun b j => D 2 b i j) y).get s) nx := by
  have lin := (quintic_fam hgy hny).lin
  have s1 : ∀ b < 3, QSmooth xs (fun i => ∑ j ∈ Finset.range ny, (quinticE ys ny (delta b j) y).get s * D 0 b i j) (fun i => ∑ j ∈ Finset.range ny, (quinticE ys ny (delta b j) y).get s * D 1 b i j)
      (fun i => ∑ j ∈ Finset.range ny, (quinticE ys ny (delta b j) y).get s * D 2 b i j) nx := fun b hb =>
    qsmooth_sum (Finset.range ny) (fun j => (quinticE ys ny (delta b j) y).get s) (fun j i => D 0 b i j) (fun j i => D 1 b i j) (fun j i => D 2 b i j) (fun j hj => h b hb j (Finset.mem_range.1 hj))
  have s2 := qsmooth_sum (Finset.range 3) (fun _ => 1) _ _ _ (fun b hb => s1 b (Finset.mem_range.1 hb))
  refine qsmooth_congr hnx s2 (fun i _ => ?_) (fun i _ => ?_) (fun i _ => ?_)
  all_goals (rw [lin]; exact Finset.sum_congr rfl fun b _ => by rw [one_mul]; exact Finset.sum_congr rfl fun j _ => by rw [mul_comm])

/-- the interpolator given by the solution of the system is the spline of C72 -/
theorem quinticE_spline {x f d e : ℕ → ℝ} {n : ℕ} (hg : Grid x n) (hn : 2 ≤ n) (h : QSmooth x f d e n) (D : ℕ → ℕ → ℝ) (h0 : D 0 = f) (h1 : D 1 = d) (h2 : D 2 = e) :
    IsQuinticSpline x f d n (fun t => (quinticE x n D t).val) ∧
    (∀ t, x 0 < t → t < x (n - 1) → ∃ v, HasDerivAt (fun t => (quinticE x n D t).der2) v t) := by
  obtain ⟨e', he', S, hS, _, hI, hD, _⟩ := C72_quintic x f d n hg hn
  obtain ⟨e'', he'', hq, hu⟩ := quintic_solve hg hn f d
  obtain rfl : e'' = e' := Option.some.inj (he''.symm.trans he')
  have ev : quinticE x n D = fun t => S t := by
    funext t
    have hb : ∀ (e1 e2 : ℕ → ℝ), (∀ i < n, e1 i = e2 i) → QuinticSpline.evalDeriv x f d e1 n t = QuinticSpline.evalDeriv x f d e2 n t := by
      intro e1 e2 he
      have hn0 : ¬ n = 0 := by omega
      simp only [QuinticSpline.evalDeriv, if_neg hn0]
      rcases bin_cases hg (by omega) t with ⟨_, hb⟩ | ⟨_, hb⟩ | ⟨_, _, _⟩ | ⟨k, hk, _, _, _, hb⟩
      · simp only [hb]; simp only [show (-1 : ℤ) < 0 by norm_num, if_true]
      · simp only [hb]; simp only [show ¬ ((n : ℤ) - 1 < 0) by omega, ge_iff_le, le_refl, if_true, if_false]
      · omega
      · simp only [hb, Int.toNat_natCast]; rw [he k (by omega), he (k + 1) hk]
    rw [quinticE, h0, h1, h2, hb e e'' (fun i hi => hu e h i hi), hS]; rfl
  rw [ev]
  exact ⟨hI, fun t a b => ⟨_, (hD t a b).2.1⟩⟩

/-- C96: the two-dimensional quintic spline constructed from the values, both first derivatives and the mixed second derivatives at the nodes, for any data. The construction succeeds; the spline S is smooth in the sense of `Smooth2` with the given node data; at any y, the section of S along x is the quintic spline of C72 (three times differentiable, with vanishing fourth derivatives at both ends) through the values and slopes of S at the nodes, and the same for the sections along y. It is the only function with these properties, so that the result does not depend on the order in which the two directions are processed. -/
theorem C96_quintic (g : Nodes2) (hg : g.Ok) (f fx fy fxy : ℕ → ℕ → ℝ) :
    ∃ fxx fyy fxxy fxyy fxxyy, QuinticSpline2d.setupMixed g f fx fy fxy = some (fxx, fyy, fxxy, fxyy, fxxyy) ∧ ∃ S : ℝ → ℝ → Jet2,
      (∀ x y, g.Inside x y → QuinticSpline2d.evalDeriv g (flat g f) (flat g fx) (flat g fy) (flat g fxx) (flat g fxy) (flat g fyy) (flat g fxxy) (flat g fxyy) (flat g fxxyy) x y = some (S x y)) ∧
      Smooth2 g S f fx fy fxy ∧
      (∀ y, IsQuinticSpline g.x (fun i => (S (g.x i) y).z) (fun i => (S (g.x i) y).zx) g.nx (fun x => (S x y).z)) ∧
      (∀ x, IsQuinticSpline g.y (fun j => (S x (g.y j)).z) (fun j => (S x (g.y j)).zy) g.ny (fun y => (S x y).z)) ∧
      (∀ x y, g.x 0 < x → x < g.x (g.nx - 1) → ∃ v, HasDerivAt (fun x => (S x y).zxx) v x) ∧
      (∀ x y, g.y 0 < y → y < g.y (g.ny - 1) → ∃ v, HasDerivAt (fun y => (S x y).zyy) v y) ∧
      (∀ G : ℝ → ℝ → ℝ, ∀ H : ℝ → ℝ → ℝ, (∀ i < g.nx, IsQuinticSpline g.y (f i) (fy i) g.ny (G (g.x i)) ∧ IsQuinticSpline g.y (fx i) (fxy i) g.ny (H (g.x i))) →
        (∀ y, g.y 0 ≤ y → y ≤ g.y (g.ny - 1) → IsQuinticSpline g.x (fun i => G (g.x i) y) (fun i => H (g.x i) y) g.nx (fun x => G x y)) →
        ∀ x y, g.Inside x y → G x y = (S x y).z) := by
  have quint : ∀ {x : ℕ → ℝ} {n : ℕ} (_ : Grid x n) (_ : 2 ≤ n) (m : ℕ) (v d : ℕ → ℕ → ℝ), ∃ r : ℕ → ℕ → ℝ,
      (if ∀ i < m, (constructQuinticSpline x (v i) (d i) n).isSome then some fun i => (constructQuinticSpline x (v i) (d i) n).getD 0 else none) = some r ∧
      ∀ i < m, QSmooth x (v i) (d i) (r i) n := by
    intro x n hG hn m v d
    have h := fun i => quintic_solve hG hn (v i) (d i)
    rw [if_pos (fun i _ => by obtain ⟨e, he, _⟩ := h i; rw [he]; rfl)]
    refine ⟨_, rfl, fun i _ => ?_⟩
    obtain ⟨e, he, hq, _⟩ := h i
    simp only [he, Option.getD_some]; exact hq
  obtain ⟨fxxT, e1, h1⟩ := quint hg.gx hg.nx2 g.ny (fun j i => f i j) (fun j i => fx i j)
  obtain ⟨fxxyT, e2, h2⟩ := quint hg.gx hg.nx2 g.ny (fun j i => fy i j) (fun j i => fxy i j)
  obtain ⟨fyy, e3, h3⟩ := quint hg.gy hg.ny2 g.nx f fy
  obtain ⟨fxyy, e4, h4⟩ := quint hg.gy hg.ny2 g.nx fx fxy
  obtain ⟨fxxyy, e5, h5⟩ := quint hg.gy hg.ny2 g.nx (fun i j => fxxT j i) (fun i j => fxxyT j i)
  refine ⟨fun i j => fxxT j i, fyy, fun i j => fxxyT j i, fxyy, fxxyy, ?_, ?_⟩
  · simp only [QuinticSpline2d.setupMixed, Option.bind_eq_bind, e1, e2, e3, e4, Option.bind_some, e5]; rfl
  have h6 := qmixed hg h3 h4 (e := fun i j => fxxT j i) (ey := fun i j => fxxyT j i) h1 h2 h5
  let D := dat3 g.ny (flat g f) (flat g fx) (flat g fy) (flat g fun i j => fxxT j i) (flat g fxy) (flat g fyy) (flat g fun i j => fxxyT j i) (flat g fxyy) (flat g fxxyy)
  have d00 : ∀ i, ∀ j < g.ny, D 0 0 i j = f i j := fun i j hj => by simp only [D, dat3, if_true]; exact flat_at g f hj
  have d10 : ∀ i, ∀ j < g.ny, D 1 0 i j = fx i j := fun i j hj => by simp only [D, dat3, if_true, one_ne_zero, if_false]; exact flat_at g _ hj
  have d20 : ∀ i, ∀ j < g.ny, D 2 0 i j = fxxT j i := fun i j hj => by simp only [D, dat3, if_true, OfNat.ofNat_ne_zero, OfNat.ofNat_ne_one, if_false]; exact flat_at g _ hj
  have d01 : ∀ i, ∀ j < g.ny, D 0 1 i j = fy i j := fun i j hj => by simp only [D, dat3, if_true, one_ne_zero, if_false]; exact flat_at g fy hj
  have d11 : ∀ i, ∀ j < g.ny, D 1 1 i j = fxy i j := fun i j hj => by simp only [D, dat3, if_true, one_ne_zero, if_false]; exact flat_at g fxy hj
  have d21 : ∀ i, ∀ j < g.ny, D 2 1 i j = fxxyT j i := fun i j hj => by simp only [D, dat3, if_true, one_ne_zero, OfNat.ofNat_ne_zero, OfNat.ofNat_ne_one, if_false]; exact flat_at g _ hj
  have d02 : ∀ i, ∀ j < g.ny, D 0 2 i j = fyy i j := fun i j hj => by simp only [D, dat3, if_true, OfNat.ofNat_ne_zero, OfNat.ofNat_ne_one, if_false]; exact flat_at g fyy hj
  have d12 : ∀ i, ∀ j < g.ny, D 1 2 i j = fxyy i j := fun i j hj => by simp only [D, dat3, if_true, one_ne_zero, OfNat.ofNat_ne_zero, OfNat.ofNat_ne_one, if_false]; exact flat_at g fxyy hj
  have d22 : ∀ i, ∀ j < g.ny, D 2 2 i j = fxxyy i j := fun i j hj => by simp only [D, dat3, OfNat.ofNat_ne_zero, OfNat.ofNat_ne_one, if_false]; exact flat_at g fxxyy hj
  have sx : ∀ b < 3, ∀ j < g.ny, QSmooth g.x (fun i => D 0 b i j) (fun i => D 1 b i j) (fun i => D 2 b i j) g.nx := by
    intro b hb j hj
    rcases (by omega : b = 0 ∨ b = 1 ∨ b = 2) with rfl | rfl | rfl
    · simp only [fun i => d00 i j hj, fun i => d10 i j hj, fun i => d20 i j hj]; exact h1 j hj
    · simp only [fun i => d01 i j hj, fun i => d11 i j hj, fun i => d21 i j hj]; exact h2 j hj
    · simp only [fun i => d02 i j hj, fun i => d12 i j hj, fun i => d22 i j hj]; exact h6 j hj
  have sy : ∀ a < 3, ∀ i < g.nx, QSmooth g.y (fun j => D a 0 i j) (fun j => D a 1 i j) (fun j => D a 2 i j) g.ny := by
    intro a ha i hi
    rcases (by omega : a = 0 ∨ a = 1 ∨ a = 2) with rfl | rfl | rfl
    · exact qsmooth_congr hg.ny2 (h3 i hi) (fun j hj => d00 i j hj) (fun j hj => d01 i j hj) (fun j hj => d02 i j hj)
    · exact qsmooth_congr hg.ny2 (h4 i hi) (fun j hj => d10 i j hj) (fun j hj => d11 i j hj) (fun j hj => d12 i j hj)
    · exact qsmooth_congr hg.ny2 (h5 i hi) (fun j hj => d20 i j hj) (fun j hj => d21 i j hj) (fun j hj => d22 i j hj)
  have hX := quintic_fam hg.gx hg.nx2
  have hY := quintic_fam hg.gy hg.ny2
  let S := jet2 (quinticE g.x g.nx) (quinticE g.y g.ny) D
  have secX : ∀ y s, _ := fun y s => quinticE_spline hg.gx hg.nx2 (qsection_smooth hg.gy hg.nx2 hg.ny2 D sx y s) (fun a i => (quinticE g.y g.ny (fun b j => D a b i j) y).get s) rfl rfl rfl
  have secY : ∀ x s, _ := fun x s => quinticE_spline hg.gy hg.ny2 (qsection_smooth hg.gx hg.ny2 hg.nx2 (fun b a j i => D a b i j) sy x s) (fun b j => (quinticE g.x g.nx (fun a i => D a b i j) x).get s) rfl rfl rfl
  have nodeX : ∀ i < g.nx, ∀ y, (S (g.x i) y).z = (quinticE g.y g.ny (fun b j => D 0 b i j) y).get 0 ∧ (S (g.x i) y).zx = (quinticE g.y g.ny (fun b j => D 1 b i j) y).get 0 :=
    fun i hi y => ⟨hX.nodeVal _ i hi, hX.nodeDer _ i hi⟩
  have nodeY : ∀ j < g.ny, ∀ x, (S x (g.y j)).z = (quinticE g.x g.nx (fun a i => D a 0 i j) x).get 0 ∧ (S x (g.y j)).zy = (quinticE g.x g.nx (fun a i => D a 1 i j) x).get 0 := fun j hj x => by
    simp only [S, jet2, nest_swap hX hY]; exact ⟨hY.nodeVal _ j hj, hY.nodeDer _ j hj⟩
  have congrQ : ∀ {x : ℕ → ℝ} {n : ℕ} {f d f' d' : ℕ → ℝ} {G : ℝ → ℝ}, IsQuinticSpline x f d n G → (∀ i < n, f' i = f i) → (∀ i < n, d' i = d i) → IsQuinticSpline x f' d' n G := by
    intro x n f d f' d' G h hf hd
    obtain ⟨P, p1, p2⟩ := h.pieces
    refine ⟨P, fun i hi => ?_, p2⟩
    rw [hf i (by omega), hf (i + 1) hi, hd i (by omega), hd (i + 1) hi]; exact p1 i hi
  have isX : ∀ y, IsQuinticSpline g.x (fun i => (S (g.x i) y).z) (fun i => (S (g.x i) y).zx) g.nx (fun x => (S x y).z) := fun y =>
    congrQ (secX y 0).1 (fun i hi => (nodeX i hi y).1) (fun i hi => (nodeX i hi y).2)
  have isY : ∀ x, IsQuinticSpline g.y (fun j => (S x (g.y j)).z) (fun j => (S x (g.y j)).zy) g.ny (fun y => (S x y).z) := fun x => by
    refine congrQ ?_ (fun j hj => (nodeY j hj x).1) (fun j hj => (nodeY j hj x).2)
    have := (secY x 0).1
    simp only [S, jet2, nest_swap hX hY]; exact this
  have sm : Smooth2 g S (D 0 0) (D 1 0) (D 0 1) (D 1 1) := smooth2_of hX hY D
  have uniq : ∀ {x : ℕ → ℝ} {n : ℕ} (_ : Grid x n) (_ : 2 ≤ n) {f d : ℕ → ℝ} {G H : ℝ → ℝ}, IsQuinticSpline x f d n G → IsQuinticSpline x f d n H → ∀ t, x 0 ≤ t → t ≤ x (n - 1) → G t = H t := by
    intro x n hG hn f d G H a b t t0 t1
    obtain ⟨_, _, T, _, _, _, _, hu⟩ := C72_quintic x f d n hG hn
    rw [hu G a t t0 t1, hu H b t t0 t1]
  refine ⟨S, fun x y h => quintic2d_inside hg _ _ _ _ _ _ _ _ _ h, ?_, isX, isY, ?_, ?_, ?_⟩
  · refine { sm with nodes := fun i hi j hj => ?_ }
    have := sm.nodes i hi j hj
    rw [d00 i j hj, d10 i j hj, d01 i j hj, d11 i j hj] at this
    exact this
  · intro x y h0 h1; exact (secX y 0).2 x h0 h1
  · intro x y h0 h1
    simp only [S, jet2, nest_swap hX hY]; exact (secY x 0).2 y h0 h1
  · intro G H hn hs x y h
    have eG : ∀ i < g.nx, (S (g.x i) y).z = G (g.x i) y ∧ (S (g.x i) y).zx = H (g.x i) y := by
      intro i hi
      constructor
      · rw [(nodeX i hi y).1]
        refine uniq hg.gy hg.ny2 (f := f i) (d := fy i) (G := fun y => (quinticE g.y g.ny (fun b j => D 0 b i j) y).val) ?_ (hn i hi).1 y h.2.2.1 h.2.2.2
        exact congrQ (quinticE_spline hg.gy hg.ny2 (sy 0 (by omega) i hi) (fun b j => D 0 b i j) rfl rfl rfl).1 (fun j hj => (d00 i j hj).symm) (fun j hj => (d01 i j hj).symm)
      · rw [(nodeX i hi y).2]
        refine uniq hg.gy hg.ny2 (f := fx i) (d := fxy i) (G := fun y => (quinticE g.y g.ny (fun b j => D 1 b i j) y).val) ?_ (hn i hi).2 y h.2.2.1 h.2.2.2
        exact congrQ (quinticE_spline hg.gy hg.ny2 (sy 1 (by omega) i hi) (fun b j => D 1 b i j) rfl rfl rfl).1 (fun j hj => (d10 i j hj).symm) (fun j hj => (d11 i j hj).symm)
    exact uniq hg.gx hg.nx2 (congrQ (hs y h.2.2.1 h.2.2.2) (fun i hi => (eG i hi).1) (fun i hi => (eG i hi).2)) (isX y) x h.1 h.2.1

/-- Non-vacuity: the data of x^2 y^3 at nodes 0, 1, 2 in both directions. -/
example : ∃ fxx fyy fxxy fxyy fxxyy, QuinticSpline2d.setupMixed ⟨fun i => i, 3, fun j => j, 3⟩ (fun i j => (i : ℝ) ^ 2 * (j : ℝ) ^ 3) (fun i j => 2 * (i : ℝ) * (j : ℝ) ^ 3)
    (fun i j => 3 * (i : ℝ) ^ 2 * (j : ℝ) ^ 2) (fun i j => 6 * (i : ℝ) * (j : ℝ) ^ 2) = some (fxx, fyy, fxxy, fxyy, fxxyy) := by
  have hG : Grid (fun i => (i : ℝ)) 3 := fun i j h _ => by simpa using h
  obtain ⟨a, b, c, d, e, h, _⟩ := C96_quintic ⟨fun i => i, 3, fun j => j, 3⟩ ⟨hG, hG, by simp, by simp⟩ (fun i j => (i : ℝ) ^ 2 * (j : ℝ) ^ 3) (fun i j => 2 * (i : ℝ) * (j : ℝ) ^ 3)
    (fun i j => 3 * (i : ℝ) ^ 2 * (j : ℝ) ^ 2) (fun i j => 6 * (i : ℝ) * (j : ℝ) ^ 2)
  exact ⟨a, b, c, d, e, h⟩

end

end Verif.Spline
