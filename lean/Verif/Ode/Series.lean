import Mathlib.Analysis.Analytic.Basic
import Mathlib.Analysis.Calculus.MeanValue
import Mathlib.Analysis.Calculus.Deriv.Pow
import Mathlib.Analysis.Calculus.Deriv.Add
import Mathlib.Analysis.Asymptotics.Lemmas
import Mathlib.Tactic.LinearCombination

/-! Expansions over rooted trees of the exact solution of a differential equation and of the stages of an explicit Runge-Kutta method (specification and tools for C83;
nothing here is specific to the code). -/
namespace Verif.Ode

open Asymptotics Topology Filter

/-! ## Rooted trees -/

/-- Rooted trees with ordered children: a single node, or a tree with one more child of its root. -/
inductive Tree
  | leaf : Tree
  | graft : Tree → Tree → Tree
  deriving DecidableEq

/-- The number of nodes -/
def Tree.order : Tree → ℕ
  | leaf => 1
  | graft t u => t.order + u.order

/-- The product of densities of the children of the root -/
def Tree.prodDensity : Tree → ℕ
  | leaf => 1
  | graft t u => t.prodDensity * (u.order * u.prodDensity)

/-- The density: the number of nodes times the product of densities of the children -/
def Tree.density (t : Tree) : ℕ := t.order * t.prodDensity

/-- The number of children of the root -/
def Tree.nc : Tree → ℕ
  | leaf => 0
  | graft t _ => t.nc + 1

theorem Tree.order_pos (t : Tree) : 0 < t.order := by
  induction t with
  | leaf => exact Nat.one_pos
  | graft t u h _ => rw [Tree.order]; omega

theorem Tree.nc_lt_order (t : Tree) : t.nc < t.order := by
  induction t with
  | leaf => exact Nat.one_pos
  | graft t u h _ => rw [Tree.order, Tree.nc]; have := u.order_pos; omega

theorem Tree.density_pos (t : Tree) : 0 < t.density := by
  have : ∀ t : Tree, 0 < t.prodDensity := by
    intro t
    induction t with
    | leaf => exact Nat.one_pos
    | graft t u h1 h2 => rw [Tree.prodDensity]; exact Nat.mul_pos h1 (Nat.mul_pos u.order_pos h2)
  exact Nat.mul_pos t.order_pos (this t)

/-- Trees of bounded height of this representation -/
def upTo : ℕ → Finset Tree
  | 0 => {.leaf}
  | d + 1 => {.leaf} ∪ Finset.image (fun x : Tree × Tree => Tree.graft x.1 x.2) (upTo d ×ˢ upTo d)

theorem mem_upTo (t : Tree) : ∀ d, t.order ≤ d + 1 → t ∈ upTo d := by
  induction t with
  | leaf => intro d _; cases d <;> simp [upTo]
  | graft t u h1 h2 =>
    intro d hd
    rw [Tree.order] at hd
    have := t.order_pos
    have := u.order_pos
    obtain ⟨d, rfl⟩ : ∃ e, d = e + 1 := ⟨d - 1, by omega⟩
    rw [upTo, Finset.mem_union]
    exact Or.inr (Finset.mem_image.2 ⟨(t, u), Finset.mem_product.2 ⟨h1 d (by omega), h2 d (by omega)⟩, rfl⟩)

/-- All trees with no more than n nodes -/
def trees (n : ℕ) : Finset Tree := (upTo n).filter (fun t => t.order ≤ n)

theorem mem_trees {n : ℕ} {t : Tree} : t ∈ trees n ↔ t.order ≤ n := by
  rw [trees, Finset.mem_filter]
  exact ⟨fun h => h.2, fun h => ⟨mem_upTo t n (by omega), h⟩⟩

theorem trees_zero : trees 0 = ∅ := by
  ext t
  rw [mem_trees]
  have := t.order_pos
  simp; omega

/-- Trees whose roots have k children from the given set -/
def withChildren (U : Finset Tree) : ℕ → Finset Tree
  | 0 => {.leaf}
  | k + 1 => Finset.image (fun x : Tree × Tree => Tree.graft x.1 x.2) (withChildren U k ×ˢ U)

theorem withChildren_nc (U : Finset Tree) (k : ℕ) (t : Tree) (h : t ∈ withChildren U k) : t.nc = k := by
  induction k generalizing t with
  | zero => rw [withChildren, Finset.mem_singleton] at h; rw [h]; rfl
  | succ k ih =>
    rw [withChildren, Finset.mem_image] at h
    obtain ⟨⟨a, b⟩, hab, rfl⟩ := h
    rw [Tree.nc, ih a (Finset.mem_product.1 hab).1]

theorem mem_withChildren (n : ℕ) (t : Tree) (h : t.order ≤ n + 1) : t ∈ withChildren (trees n) t.nc := by
  induction t with
  | leaf => simp [Tree.nc, withChildren]
  | graft t u h1 h2 =>
    rw [Tree.order] at h
    have := t.order_pos
    have := u.order_pos
    rw [Tree.nc, withChildren, Finset.mem_image]
    exact ⟨(t, u), Finset.mem_product.2 ⟨h1 (by omega), mem_trees.2 (show u.order ≤ n by omega)⟩, rfl⟩

/-! ## Elementary differentials -/

universe uV

variable {V : Type uV} [NormedAddCommGroup V] [NormedSpace ℝ V]

/-- The values assigned to the children of the root: the multilinear terms of the expansion of f applied to the values of their children. -/
noncomputable def childVal (p : FormalMultilinearSeries ℝ V V) : Tree → ℕ → V
  | .leaf => fun _ => 0
  | .graft t u => Function.update (childVal p t) t.nc (p u.nc fun i => childVal p u i)

/-- The elementary differential of a tree: p_k(F(u_1),...,F(u_k)), where u_1..u_k are the subtrees of the root. -/
noncomputable def elemDiff (p : FormalMultilinearSeries ℝ V V) (t : Tree) : V := p t.nc fun i => childVal p t i

/-- A function of trees that is the product over the children of the root. -/
structure Multiplicative (w' w : Tree → ℝ) : Prop where
  leaf : w' .leaf = 1
  graft : ∀ t u, w' (.graft t u) = w' t * w u

/-- Expansion of a multilinear function of a sum over trees -/
theorem multilinear_sum (p : FormalMultilinearSeries ℝ V V) (U : Finset Tree) (w' w : Tree → ℝ) (hw : Multiplicative w' w) (h : ℝ)
    {W : Type uV} [AddCommGroup W] [Module ℝ W] (k : ℕ) (q : MultilinearMap ℝ (fun _ : Fin k => V) W) :
    q (fun _ => ∑ u ∈ U, (h ^ u.order * w u) • elemDiff p u) = ∑ t ∈ withChildren U k, (h ^ (t.order - 1) * w' t) • q (fun i => childVal p t i) := by
  induction k generalizing W with
  | zero =>
    rw [withChildren, Finset.sum_singleton, hw.leaf, Tree.order]
    simp only [Nat.sub_self, pow_zero, mul_one, one_smul]
    congr 1
    funext i; exact i.elim0
  | succ k ih =>
    have e1 : q (fun _ => ∑ u ∈ U, (h ^ u.order * w u) • elemDiff p u) =
        q.curryRight (fun _ => ∑ u ∈ U, (h ^ u.order * w u) • elemDiff p u) (∑ u ∈ U, (h ^ u.order * w u) • elemDiff p u) := by
      rw [MultilinearMap.curryRight_apply]
      congr 1
      funext i
      refine Fin.lastCases ?_ (fun j => ?_) i <;> simp
    rw [e1, ih q.curryRight, withChildren, Finset.sum_image (by rintro ⟨a, b⟩ - ⟨c, d⟩ - he; simpa using he), Finset.sum_product]
    rw [LinearMap.sum_apply]
    refine Finset.sum_congr rfl fun t ht => ?_
    rw [LinearMap.smul_apply, map_sum, Finset.smul_sum]
    refine Finset.sum_congr rfl fun u hu => ?_
    rw [map_smul, smul_smul, MultilinearMap.curryRight_apply]
    have e2 : (Fin.snoc (fun i : Fin k => childVal p t i) (elemDiff p u) : Fin (k + 1) → V) = fun i : Fin (k + 1) => childVal p (.graft t u) i := by
      funext i
      have hn := withChildren_nc U k t ht
      refine Fin.lastCases ?_ (fun j => ?_) i
      · simp [childVal, hn, elemDiff]
      · rw [Fin.snoc_castSucc, childVal, hn, Function.update_of_ne]
        · rfl
        · have := j.2; simp; omega
    rw [e2, hw.graft, Tree.order]
    congr 1
    have h1 := t.order_pos
    rw [show t.order + u.order - 1 = (t.order - 1) + u.order by omega, pow_add]
    ring

/-! ## Asymptotic expansions -/

/-- The part of the series with no more than n nodes -/
noncomputable def bser (p : FormalMultilinearSeries ℝ V V) (w : Tree → ℝ) (n : ℕ) (h : ℝ) : V := ∑ t ∈ trees n, (h ^ t.order * w t) • elemDiff p t

/-- The same divided by h -/
noncomputable def bder (p : FormalMultilinearSeries ℝ V V) (w : Tree → ℝ) (n : ℕ) (h : ℝ) : V := ∑ t ∈ trees n, (h ^ (t.order - 1) * w t) • elemDiff p t

theorem isBigO_pow {m n : ℕ} (h : m ≤ n) : (fun x : ℝ => x ^ n) =O[𝓝 0] fun x => x ^ m := by
  obtain ⟨k, rfl⟩ := Nat.exists_eq_add_of_le h
  have : (fun x : ℝ => x ^ k) =O[𝓝 0] fun _ => (1 : ℝ) := (continuous_pow k).continuousAt.norm.isBoundedUnder_le.isBigO_one ℝ
  simpa [pow_add] using (isBigO_refl (fun x : ℝ => x ^ m) (𝓝 0)).mul this

theorem isBigO_term {m n : ℕ} (h : m ≤ n) (c : ℝ) (v : V) : (fun x : ℝ => (x ^ n * c) • v) =O[𝓝 0] fun x => x ^ m := by
  have e : (fun x : ℝ => (x ^ n * c) • v) = fun x : ℝ => x ^ n • (c • v) := by funext x; rw [smul_smul]
  rw [e]
  have := (isBigO_pow h).smul (isBigO_refl (fun _ : ℝ => c • v) (𝓝 0))
  refine this.trans ?_
  have h2 : (fun _ : ℝ => c • v) =O[𝓝 (0 : ℝ)] fun _ => (1 : ℝ) := isBigO_const_const _ one_ne_zero _
  simpa using (isBigO_refl (fun x : ℝ => x ^ m) (𝓝 0)).smul h2

omit [NormedSpace ℝ V] in
theorem isBigO_sum {ι : Type*} {S : Finset ι} {F : ι → ℝ → V} {g : ℝ → ℝ} (H : ∀ i ∈ S, F i =O[𝓝 0] g) : (fun h => ∑ i ∈ S, F i h) =O[𝓝 0] g := by
  have := IsBigO.sum H
  refine this.congr_left fun h => ?_
  simp

theorem bser_isBigO (p : FormalMultilinearSeries ℝ V V) (w : Tree → ℝ) (n : ℕ) : bser p w n =O[𝓝 0] fun h => h := by
  have : bser p w n =O[𝓝 0] fun h => h ^ 1 := by
    exact isBigO_sum fun t _ => isBigO_term t.order_pos _ _
  simpa using this

theorem smul_bder (p : FormalMultilinearSeries ℝ V V) (w : Tree → ℝ) (n : ℕ) (h : ℝ) : h • bder p w n h = bser p w n h := by
  rw [bder, bser, Finset.smul_sum]
  refine Finset.sum_congr rfl fun t _ => ?_
  rw [smul_smul, ← mul_assoc, ← pow_succ', Nat.sub_add_cancel t.order_pos]

/-- The expansion of f with N terms -/
def Expands (f : V → V) (x0 : V) (p : FormalMultilinearSeries ℝ V V) (N : ℕ) : Prop :=
  (fun y => f (x0 + y) - ∑ k ∈ Finset.range N, p k fun _ => y) =O[𝓝 0] fun y => ‖y‖ ^ N

theorem Expands.of_hasFPowerSeriesAt {f : V → V} {x0 : V} {p : FormalMultilinearSeries ℝ V V} (h : HasFPowerSeriesAt f p x0) (N : ℕ) : Expands f x0 p N := by
  have := h.isBigO_sub_partialSum_pow N
  exact this

/-- If the argument of f is represented by a series over trees, so is the value. -/
theorem expand_comp {f : V → V} {x0 : V} {p : FormalMultilinearSeries ℝ V V} {N : ℕ} (hf : Expands f x0 p N) (n : ℕ) (hn : n + 1 ≤ N) (w' w : Tree → ℝ)
    (hw : Multiplicative w' w) (z : ℝ → V) (hz : (fun h => z h - bser p w n h) =O[𝓝 0] fun h => h ^ (n + 1)) :
    (fun h => f (x0 + z h) - bder p w' (n + 1) h) =O[𝓝 0] fun h => h ^ (n + 1) := by
  have hB := bser_isBigO p w n
  have hz1 : z =O[𝓝 0] fun h => h := by
    have h1 : (fun h : ℝ => h ^ (n + 1)) =O[𝓝 0] fun h : ℝ => h := by simpa using isBigO_pow (show 1 ≤ n + 1 by omega)
    have := (hz.trans h1).add hB
    simpa using this
  have hz0 : Tendsto z (𝓝 0) (𝓝 0) := hz1.trans_tendsto tendsto_id
  -- the remainder of the expansion of f
  have r1 : (fun h => f (x0 + z h) - ∑ k ∈ Finset.range N, p k fun _ => z h) =O[𝓝 0] fun h => h ^ (n + 1) := by
    have a := hf.comp_tendsto hz0
    refine a.trans ?_
    refine IsBigO.trans (g := fun h : ℝ => h ^ N) ?_ (isBigO_pow hn)
    exact (hz1.norm_left.pow N)
  -- replacing the argument
  have r2 : ∀ k, (fun h => p k (fun _ => z h) - p k (fun _ => bser p w n h)) =O[𝓝 0] fun h => h ^ (n + 1) := by
    intro k
    have hb : (fun h => (k : ℝ) * ‖p k‖ * (max ‖z h‖ ‖bser p w n h‖) ^ (k - 1)) =O[𝓝 0] fun _ => (1 : ℝ) := by
      have t1 : Tendsto (fun h => max ‖z h‖ ‖bser p w n h‖) (𝓝 0) (𝓝 (max 0 0)) := by
        have b0 : Tendsto (bser p w n) (𝓝 0) (𝓝 0) := hB.trans_tendsto tendsto_id
        simpa using hz0.norm.max b0.norm
      have := ((t1.pow (k - 1)).const_mul ((k : ℝ) * ‖p k‖))
      exact this.isBigO_one ℝ
    have key := hb.mul hz.norm_left
    simp only [one_mul] at key
    refine IsBigO.trans (IsBigO.of_norm_le fun h => ?_) key
    have := (p k).norm_image_sub_le (fun _ => z h) (fun _ => bser p w n h)
    refine this.trans ?_
    rw [Fintype.card_fin]
    have a1 : ‖(fun _ : Fin k => z h) - fun _ => bser p w n h‖ ≤ ‖z h - bser p w n h‖ := by
      rw [show (fun _ : Fin k => z h) - (fun _ => bser p w n h) = fun _ => z h - bser p w n h from rfl]
      exact pi_norm_const_le _
    have a2 : max ‖(fun _ : Fin k => z h)‖ ‖(fun _ : Fin k => bser p w n h)‖ ≤ max ‖z h‖ ‖bser p w n h‖ := max_le_max (pi_norm_const_le _) (pi_norm_const_le _)
    have a3 : 0 ≤ max ‖(fun _ : Fin k => z h)‖ ‖(fun _ : Fin k => bser p w n h)‖ := le_max_of_le_left (norm_nonneg _)
    calc _ = (k : ℝ) * ‖p k‖ * (max ‖(fun _ : Fin k => z h)‖ ‖(fun _ : Fin k => bser p w n h)‖) ^ (k - 1) * ‖(fun _ : Fin k => z h) - fun _ => bser p w n h‖ := by ring
      _ ≤ (k : ℝ) * ‖p k‖ * (max ‖z h‖ ‖bser p w n h‖) ^ (k - 1) * ‖z h - bser p w n h‖ := by gcongr
  -- the expansion in trees
  have r3 : (fun h => ∑ k ∈ Finset.range N, (p k fun _ => bser p w n h) - bder p w' (n + 1) h) =O[𝓝 0] fun h => h ^ (n + 1) := by
    have e : ∀ h k, (p k fun _ => bser p w n h) = ∑ t ∈ withChildren (trees n) k, (h ^ (t.order - 1) * w' t) • elemDiff p t := by
      intro h k
      have := multilinear_sum p (trees n) w' w hw h k (p k).toMultilinearMap
      rw [show (p k fun _ => bser p w n h) = (p k).toMultilinearMap (fun _ => ∑ u ∈ trees n, (h ^ u.order * w u) • elemDiff p u) from rfl, this]
      refine Finset.sum_congr rfl fun t ht => ?_
      rw [elemDiff]
      have hk := withChildren_nc _ _ _ ht
      subst hk
      rfl
    have disj : (↑(Finset.range N) : Set ℕ).PairwiseDisjoint (withChildren (trees n)) := by
      intro i _ j _ hij
      refine Finset.disjoint_left.2 fun t h1 h2 => hij ?_
      rw [← withChildren_nc _ _ _ h1, ← withChildren_nc _ _ _ h2]
    set E := (Finset.range N).biUnion (withChildren (trees n)) with hE
    have sub : trees (n + 1) ⊆ E := by
      intro t ht
      rw [mem_trees] at ht
      rw [hE, Finset.mem_biUnion]
      exact ⟨t.nc, Finset.mem_range.2 (by have := t.nc_lt_order; omega), mem_withChildren n t ht⟩
    have e2 : ∀ h, ∑ k ∈ Finset.range N, (p k fun _ => bser p w n h) - bder p w' (n + 1) h = ∑ t ∈ E \ trees (n + 1), (h ^ (t.order - 1) * w' t) • elemDiff p t := by
      intro h
      rw [Finset.sum_congr rfl fun k _ => e h k, ← Finset.sum_biUnion disj, ← hE, bder, ← Finset.sum_sdiff sub]
      abel
    simp only [e2]
    refine isBigO_sum fun t ht => isBigO_term ?_ _ _
    have := (Finset.mem_sdiff.1 ht).2
    rw [mem_trees] at this
    omega
  have r2s : (fun h => ∑ k ∈ Finset.range N, (p k (fun _ => z h) - p k (fun _ => bser p w n h))) =O[𝓝 0] fun h => h ^ (n + 1) := isBigO_sum fun k _ => r2 k
  have := (r1.add r2s).add r3
  refine this.congr_left fun h => ?_
  rw [Finset.sum_sub_distrib]
  abel

/-! ## The exact solution -/

/-- Bound of a function from the bound of its derivative -/
theorem isBigO_of_deriv {g g' : ℝ → V} {n : ℕ} (h0 : g 0 = 0) (hd : ∀ᶠ h in 𝓝 (0 : ℝ), HasDerivAt g (g' h) h) (hb : g' =O[𝓝 0] fun h => h ^ n) :
    g =O[𝓝 0] fun h => h ^ (n + 1) := by
  obtain ⟨C, hC⟩ := hb.bound
  obtain ⟨ε, he, hball⟩ := Metric.eventually_nhds_iff_ball.1 (hd.and hC)
  refine IsBigO.of_bound C (Metric.eventually_nhds_iff_ball.2 ⟨ε, he, fun h hh => ?_⟩)
  have hh' : |h| < ε := by simpa using hh
  have hin : ∀ x ∈ segment ℝ 0 h, |x| ≤ |h| := by
    intro x hx
    rw [segment_eq_uIcc] at hx
    have := Set.abs_sub_left_of_mem_uIcc hx
    simpa using this
  have key := Convex.norm_image_sub_le_of_norm_hasDerivWithin_le (f := g) (f' := g') (s := segment ℝ 0 h) (C := C * |h| ^ n) (x := 0) (y := h)
    (fun x hx => (hball x (by simpa using lt_of_le_of_lt (hin x hx) hh')).1.hasDerivWithinAt)
    (fun x hx => ?_) (convex_segment _ _) (left_mem_segment _ _ _) (right_mem_segment _ _ _)
  · rw [h0, sub_zero, sub_zero] at key
    refine key.trans (le_of_eq ?_)
    rw [Real.norm_eq_abs, Real.norm_eq_abs, abs_pow, pow_succ, mul_assoc]
  · have h1 := (hball x (by simpa using lt_of_le_of_lt (hin x hx) hh')).2
    have hpos : 0 ≤ C ∨ x ^ n = 0 := by
      by_contra hneg
      push Not at hneg
      have : 0 < ‖x ^ n‖ := norm_pos_iff.2 hneg.2
      nlinarith [norm_nonneg (g' x), hneg.1]
    have hC0 : 0 ≤ C := by
      have h2 := (hball (ε / 2) (by simp [abs_of_pos he]; linarith)).2
      have h3 : 0 < ‖(ε / 2) ^ n‖ := norm_pos_iff.2 (pow_ne_zero _ (by positivity))
      by_contra hneg
      push Not at hneg
      nlinarith [norm_nonneg (g' (ε / 2))]
    refine h1.trans ?_
    rw [Real.norm_eq_abs, abs_pow]
    exact mul_le_mul_of_nonneg_left (pow_le_pow_left₀ (abs_nonneg _) (hin x hx) n) hC0

/-- Weights of the exact solution -/
noncomputable def exactW (t : Tree) : ℝ := 1 / t.density

noncomputable def exactW' (t : Tree) : ℝ := 1 / t.prodDensity

theorem exact_multiplicative : Multiplicative exactW' exactW := by
  refine ⟨by simp [exactW', Tree.prodDensity], fun t u => ?_⟩
  simp only [exactW', exactW, Tree.prodDensity, Tree.density]
  push_cast
  rw [one_div_mul_one_div]

theorem hasDerivAt_bser (p : FormalMultilinearSeries ℝ V V) (n : ℕ) (h : ℝ) : HasDerivAt (bser p exactW n) (bder p exactW' n h) h := by
  unfold bder
  have : bser p exactW n = fun h => ∑ t ∈ trees n, (h ^ t.order * exactW t) • elemDiff p t := rfl
  rw [this]
  refine HasDerivAt.fun_sum fun t _ => ?_
  have h1 := ((hasDerivAt_pow t.order h).mul_const (exactW t)).smul_const (elemDiff p t)
  refine h1.congr_deriv ?_
  congr 1
  have h2 : (t.order : ℝ) ≠ 0 := by exact_mod_cast t.order_pos.ne'
  rw [exactW, exactW', Tree.density]
  push_cast
  by_cases h3 : (t.prodDensity : ℝ) = 0
  · simp [h3]
  · field_simp

theorem bser_zero (p : FormalMultilinearSeries ℝ V V) (w : Tree → ℝ) (n : ℕ) : bser p w n 0 = 0 := by
  rw [bser]
  refine Finset.sum_eq_zero fun t _ => ?_
  rw [zero_pow t.order_pos.ne', zero_mul, zero_smul]

theorem exact_expansion {f : V → V} {x0 : V} {p : FormalMultilinearSeries ℝ V V} {N : ℕ} (hf : Expands f x0 p N) {y : ℝ → V} (hy0 : y 0 = x0)
    (hy : ∀ᶠ h in 𝓝 (0 : ℝ), HasDerivAt y (f (y h)) h) (n : ℕ) (hn : n ≤ N) : (fun h => (y h - x0) - bser p exactW n h) =O[𝓝 0] fun h => h ^ (n + 1) := by
  induction n with
  | zero =>
    have h0 : HasDerivAt y (f (y 0)) 0 := hy.self_of_nhds
    have := h0.isBigO_sub
    have e : ∀ h, (y h - x0) - bser p exactW 0 h = y h - y 0 := by intro h; rw [bser, trees_zero, Finset.sum_empty, sub_zero, hy0]
    simp only [e]
    simpa using this
  | succ n ih =>
    have h1 := expand_comp hf n hn exactW' exactW exact_multiplicative (fun h => y h - x0) (ih (by omega))
    simp only [add_sub_cancel] at h1
    refine isBigO_of_deriv (g' := fun h => f (y h) - bder p exactW' (n + 1) h) (by rw [bser_zero, hy0, sub_self, sub_zero]) ?_ h1
    filter_upwards [hy] with h hh
    exact (hh.sub_const x0).sub (hasDerivAt_bser p (n + 1) h)

/-! ## Runge-Kutta methods -/

/-- The weights of the derivatives at the stages of an explicit method with coefficients a -/
noncomputable def stageW' (a : ℕ → ℕ → ℝ) (i : ℕ) : Tree → ℝ
  | .leaf => 1
  | .graft t u => stageW' a i t * ∑ j ∈ Finset.range i, a i j * stageW' a j u

/-- The weights of the arguments of the stages -/
noncomputable def stageW (a : ℕ → ℕ → ℝ) (i : ℕ) (t : Tree) : ℝ := ∑ j ∈ Finset.range i, a i j * stageW' a j t

theorem stage_multiplicative (a : ℕ → ℕ → ℝ) (i : ℕ) : Multiplicative (stageW' a i) (stageW a i) := ⟨by rw [stageW'], fun t u => by rw [stageW', stageW]⟩

/-- The stages: k_i = f(x0 + h sum_{j<i} a_ij k_j) -/
structure Stages (f : V → V) (x0 : V) (a : ℕ → ℕ → ℝ) (s : ℕ) (K : ℕ → ℝ → V) : Prop where
  eq : ∀ i < s, ∀ h, K i h = f (x0 + h • ∑ j ∈ Finset.range i, a i j • K j h)

/-- A combination of stages is represented by the combination of weights. -/
theorem combine {p : FormalMultilinearSeries ℝ V V} {n : ℕ} {K : ℕ → ℝ → V} {w' : ℕ → Tree → ℝ} {S : Finset ℕ}
    (hK : ∀ j ∈ S, (fun h => K j h - bder p (w' j) n h) =O[𝓝 0] fun h => h ^ n) (c : ℕ → ℝ) :
    (fun h => h • (∑ j ∈ S, c j • K j h) - bser p (fun t => ∑ j ∈ S, c j * w' j t) n h) =O[𝓝 0] fun h => h ^ (n + 1) := by
  have h1 : (fun h => ∑ j ∈ S, c j • (K j h - bder p (w' j) n h)) =O[𝓝 0] fun h => h ^ n := isBigO_sum fun j hj => (hK j hj).const_smul_left (c j)
  have h2 := (isBigO_refl (fun h : ℝ => h) (𝓝 0)).smul h1
  have e : ∀ h, h • (∑ j ∈ S, c j • K j h) - bser p (fun t => ∑ j ∈ S, c j * w' j t) n h = h • ∑ j ∈ S, c j • (K j h - bder p (w' j) n h) := by
    intro h
    rw [← smul_bder]
    rw [← smul_sub]
    congr 1
    simp only [smul_sub, Finset.sum_sub_distrib]
    congr 1
    simp only [bder, Finset.smul_sum]
    rw [Finset.sum_comm]
    refine Finset.sum_congr rfl fun t _ => ?_
    rw [Finset.mul_sum, Finset.sum_smul]
    refine Finset.sum_congr rfl fun j _ => ?_
    rw [smul_smul]
    congr 1
    ring
  simp only [e]
  refine h2.congr_right fun h => ?_
  rw [smul_eq_mul, pow_succ']

theorem stage_expansion {f : V → V} {x0 : V} {p : FormalMultilinearSeries ℝ V V} {N : ℕ} (hf : Expands f x0 p (N + 1)) {a : ℕ → ℕ → ℝ} {s : ℕ} {K : ℕ → ℝ → V}
    (hK : Stages f x0 a s K) (i : ℕ) (hi : i < s) : ∀ n ≤ N + 1, (fun h => K i h - bder p (stageW' a i) n h) =O[𝓝 0] fun h => h ^ n := by
  induction i using Nat.strong_induction_on with
  | _ i ih =>
    have step : ∀ n, n + 1 ≤ N + 1 → (fun h => K i h - bder p (stageW' a i) (n + 1) h) =O[𝓝 0] fun h => h ^ (n + 1) := by
      intro n hn
      have h1 := combine (p := p) (n := n) (K := K) (w' := stageW' a) (S := Finset.range i)
        (fun j hj => ih j (Finset.mem_range.1 hj) (lt_trans (Finset.mem_range.1 hj) hi) n (by omega)) (a i)
      have h2 := expand_comp hf n hn (stageW' a i) (stageW a i) (stage_multiplicative a i) _ h1
      refine h2.congr_left fun h => ?_
      rw [hK.eq i hi h]
    intro n hn
    cases n with
    | succ n => exact step n hn
    | zero =>
      have h1 := step 0 (by omega)
      have h2 : (fun h => bder p (stageW' a i) 1 h) =O[𝓝 0] fun h => h ^ 0 := isBigO_sum fun t _ => isBigO_term (Nat.zero_le _) _ _
      have h3 := (h1.trans (isBigO_pow (show 0 ≤ 0 + 1 by omega))).add h2
      refine h3.congr_left fun h => ?_
      rw [bder, bder, trees_zero, Finset.sum_empty, sub_zero, zero_add, sub_add_cancel]

/-- The difference between a combination of stages and the exact solution -/
theorem rk_local_error {f : V → V} {x0 : V} {p : FormalMultilinearSeries ℝ V V} {N : ℕ} (hf : Expands f x0 p (N + 1)) {a : ℕ → ℕ → ℝ} {s : ℕ} {K : ℕ → ℝ → V}
    (hK : Stages f x0 a s K) {y : ℝ → V} (hy0 : y 0 = x0) (hy : ∀ᶠ h in 𝓝 (0 : ℝ), HasDerivAt y (f (y h)) h) (b : ℕ → ℝ) :
    (fun h => (x0 + h • ∑ j ∈ Finset.range s, b j • K j h) - y h - bser p (fun t => ∑ j ∈ Finset.range s, b j * stageW' a j t - exactW t) (N + 1) h) =O[𝓝 0]
      fun h => h ^ (N + 2) := by
  have h1 := combine (p := p) (n := N + 1) (K := K) (w' := stageW' a) (S := Finset.range s)
        (fun j hj => stage_expansion hf hK j (Finset.mem_range.1 hj) (N + 1) le_rfl) b
  have h2 := exact_expansion hf hy0 hy (N + 1) le_rfl
  refine (h1.sub h2).congr_left fun h => ?_
  have e : bser p (fun t => ∑ j ∈ Finset.range s, b j * stageW' a j t - exactW t) (N + 1) h =
      bser p (fun t => ∑ j ∈ Finset.range s, b j * stageW' a j t) (N + 1) h - bser p exactW (N + 1) h := by
    simp only [bser, mul_sub, sub_smul, Finset.sum_sub_distrib]
  rw [e]
  abel

end Verif.Ode
