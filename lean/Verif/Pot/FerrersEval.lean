import Verif.Pot.FerrersProps
import Mathlib.Topology.Order.IntermediateValue

/-! # C100: Ferrers potential: the evaluation routine -/

namespace Verif.Pot

open Real Verif.Coord Filter Topology

theorem hasDerivAt_mul_of_zero {u g : ℝ → ℝ} {u' t : ℝ} (hu : HasDerivAt u u' t) (h0 : u t = 0) (hg : ContinuousAt g t) :
    HasDerivAt (fun s => u s * g s) (u' * g t) t := by
  rw [hasDerivAt_iff_tendsto_slope] at hu ⊢
  refine (hu.mul (hg.tendsto.mono_left nhdsWithin_le_nhds)).congr fun s => ?_
  simp only [slope_def_field, h0]
  ring

namespace FerrersP

variable {P : FerrersP}

theorem Ok.b0 (h : P.Ok) : 0 < P.b := by linarith [h.cb, h.c0]
theorem Ok.a0 (h : P.Ok) : 0 < P.a := by linarith [h.ba, h.b0]

/-- difference of the function at two arguments -/
theorem ellip_sub (h : P.Ok) (p : PosCar) {l k : ℝ} (hl : 0 ≤ l) (hk : 0 ≤ k) :
    P.ellip p k - P.ellip p l = (l - k) * (p.x ^ 2 / ((l + P.a * P.a) * (k + P.a * P.a)) + p.y ^ 2 / ((l + P.b * P.b) * (k + P.b * P.b))
      + p.z ^ 2 / ((l + P.c * P.c) * (k + P.c * P.c))) := by
  have := h.a0
  have := h.b0
  have := h.c0
  have h1 : l + P.a ^ 2 ≠ 0 := by positivity
  have h2 : l + P.b ^ 2 ≠ 0 := by positivity
  have h3 : l + P.c ^ 2 ≠ 0 := by positivity
  have h4 : k + P.a ^ 2 ≠ 0 := by positivity
  have h5 : k + P.b ^ 2 ≠ 0 := by positivity
  have h6 : k + P.c ^ 2 ≠ 0 := by positivity
  rw [ellip, ellip]
  have e : ∀ u w : ℝ, l + w ≠ 0 → k + w ≠ 0 → u / (k + w) - u / (l + w) = (l - k) * (u / ((l + w) * (k + w))) := by
    intro u w hw hk; field_simp; ring
  simp only [← sq]
  linear_combination e (p.x ^ 2) (P.a ^ 2) h1 h4 + e (p.y ^ 2) (P.b ^ 2) h2 h5 + e (p.z ^ 2) (P.c ^ 2) h3 h6

theorem slope_pos (h : P.Ok) (p : PosCar) (hp : 0 < p.x ^ 2 + p.y ^ 2 + p.z ^ 2) {l k : ℝ} (hl : 0 ≤ l) (hk : 0 ≤ k) :
    0 < p.x ^ 2 / ((l + P.a * P.a) * (k + P.a * P.a)) + p.y ^ 2 / ((l + P.b * P.b) * (k + P.b * P.b)) + p.z ^ 2 / ((l + P.c * P.c) * (k + P.c * P.c)) := by
  have := h.a0
  have := h.b0
  have := h.c0
  have hx : 0 ≤ p.x ^ 2 / ((l + P.a * P.a) * (k + P.a * P.a)) := by positivity
  have hy : 0 ≤ p.y ^ 2 / ((l + P.b * P.b) * (k + P.b * P.b)) := by positivity
  have hz : 0 ≤ p.z ^ 2 / ((l + P.c * P.c) * (k + P.c * P.c)) := by positivity
  rcases eq_or_ne p.x 0 with x0 | x0
  · rcases eq_or_ne p.y 0 with y0 | y0
    · have z0 : p.z ≠ 0 := by rintro e; rw [x0, y0, e] at hp; norm_num at hp
      have : 0 < p.z ^ 2 / ((l + P.c * P.c) * (k + P.c * P.c)) := by positivity
      linarith
    · have : 0 < p.y ^ 2 / ((l + P.b * P.b) * (k + P.b * P.b)) := by positivity
      linarith
  · have : 0 < p.x ^ 2 / ((l + P.a * P.a) * (k + P.a * P.a)) := by positivity
    linarith

theorem r2_pos_of_m2 (p : PosCar) (hm : 0 < p.x ^ 2 / (P.a * P.a) + p.y ^ 2 / (P.b * P.b) + p.z ^ 2 / (P.c * P.c)) : 0 < p.x ^ 2 + p.y ^ 2 + p.z ^ 2 := by
  by_contra hn
  have hx : p.x ^ 2 = 0 := by nlinarith [sq_nonneg p.x, sq_nonneg p.y, sq_nonneg p.z]
  have hy : p.y ^ 2 = 0 := by nlinarith [sq_nonneg p.x, sq_nonneg p.y, sq_nonneg p.z]
  have hz : p.z ^ 2 = 0 := by nlinarith [sq_nonneg p.x, sq_nonneg p.y, sq_nonneg p.z]
  rw [hx, hy, hz] at hm
  norm_num at hm

theorem ellip_zero (p : PosCar) : P.ellip p 0 = p.x ^ 2 / (P.a * P.a) + p.y ^ 2 / (P.b * P.b) + p.z ^ 2 / (P.c * P.c) := by
  simp [ellip]

/-- the root is bounded by the squared radius -/
theorem root_le (h : P.Ok) (p : PosCar) {l : ℝ} (hl : 0 ≤ l) (he : P.ellip p l = 1) : l ≤ p.x ^ 2 + p.y ^ 2 + p.z ^ 2 := by
  have := h.a0
  have := h.b0
  have := h.c0
  have e : ∀ u w : ℝ, 0 ≤ u → 0 < w → l * (u / (l + w)) ≤ u := by
    intro u w hu hw
    rw [← mul_div_assoc, div_le_iff₀ (by linarith)]
    nlinarith
  have := e (p.x ^ 2) (P.a * P.a) (sq_nonneg _) (by positivity)
  have := e (p.y ^ 2) (P.b * P.b) (sq_nonneg _) (by positivity)
  have := e (p.z ^ 2) (P.c * P.c) (sq_nonneg _) (by positivity)
  have : l * P.ellip p l = l := by rw [he, mul_one]
  rw [ellip] at this
  nlinarith

/-- C100: the equation solved for a point outside the ellipsoid has a unique non-negative root -/
theorem C100_ferrers_root (h : P.Ok) (p : PosCar) (hm : p.x ^ 2 / (P.a * P.a) + p.y ^ 2 / (P.b * P.b) + p.z ^ 2 / (P.c * P.c) > 1) :
    ∃! l : ℝ, 0 ≤ l ∧ p.x ^ 2 / (l + P.a * P.a) + p.y ^ 2 / (l + P.b * P.b) + p.z ^ 2 / (l + P.c * P.c) = 1 := by
  have a0 := h.a0
  have b0 := h.b0
  have c0 := h.c0
  have hp := r2_pos_of_m2 p (lt_trans one_pos hm)
  set r2 := p.x ^ 2 + p.y ^ 2 + p.z ^ 2 with hr
  have ce : ContinuousOn (P.ellip p) (Set.Icc 0 r2) := by
    unfold ellip
    have n : ∀ w : ℝ, 0 < w → ∀ l ∈ Set.Icc 0 r2, l + w ≠ 0 := fun w hw l hl => by have := hl.1; linarith
    exact ((continuousOn_const.div (continuousOn_id.add continuousOn_const) (n _ (by positivity))).add
      (continuousOn_const.div (continuousOn_id.add continuousOn_const) (n _ (by positivity)))).add
      (continuousOn_const.div (continuousOn_id.add continuousOn_const) (n _ (by positivity)))
  have hi : P.ellip p r2 ≤ 1 := by
    have e : ∀ u w : ℝ, 0 ≤ u → 0 < w → u / (r2 + w) ≤ u / r2 := fun u w hu hw => div_le_div_of_nonneg_left hu hp (by linarith)
    have := e (p.x ^ 2) (P.a * P.a) (sq_nonneg _) (by positivity)
    have := e (p.y ^ 2) (P.b * P.b) (sq_nonneg _) (by positivity)
    have := e (p.z ^ 2) (P.c * P.c) (sq_nonneg _) (by positivity)
    have : p.x ^ 2 / r2 + p.y ^ 2 / r2 + p.z ^ 2 / r2 = 1 := by rw [← add_div, ← add_div, ← hr, div_self hp.ne']
    rw [ellip]
    linarith
  have lo : 1 ≤ P.ellip p 0 := by rw [ellip_zero]; exact hm.le
  obtain ⟨l, hl, e⟩ := intermediate_value_Icc' hp.le ce ⟨hi, lo⟩
  refine ⟨l, ⟨hl.1, e⟩, ?_⟩
  rintro k ⟨hk, e'⟩
  have := ellip_sub h p hl.1 hk
  rw [e, show P.ellip p k = 1 from e', sub_self] at this
  rcases mul_eq_zero.mp this.symm with h0 | h0
  · linarith
  · exact absurd h0 (slope_pos h p hp hl.1 hk).ne'

/-- the function is a continuous function of position -/
theorem ellip_hasDeriv {x y z : ℝ → ℝ} {x' y' z' t : ℝ} (l : ℝ) (hx : HasDerivAt x x' t) (hy : HasDerivAt y y' t) (hz : HasDerivAt z z' t) :
    ∃ d, HasDerivAt (fun s => P.ellip ⟨x s, y s, z s⟩ l) d t :=
  ⟨_, (((hx.pow 2).div_const _).add ((hy.pow 2).div_const _)).add ((hz.pow 2).div_const _)⟩

/-- the root is a differentiable function of position -/
theorem root_deriv (h : P.Ok) {x y z L : ℝ → ℝ} {x' y' z' t : ℝ} (hx : HasDerivAt x x' t) (hy : HasDerivAt y y' t) (hz : HasDerivAt z z' t)
    (hp : 0 < x t ^ 2 + y t ^ 2 + z t ^ 2) (hL : ∀ᶠ s in 𝓝 t, 0 ≤ L s ∧ P.ellip ⟨x s, y s, z s⟩ (L s) = 1) : ∃ L', HasDerivAt L L' t := by
  have a0 := h.a0
  have b0 := h.b0
  have c0 := h.c0
  obtain ⟨lt0, et⟩ := hL.self_of_nhds
  have cx := hx.continuousAt
  have cy := hy.continuousAt
  have cz := hz.continuousAt
  set D : ℝ → ℝ → ℝ := fun s k => x s ^ 2 / ((k + P.a * P.a) * (L t + P.a * P.a)) + y s ^ 2 / ((k + P.b * P.b) * (L t + P.b * P.b))
      + z s ^ 2 / ((k + P.c * P.c) * (L t + P.c * P.c)) with hD
  have key : ∀ᶠ s in 𝓝 t, P.ellip ⟨x s, y s, z s⟩ (L t) - 1 = (L s - L t) * D s (L s) := by
    filter_upwards [hL] with s hs
    have := ellip_sub h ⟨x s, y s, z s⟩ hs.1 lt0
    rwa [hs.2] at this
  have cr : ContinuousAt (fun s => x s ^ 2 + y s ^ 2 + z s ^ 2) t := by fun_prop
  have er : ∀ᶠ s in 𝓝 t, 0 < x s ^ 2 + y s ^ 2 + z s ^ 2 := cr.eventually (lt_mem_nhds hp)
  have cD : ∀ g : ℝ → ℝ, ContinuousAt g t → 0 ≤ g t → ContinuousAt (fun s => D s (g s)) t := by
    intro g cg hg
    have n : ∀ w : ℝ, 0 < w → (g t + w) * (L t + w) ≠ 0 := fun w hw => (mul_pos (by linarith) (by linarith)).ne'
    exact (((cx.pow 2).div ((cg.add continuousAt_const).mul continuousAt_const) (n _ (by positivity))).add
      ((cy.pow 2).div ((cg.add continuousAt_const).mul continuousAt_const) (n _ (by positivity)))).add
      ((cz.pow 2).div ((cg.add continuousAt_const).mul continuousAt_const) (n _ (by positivity)))
  obtain ⟨d, hd⟩ := ellip_hasDeriv (P := P) (L t) hx hy hz
  have hN : HasDerivAt (fun s => P.ellip ⟨x s, y s, z s⟩ (L t) - 1) d t := hd.sub_const 1
  -- continuity
  have cL : ContinuousAt L t := by
    have c1 := (hN.continuousAt.abs).div (cD _ cr hp.le) (slope_pos h ⟨x t, y t, z t⟩ hp hp.le lt0).ne'
    have l0 : Tendsto (fun s => |P.ellip ⟨x s, y s, z s⟩ (L t) - 1| / D s (x s ^ 2 + y s ^ 2 + z s ^ 2)) (𝓝 t) (𝓝 0) := by
      have := c1.tendsto
      simp only [Pi.div_apply] at this
      rw [et, sub_self, abs_zero, zero_div] at this
      exact this
    rw [ContinuousAt, tendsto_iff_dist_tendsto_zero]
    refine squeeze_zero' (Eventually.of_forall fun s => dist_nonneg) ?_ l0
    filter_upwards [hL, key, er] with s hs ks rs
    have hle := root_le h ⟨x s, y s, z s⟩ hs.1 hs.2
    simp only at hle
    have dp := slope_pos h ⟨x s, y s, z s⟩ rs rs.le lt0
    simp only at dp
    change 0 < D s _ at dp
    have mono : D s (x s ^ 2 + y s ^ 2 + z s ^ 2) ≤ D s (L s) := by
      have e : ∀ u w : ℝ, 0 ≤ u → 0 < w → u / ((x s ^ 2 + y s ^ 2 + z s ^ 2 + w) * (L t + w)) ≤ u / ((L s + w) * (L t + w)) := by
        intro u w hu hw
        have := hs.1
        refine div_le_div_of_nonneg_left hu (by positivity) (mul_le_mul_of_nonneg_right (by linarith) (by positivity))
      exact add_le_add (add_le_add (e _ _ (sq_nonneg _) (by positivity)) (e _ _ (sq_nonneg _) (by positivity))) (e _ _ (sq_nonneg _) (by positivity))
    rw [Real.dist_eq, le_div_iff₀ dp, ks, abs_mul]
    refine mul_le_mul_of_nonneg_left (mono.trans (le_abs_self _)) (abs_nonneg _)
  have cI : ContinuousAt (fun s => (D s (L s))⁻¹) t := (cD L cL lt0).inv₀ (slope_pos h ⟨x t, y t, z t⟩ hp lt0 lt0).ne'
  have hm := (hasDerivAt_mul_of_zero hN (by rw [et, sub_self]) cI).add_const (L t)
  refine ⟨_, hm.congr_of_eventuallyEq ?_⟩
  filter_upwards [hL, key, er] with s hs ks rs
  have dp := slope_pos h ⟨x s, y s, z s⟩ rs hs.1 lt0
  change 0 < D s (L s) at dp
  rw [ks, mul_inv_cancel_right₀ dp.ne', sub_add_cancel]

/-- the squared radius is bounded by the squared ellipsoidal radius -/
theorem r2_le (h : P.Ok) (p : PosCar) : p.x ^ 2 + p.y ^ 2 + p.z ^ 2 ≤ P.a ^ 2 * (p.x ^ 2 / (P.a * P.a) + p.y ^ 2 / (P.b * P.b) + p.z ^ 2 / (P.c * P.c)) := by
  have a0 := h.a0
  have b0 := h.b0
  have c0 := h.c0
  have e : ∀ u w : ℝ, 0 ≤ u → 0 < w → w ≤ P.a → u ≤ P.a ^ 2 * (u / (w * w)) := by
    intro u w hu hw hwa
    rw [← mul_div_assoc, le_div_iff₀ (by positivity)]
    have : w * w ≤ P.a ^ 2 := by nlinarith
    nlinarith
  have := e (p.x ^ 2) P.a (sq_nonneg _) a0 le_rfl
  have := e (p.y ^ 2) P.b (sq_nonneg _) b0 h.ba.le
  have := e (p.z ^ 2) P.c (sq_nonneg _) c0 (h.cb.trans h.ba).le
  linarith

/-- assembling: at a point with a differentiable lambda, which is constant or the root of the equation -/
theorem ok_of_lam (h : P.Ok) (lam : PosCar → ℝ) (F : PosCar → OutCar) (p : PosCar)
    (hF : ∀ x y z : ℝ → ℝ, ∀ t, ContinuousAt x t → ContinuousAt y t → ContinuousAt z t → (⟨x t, y t, z t⟩ : PosCar) = p →
      ∀ᶠ s in 𝓝 t, F ⟨x s, y s, z s⟩ = P.evalW ⟨x s, y s, z s⟩ (lam ⟨x s, y s, z s⟩))
    (hl : 0 ≤ lam p)
    (hd : ∀ (x y z : ℝ → ℝ) (x' y' z' t : ℝ), HasDerivAt x x' t → HasDerivAt y y' t → HasDerivAt z z' t → (⟨x t, y t, z t⟩ : PosCar) = p →
      ∃ L', HasDerivAt (fun s => lam ⟨x s, y s, z s⟩) L' t ∧ L' * (1 - P.ellip p (lam p)) = 0) : OkCar F p := by
  have Fp : F p = P.evalW p (lam p) := by
    have := (hF (fun _ => p.x) (fun _ => p.y) (fun _ => p.z) 0 continuousAt_const continuousAt_const continuousAt_const rfl).self_of_nhds
    exact this
  refine ⟨?_, ?_, ?_, ?_⟩
  · intro x y z x' y' z' t hx hy hz e
    obtain ⟨L', hL, h0⟩ := hd x y z x' y' z' t hx hy hz e
    subst e
    rw [Fp]
    refine ((pot_total h hx hy hz hL hl).congr_deriv ?_).congr_of_eventuallyEq ?_
    · linear_combination (π / 3 * P.rho0 * P.a * P.b * P.c / P.denom (lam ⟨x t, y t, z t⟩)) * (1 - P.ellip ⟨x t, y t, z t⟩ (lam ⟨x t, y t, z t⟩)) ^ 2 * h0
    · filter_upwards [hF x y z t hx.continuousAt hy.continuousAt hz.continuousAt rfl] with s hs
      rw [hs]
  · intro x y z x' y' z' t hx hy hz e
    obtain ⟨L', hL, h0⟩ := hd x y z x' y' z' t hx hy hz e
    subst e
    rw [Fp]
    refine ((dx_total h hx hy hz hL hl).congr_deriv ?_).congr_of_eventuallyEq ?_
    · linear_combination (-(x t) * (2 * π * P.rho0 * P.a * P.b * P.c) / (P.denom (lam ⟨x t, y t, z t⟩) * (lam ⟨x t, y t, z t⟩ + P.a * P.a))) * (1 - P.ellip ⟨x t, y t, z t⟩ (lam ⟨x t, y t, z t⟩)) * h0
    · filter_upwards [hF x y z t hx.continuousAt hy.continuousAt hz.continuousAt rfl] with s hs
      rw [hs]
  · intro x y z x' y' z' t hx hy hz e
    obtain ⟨L', hL, h0⟩ := hd x y z x' y' z' t hx hy hz e
    subst e
    rw [Fp]
    refine ((dy_total h hx hy hz hL hl).congr_deriv ?_).congr_of_eventuallyEq ?_
    · linear_combination (-(y t) * (2 * π * P.rho0 * P.a * P.b * P.c) / (P.denom (lam ⟨x t, y t, z t⟩) * (lam ⟨x t, y t, z t⟩ + P.b * P.b))) * (1 - P.ellip ⟨x t, y t, z t⟩ (lam ⟨x t, y t, z t⟩)) * h0
    · filter_upwards [hF x y z t hx.continuousAt hy.continuousAt hz.continuousAt rfl] with s hs
      rw [hs]
  · intro x y z x' y' z' t hx hy hz e
    obtain ⟨L', hL, h0⟩ := hd x y z x' y' z' t hx hy hz e
    subst e
    rw [Fp]
    refine ((dz_total h hx hy hz hL hl).congr_deriv ?_).congr_of_eventuallyEq ?_
    · linear_combination (-(z t) * (2 * π * P.rho0 * P.a * P.b * P.c) / (P.denom (lam ⟨x t, y t, z t⟩) * (lam ⟨x t, y t, z t⟩ + P.c * P.c))) * (1 - P.ellip ⟨x t, y t, z t⟩ (lam ⟨x t, y t, z t⟩)) * h0
    · filter_upwards [hF x y z t hx.continuousAt hy.continuousAt hz.continuousAt rfl] with s hs
      rw [hs]

/-- C100: strictly inside the ellipsoid bounding the density -/
theorem C100_ferrers_inside (h : P.Ok) (lam : PosCar → ℝ) (p : PosCar) (hm : p.x ^ 2 / (P.a * P.a) + p.y ^ 2 / (P.b * P.b) + p.z ^ 2 / (P.c * P.c) < 1) :
    OkCar (P.eval lam) p ∧ (P.eval lam p).hess.dx2 + (P.eval lam p).hess.dy2 + (P.eval lam p).hess.dz2 = 4 * π * P.density p := by
  have a0 := h.a0
  have b0 := h.b0
  have c0 := h.c0
  have ev : ∀ q : PosCar, q.x ^ 2 / (P.a * P.a) + q.y ^ 2 / (P.b * P.b) + q.z ^ 2 / (P.c * P.c) < 1 → P.eval lam q = P.evalW q 0 := by
    intro q hq
    have := r2_le h q
    rw [eval]
    rw [if_neg (by have : 0 < P.a ^ 2 := by positivity
                   simp only [gt_iff_lt, not_lt]; nlinarith), if_neg (not_lt.mpr hq.le)]
  constructor
  · refine ok_of_lam h (fun _ => 0) _ p ?_ le_rfl ?_
    · intro x y z t hx hy hz e
      subst e
      have c : ContinuousAt (fun s => x s ^ 2 / (P.a * P.a) + y s ^ 2 / (P.b * P.b) + z s ^ 2 / (P.c * P.c)) t := by fun_prop
      filter_upwards [c.eventually (gt_mem_nhds hm)] with s hs
      exact ev _ hs
    · intro x y z x' y' z' t _ _ _ _
      exact ⟨0, hasDerivAt_const _ _, zero_mul _⟩
  · rw [ev p hm, laplace h p le_rfl, density, ellip_zero]
    have e : P.denom 0 = P.a * P.b * P.c := by
      rw [denom, show (0 + P.a * P.a) * (0 + P.b * P.b) * (0 + P.c * P.c) = (P.a * P.b * P.c) ^ 2 by ring, sqrt_sq (by positivity)]
    have e2 : (p.x / P.a) ^ 2 + (p.y / P.b) ^ 2 + (p.z / P.c) ^ 2 = p.x ^ 2 / (P.a * P.a) + p.y ^ 2 / (P.b * P.b) + p.z ^ 2 / (P.c * P.c) := by
      rw [div_pow, div_pow, div_pow, sq P.a, sq P.b, sq P.c]
    simp only [e2]
    rw [e, if_neg (not_lt.mpr hm.le)]
    generalize p.x ^ 2 / (P.a * P.a) + p.y ^ 2 / (P.b * P.b) + p.z ^ 2 / (P.c * P.c) = m
    field_simp
    ring

/-- C100: outside the ellipsoid bounding the density -/
theorem C100_ferrers_outside (h : P.Ok) (lam : PosCar → ℝ)
    (hlam : ∀ q : PosCar, q.x ^ 2 / (P.a * P.a) + q.y ^ 2 / (P.b * P.b) + q.z ^ 2 / (P.c * P.c) > 1 →
      0 ≤ lam q ∧ q.x ^ 2 / (lam q + P.a * P.a) + q.y ^ 2 / (lam q + P.b * P.b) + q.z ^ 2 / (lam q + P.c * P.c) = 1)
    (p : PosCar) (hm : p.x ^ 2 / (P.a * P.a) + p.y ^ 2 / (P.b * P.b) + p.z ^ 2 / (P.c * P.c) > 1) (hr : p.x ^ 2 + p.y ^ 2 + p.z ^ 2 < (10 * P.a) ^ 2) :
    OkCar (P.eval lam) p ∧ (P.eval lam p).hess.dx2 + (P.eval lam p).hess.dy2 + (P.eval lam p).hess.dz2 = 4 * π * P.density p := by
  have a0 := h.a0
  have b0 := h.b0
  have c0 := h.c0
  have ev : ∀ q : PosCar, q.x ^ 2 / (P.a * P.a) + q.y ^ 2 / (P.b * P.b) + q.z ^ 2 / (P.c * P.c) > 1 → q.x ^ 2 + q.y ^ 2 + q.z ^ 2 < (10 * P.a) ^ 2 →
      P.eval lam q = P.evalW q (lam q) := by
    intro q hq hr
    rw [eval, if_neg (not_lt.mpr hr.le), if_pos hq]
  have one := (hlam p hm).2
  constructor
  · refine ok_of_lam h lam _ p ?_ (hlam p hm).1 ?_
    · intro x y z t hx hy hz e
      subst e
      have c : ContinuousAt (fun s => x s ^ 2 / (P.a * P.a) + y s ^ 2 / (P.b * P.b) + z s ^ 2 / (P.c * P.c)) t := by fun_prop
      have c' : ContinuousAt (fun s => x s ^ 2 + y s ^ 2 + z s ^ 2) t := by fun_prop
      filter_upwards [c.eventually (lt_mem_nhds hm), c'.eventually (gt_mem_nhds hr)] with s hs hs'
      exact ev _ hs hs'
    · intro x y z x' y' z' t hx hy hz e
      subst e
      have cx := hx.continuousAt
      have cy := hy.continuousAt
      have cz := hz.continuousAt
      have c : ContinuousAt (fun s => x s ^ 2 / (P.a * P.a) + y s ^ 2 / (P.b * P.b) + z s ^ 2 / (P.c * P.c)) t := by fun_prop
      obtain ⟨L', hL⟩ := root_deriv (L := fun s => lam ⟨x s, y s, z s⟩) h hx hy hz (r2_pos_of_m2 _ (lt_trans one_pos hm)) (by
        filter_upwards [c.eventually (lt_mem_nhds hm)] with s hs
        exact hlam _ hs)
      exact ⟨L', hL, by rw [ellip, one, sub_self, mul_zero]⟩
  · rw [ev p hm hr, laplace h p (hlam p hm).1, density, ellip, one, sub_self]
    have e2 : (p.x / P.a) ^ 2 + (p.y / P.b) ^ 2 + (p.z / P.c) ^ 2 = p.x ^ 2 / (P.a * P.a) + p.y ^ 2 / (P.b * P.b) + p.z ^ 2 / (P.c * P.c) := by
      rw [div_pow, div_pow, div_pow, sq P.a, sq P.b, sq P.c]
    simp only [e2]
    rw [if_pos hm]
    norm_num

end FerrersP
end Verif.Pot
