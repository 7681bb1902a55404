import Verif.Pot.DiskProps
import Mathlib.Analysis.SpecialFunctions.Trigonometric.DerivHyp

/-! # C97: accuracy of the vertical function near the plane, and the DiskAnsatz potential -/

namespace Verif.Pot

open Real Verif.Coord MeasureTheory

theorem nonneg_of_deriv {g g' : ℝ → ℝ} {a : ℝ} (h0 : g 0 = 0) (hg : ∀ x, HasDerivAt g (g' x) x) (hp : ∀ x, 0 ≤ x → x ≤ a → 0 ≤ g' x) {x : ℝ}
    (hx : 0 ≤ x) (hxa : x ≤ a) : 0 ≤ g x := by
  have hm : MonotoneOn g (Set.Icc 0 a) := by
    refine monotoneOn_of_deriv_nonneg (convex_Icc _ _) (fun y _ => (hg y).continuousAt.continuousWithinAt) (fun y _ => (hg y).differentiableAt.differentiableWithinAt) fun y hy => ?_
    rw [interior_Icc] at hy
    rw [(hg y).deriv]; exact hp y hy.1.le hy.2.le
  have := hm ⟨le_refl _, hx.trans hxa⟩ ⟨hx, hxa⟩ hx
  rwa [h0] at this

theorem hasDerivAt_tanh' (x : ℝ) : HasDerivAt tanh (1 - tanh x ^ 2) x := by
  have e : tanh = fun x => sinh x / cosh x := funext tanh_eq_sinh_div_cosh
  rw [e]
  refine ((hasDerivAt_sinh x).div (hasDerivAt_cosh x) (cosh_pos x).ne').congr_deriv ?_
  have := (cosh_pos x).ne'
  simp only
  field_simp

theorem tanh_bounds {u : ℝ} (h0 : 0 ≤ u) (h1 : u ≤ 1) : u - u ^ 3 / 3 ≤ tanh u ∧ tanh u ≤ u - u ^ 3 / 3 + 2 * u ^ 5 / 15 := by
  have t0 : tanh 0 = 0 := by simp
  have ti : ∀ x, 0 ≤ x → 0 ≤ tanh x := fun x hx => by
    rw [tanh_eq_sinh_div_cosh]; exact div_nonneg (sinh_nonneg_iff.mpr hx) (cosh_pos x).le
  have a1 : ∀ x, 0 ≤ x → x ≤ 1 → tanh x ≤ x := fun x hx hx1 => by
    have := nonneg_of_deriv (g := fun x => x - tanh x) (a := 1) (by simp) (fun x => (hasDerivAt_id x).sub (hasDerivAt_tanh' x)) (fun y _ _ => by nlinarith [sq_nonneg (tanh y)]) hx hx1
    linarith
  have a2 : ∀ x, 0 ≤ x → x ≤ 1 → x - x ^ 3 / 3 ≤ tanh x := fun x hx hx1 => by
    have := nonneg_of_deriv (g := fun x => tanh x - x + x ^ 3 / 3) (a := 1) (by simp)
      (fun x => (((hasDerivAt_tanh' x).sub (hasDerivAt_id x)).add ((hasDerivAt_pow 3 x).div_const 3)))
      (fun y h h' => by have := a1 y h h'; have := ti y h; norm_num; nlinarith) hx hx1
    linarith
  refine ⟨a2 u h0 h1, ?_⟩
  have := nonneg_of_deriv (g := fun x => x - x ^ 3 / 3 + 2 * x ^ 5 / 15 - tanh x) (a := 1) (by simp)
      (fun x => ((((hasDerivAt_id x).sub ((hasDerivAt_pow 3 x).div_const 3)).add (((hasDerivAt_pow 5 x).const_mul 2).div_const 15)).sub (hasDerivAt_tanh' x)))
      (fun y h h' => by
        have h2 := a2 y h h'
        have h3 : 0 ≤ y - y ^ 3 / 3 := by nlinarith [sq_nonneg y]
        have h4 : (y - y ^ 3 / 3) ^ 2 ≤ tanh y ^ 2 := by nlinarith
        norm_num; nlinarith [pow_nonneg h 6]) h0 h1
  linarith

theorem logcosh_bounds {u : ℝ} (h0 : 0 ≤ u) (h1 : u ≤ 1) : u ^ 2 / 2 - u ^ 4 / 12 ≤ log (cosh u) ∧ log (cosh u) ≤ u ^ 2 / 2 - u ^ 4 / 12 + u ^ 6 / 45 := by
  have hd : ∀ x : ℝ, HasDerivAt (fun x => log (cosh x)) (tanh x) x := fun x => by
    rw [tanh_eq_sinh_div_cosh]; exact (hasDerivAt_cosh x).log (cosh_pos x).ne'
  constructor
  · have := nonneg_of_deriv (g := fun x => log (cosh x) - x ^ 2 / 2 + x ^ 4 / 12) (a := 1) (by simp)
      (fun x => (((hd x).sub ((hasDerivAt_pow 2 x).div_const 2)).add ((hasDerivAt_pow 4 x).div_const 12)))
      (fun y h h' => by have := (tanh_bounds h h').1; norm_num; linarith) h0 h1
    linarith
  · have := nonneg_of_deriv (g := fun x => x ^ 2 / 2 - x ^ 4 / 12 + x ^ 6 / 45 - log (cosh x)) (a := 1) (by simp)
      (fun x => (((((hasDerivAt_pow 2 x).div_const 2).sub ((hasDerivAt_pow 4 x).div_const 12)).add ((hasDerivAt_pow 6 x).div_const 45)).sub (hd x)))
      (fun y h h' => by have := (tanh_bounds h h').2; norm_num; linarith) h0 h1
    linarith

/-- C97 (vertical, accuracy): away from the plane the function H is the exact antiderivative; within the small layer next to the plane where a series is used, it differs from it by no more than the size of the next term of the series -/
theorem C97_vertical_value (P : DiskParam) (z : ℝ) :
    (P.scaleHeight > 0 → (|z / P.scaleHeight| > 1e-5 → (createVertical P z).pot = exactH P z) ∧
      (|z / P.scaleHeight| ≤ 1e-5 → |(createVertical P z).pot - exactH P z| ≤ P.scaleHeight * |z / P.scaleHeight| ^ 4 / 30)) ∧
    (P.scaleHeight < 0 → (|z / P.scaleHeight| > 1e-3 → (createVertical P z).pot = exactH P z) ∧
      (|z / P.scaleHeight| ≤ 1e-3 → |(createVertical P z).pot - exactH P z| ≤ |P.scaleHeight| * |z / P.scaleHeight| ^ 6 / 2880)) ∧
    (P.scaleHeight = 0 → (createVertical P z).pot = exactH P z) := by
  refine ⟨fun hp => ?_, fun hn => ?_, fun h0 => ?_⟩
  · have hv : createVertical P = verticalExp P.scaleHeight := by simp only [createVertical, if_pos hp]
    rw [hv]
    simp only [verticalExp, exactH, if_pos hp]
    have hx : |z * (1 / P.scaleHeight)| = |z / P.scaleHeight| := by rw [mul_one_div]
    rw [hx]
    have h0 := abs_nonneg (z / P.scaleHeight)
    generalize |z / P.scaleHeight| = x at *
    constructor
    · intro h; rw [if_pos h]; field_simp; ring
    · intro h; rw [if_neg (not_lt.mpr h)]
      have := exp_bound (x := -x) (by rw [abs_neg, abs_of_nonneg h0]; norm_num at h; linarith) (n := 4) (by norm_num)
      simp only [Finset.sum_range_succ, Finset.sum_range_zero, abs_neg, abs_of_nonneg h0] at this
      norm_num [Nat.factorial] at this
      have e : 0.5 / (1 / P.scaleHeight) * (x * x * (0.5 - 1 / 6 * x)) - P.scaleHeight / 2 * (exp (-x) - 1 + x) =
        -(P.scaleHeight / 2) * (exp (-x) - (1 + -x + x ^ 2 / 2 + (-x) ^ 3 / 6)) := by field_simp; ring
      rw [e, abs_mul, abs_neg, abs_of_pos (by positivity)]
      have : P.scaleHeight / 2 * |exp (-x) - (1 + -x + x ^ 2 / 2 + (-x) ^ 3 / 6)| ≤ P.scaleHeight / 2 * (x ^ 4 * (5 / 96)) :=
        mul_le_mul_of_nonneg_left this (by positivity)
      have h4 := mul_nonneg hp.le (pow_nonneg h0 4)
      nlinarith
  · have hv : createVertical P = verticalIso (-P.scaleHeight) := by simp only [createVertical, if_neg (not_lt.mpr hn.le), if_pos hn]
    have hq : 0 < -P.scaleHeight := by linarith
    rw [hv]
    simp only [verticalIso, exactH, if_neg (not_lt.mpr hn.le), if_pos hn]
    have hx : |z * (1 / -P.scaleHeight)| = |z / P.scaleHeight| := by rw [mul_one_div, abs_div, abs_div, abs_neg]
    rw [hx]
    have hc : cosh (z / (2 * P.scaleHeight)) = cosh (|z / P.scaleHeight| / 2) := by
      rw [← cosh_abs]; congr 1; rw [abs_div, abs_div, abs_mul, abs_of_pos (by norm_num : (0:ℝ) < 2)]; field_simp
    rw [hc, abs_of_neg hn]
    have h0 := abs_nonneg (z / P.scaleHeight)
    generalize |z / P.scaleHeight| = x at *
    constructor
    · intro h; rw [if_pos h, cosh_half]; field_simp
    · intro h; rw [if_neg (not_lt.mpr h)]
      obtain ⟨b1, b2⟩ := logcosh_bounds (u := x / 2) (by linarith) (by norm_num at h; linarith)
      have e : 1 / (1 / -P.scaleHeight) * (x * x * (1 / 8 - 1 / 192 * x * x)) - -P.scaleHeight * log (cosh (x / 2)) =
        -P.scaleHeight * ((x / 2) ^ 2 / 2 - (x / 2) ^ 4 / 12 - log (cosh (x / 2))) := by field_simp; ring
      rw [e, abs_mul, abs_of_pos hq, mul_div_assoc]
      refine mul_le_mul_of_nonneg_left ?_ hq.le
      rw [abs_le]
      constructor
      · ring_nf at b2 ⊢; linarith
      · have := pow_nonneg h0 6; linarith
  · simp [createVertical, exactH, h0, verticalThin]; ring

/-- the thin disk: H is half the distance from the plane, with unit jump in the derivative -/
theorem C97_vertical_thin (P : DiskParam) (h : P.scaleHeight = 0) :
    (∀ z, z ≠ 0 → RadialOk (createVertical P) z ∧ (createVertical P z).der2 = 0) ∧
    (∀ z > 0, (createVertical P z).der = 1 / 2) ∧ (∀ z < 0, (createVertical P z).der = -1 / 2) := by
  have hv : createVertical P = verticalThin := by simp [createVertical, h]
  rw [hv]
  refine ⟨fun z hz => ⟨⟨?_, ?_⟩, rfl⟩, fun z hz => ?_, fun z hz => ?_⟩
  · rcases lt_or_gt_of_ne hz with hn | hp
    · refine (((hasDerivAt_neg z).const_mul 0.5).congr_deriv ?_).congr_of_eventuallyEq ?_
      · simp [verticalThin, sgn, hn, not_lt.mpr hn.le]
      · filter_upwards [gt_mem_nhds hn] with s hs
        simp [verticalThin, abs_of_neg hs]
    · refine (((hasDerivAt_id z).const_mul 0.5).congr_deriv ?_).congr_of_eventuallyEq ?_
      · simp [verticalThin, sgn, hp]
      · filter_upwards [lt_mem_nhds hp] with s hs
        simp [verticalThin, abs_of_pos hs]
  · rcases lt_or_gt_of_ne hz with hn | hp
    · refine ((hasDerivAt_const z (-0.5 : ℝ)).congr_deriv ?_).congr_of_eventuallyEq ?_
      · simp [verticalThin]
      · filter_upwards [gt_mem_nhds hn] with s hs
        simp [verticalThin, sgn, hs, not_lt.mpr hs.le]
    · refine ((hasDerivAt_const z (0.5 : ℝ)).congr_deriv ?_).congr_of_eventuallyEq ?_
      · simp [verticalThin]
      · filter_upwards [lt_mem_nhds hp] with s hs
        simp [verticalThin, sgn, hs]
  · simp [verticalThin, sgn, hz]; norm_num
  · simp [verticalThin, sgn, hz, not_lt.mpr hz.le]; norm_num

/-! ### the potential -/

/-- C97 (potential): away from the origin, the gradient and the Hessian reported are those of the potential 4π f(r) H(z) -/
theorem C97_ansatz (f H : ℝ → Radial) (pos : PosCyl) (hr : 0 < √(pos.R ^ 2 + pos.z ^ 2)) (hf : RadialOk f (√(pos.R ^ 2 + pos.z ^ 2)))
    (hH : RadialOk H pos.z) : OkCyl (ansatz f H) pos := by
  have aux : ∀ (R z : ℝ → ℝ) (R' z' t : ℝ), HasDerivAt R R' t → HasDerivAt z z' t → R t = pos.R → z t = pos.z →
      HasDerivAt (fun s => √(R s ^ 2 + z s ^ 2)) ((R t * R' + z t * z') / √(R t ^ 2 + z t ^ 2)) t ∧
      (∀ᶠ s in nhds t, 0 < √(R s ^ 2 + z s ^ 2)) := by
    intro R z R' z' t hR hz h1 h2
    have hq : 0 < R t ^ 2 + z t ^ 2 := by rw [h1, h2]; exact sqrt_pos.mp hr
    have : HasDerivAt (fun s => √(R s ^ 2 + z s ^ 2)) ((R t * R' + z t * z') / √(R t ^ 2 + z t ^ 2)) t := by
      refine (((hR.pow 2).add (hz.pow 2)).sqrt hq.ne').congr_deriv ?_
      simp only [Pi.add_apply, Pi.pow_apply]
      have := (sqrt_pos.mpr hq).ne'
      field_simp
      push_cast; ring
    exact ⟨this, this.continuousAt.eventually (lt_mem_nhds (by simp only [h1, h2]; exact hr))⟩
  have hp0 : ∀ q, (ansatz f H q).pot = (f (√(q.R ^ 2 + q.z ^ 2))).pot * (4 * π) * (H q.z).pot := by
    intro q; simp only [ansatz]; split_ifs with h
    · rw [h]; simp
    · rfl
  refine ⟨?_, ?_, ?_, ?_⟩
  · intro R z phi R' z' phi' t hR hz _ hpos
    subst hpos
    obtain ⟨hs, -⟩ := aux R z R' z' t hR hz rfl rfl
    simp only [hp0]
    have hf1 := (hf.1.comp t hs).mul_const (4 * π)
    have hH1 := hH.1.comp t hz
    refine (hf1.mul hH1).congr_deriv ?_
    simp only [ansatz, if_pos hr, Function.comp]
    field_simp
    ring
  · intro R z phi R' z' phi' t hR hz _ hpos
    subst hpos
    obtain ⟨hs, he⟩ := aux R z R' z' t hR hz rfl rfl
    have hf2 := (hf.2.comp t hs).mul_const (4 * π)
    have hH1 := hH.1.comp t hz
    have h1 := (hH1.mul (hR.div hs hr.ne')).mul hf2
    refine (h1.congr_deriv ?_).congr_of_eventuallyEq ?_
    · simp only [ansatz, if_pos hr, Function.comp, Pi.mul_apply, Pi.div_apply]
      have h2 : √(R t ^ 2 + z t ^ 2) ^ 2 = R t ^ 2 + z t ^ 2 := sq_sqrt (by positivity)
      simp only at hr
      generalize √(R t ^ 2 + z t ^ 2) = r at *
      field_simp
      linear_combination 4 * π * (H (z t)).pot * (f r).der * R' * h2
    · filter_upwards [he] with s hs
      simp only [ansatz, if_pos hs, Pi.mul_apply, Pi.div_apply, Function.comp, mul_one_div]
  · intro R z phi R' z' phi' t hR hz _ hpos
    subst hpos
    obtain ⟨hs, he⟩ := aux R z R' z' t hR hz rfl rfl
    have hf1 := (hf.1.comp t hs).mul_const (4 * π)
    have hf2 := (hf.2.comp t hs).mul_const (4 * π)
    have hH1 := hH.1.comp t hz
    have hH2 := hH.2.comp t hz
    have h1 := ((hH1.mul (hz.div hs hr.ne')).mul hf2).add (hH2.mul hf1)
    refine (h1.congr_deriv ?_).congr_of_eventuallyEq ?_
    · simp only [ansatz, if_pos hr, Function.comp, Pi.mul_apply, Pi.div_apply]
      have h2 : √(R t ^ 2 + z t ^ 2) ^ 2 = R t ^ 2 + z t ^ 2 := sq_sqrt (by positivity)
      simp only at hr
      generalize √(R t ^ 2 + z t ^ 2) = r at *
      field_simp
      linear_combination 4 * π * (H (z t)).pot * (f r).der * z' * h2
    · filter_upwards [he] with s hs
      simp only [ansatz, if_pos hs, Pi.mul_apply, Pi.div_apply, Pi.add_apply, Function.comp, mul_one_div]
  · intro R z phi R' z' phi' t hR hz _ hpos
    refine ((hasDerivAt_const t (0 : ℝ)).congr_deriv ?_)
    simp [ansatz]

/-- C97 (Poisson equation): off the axis, the density reported is the Laplacian of the potential divided by 4π -/
theorem C97_poisson (f H : ℝ → Radial) (pos : PosCyl) (hR : 0 < pos.R) (h0 : (H 0).pot = 0) :
    ansatzDens f H pos = ((ansatz f H pos).hess.dR2 + (ansatz f H pos).grad.dR / pos.R + (ansatz f H pos).hess.dphi2 / pos.R ^ 2 + (ansatz f H pos).hess.dz2) / (4 * π) := by
  have hr : 0 < √(pos.R ^ 2 + pos.z ^ 2) := sqrt_pos.mpr (by positivity)
  have h2 : √(pos.R ^ 2 + pos.z ^ 2) ^ 2 = pos.R ^ 2 + pos.z ^ 2 := sq_sqrt (by positivity)
  simp only [ansatzDens, ansatz, if_pos hr]
  have hpi := pi_pos
  have hz : (if pos.z ≠ 0 then 2 * (f √(pos.R ^ 2 + pos.z ^ 2)).der * ((H pos.z).pot + pos.z * (H pos.z).der) / √(pos.R ^ 2 + pos.z ^ 2) else 0) =
      2 * (f √(pos.R ^ 2 + pos.z ^ 2)).der * ((H pos.z).pot + pos.z * (H pos.z).der) / √(pos.R ^ 2 + pos.z ^ 2) := by
    split_ifs with h
    · rfl
    · push Not at h; rw [h, h0]; simp
  rw [hz]
  generalize √(pos.R ^ 2 + pos.z ^ 2) = r at *
  have hR' := hR.ne'
  field_simp
  linear_combination 4 * π * pos.R ^ 2 * ((f r).der2 * (H pos.z).pot * r + (f r).der * (H pos.z).pot) * h2

/-- the same on the axis, where the two horizontal second derivatives are equal -/
theorem C97_poisson_axis (f H : ℝ → Radial) (pos : PosCyl) (hR : pos.R = 0) (h0 : (H 0).pot = 0) :
    ansatzDens f H pos = (2 * (ansatz f H pos).hess.dR2 + (ansatz f H pos).hess.dz2) / (4 * π) := by
  have hpi := pi_pos
  by_cases hz0 : pos.z = 0
  · simp [ansatzDens, ansatz, hR, hz0, h0]; field_simp
  have hr : 0 < √(pos.R ^ 2 + pos.z ^ 2) := sqrt_pos.mpr (by positivity)
  have h2 : √(pos.R ^ 2 + pos.z ^ 2) ^ 2 = pos.R ^ 2 + pos.z ^ 2 := sq_sqrt (by positivity)
  simp only [ansatzDens, ansatz, if_pos hr, if_pos hz0]
  rw [hR] at *
  generalize √((0:ℝ) ^ 2 + pos.z ^ 2) = r at *
  field_simp
  linear_combination ((f r).der2 * (H pos.z).pot * r + 2 * (f r).der * (H pos.z).pot) * h2

/-- C97: the disk is represented by the sum of the full density, the density of DiskAnsatz with the opposite sign, and the DiskAnsatz potential (potential_factory.cpp:1727-1731); the three together have the density of the disk -/
theorem C97_split (P : DiskParam) (f g : ℝ → ℝ × Option (ℝ × ℝ)) (hf : createRadial P = some f)
    (hg : createRadial { P with surfaceDensity := P.surfaceDensity * -1 } = some g) (pos : PosCyl) (hr : 0 < √(pos.R ^ 2 + pos.z ^ 2)) :
    diskDens (asRadial f) (createVertical P) pos + ansatzDens (asRadial g) (createVertical P) pos + ansatzDens (asRadial f) (createVertical P) pos =
      diskDens (asRadial f) (createVertical P) pos := by
  have hv := createRadial_valid hf
  have key : ∀ R, 0 < R → (asRadial g R).pot = -(asRadial f R).pot ∧ (asRadial g R).der = -(asRadial f R).der ∧ (asRadial g R).der2 = -(asRadial f R).der2 := by
    intro R hR
    have sd : ∀ R, surfDens { P with surfaceDensity := P.surfaceDensity * -1 } R = -surfDens P R := fun R => by simp [surfDens]
    have e0 : ∀ R, 0 < R → (asRadial g R).pot = -(asRadial f R).pot := fun R hR => by
      simp only [asRadial]; rw [(C97_radial _ _ hg R hR).1, (C97_radial _ _ hf R hR).1, sd]
    have e1 : ∀ R, 0 < R → (asRadial g R).der = -(asRadial f R).der := fun R hR => by
      refine (C97_radial _ _ hg R hR).2.2.1.unique ?_
      refine ((C97_radial _ _ hf R hR).2.2.1.neg).congr_of_eventuallyEq ?_
      filter_upwards [lt_mem_nhds hR] with s hs using e0 s hs
    refine ⟨e0 R hR, e1 R hR, ?_⟩
    refine (C97_radial _ _ hg R hR).2.2.2.unique ?_
    refine ((C97_radial _ _ hf R hR).2.2.2.neg).congr_of_eventuallyEq ?_
    filter_upwards [lt_mem_nhds hR] with s hs using e1 s hs
  obtain ⟨k0, k1, k2⟩ := key _ hr
  simp only [ansatzDens, k0, k1, k2]
  split_ifs <;> ring

end Verif.Pot
