import Verif.DF.ScalingProps
import Mathlib.MeasureTheory.Measure.Lebesgue.EqHaar
import Mathlib.MeasureTheory.Constructions.Pi

/-! # C99: the jacobian of the scaling and the total mass -/

namespace Verif.DF

open Real Verif.Actions Verif.Coord Verif.Scaling MeasureTheory

/-- the triplet of actions as a point of three-dimensional space -/
def Act.ofVec (J : Fin 3 → ℝ) : Act := ⟨J 0, J 1, J 2⟩

noncomputable def gmap (x : Vars) : Fin 3 → ℝ :=
  ![exp (1 / (1 - x 0) - 1 / x 0) * sin (π * unscaleCub 0 1 (x 1)) * x 2,
      exp (1 / (1 - x 0) - 1 / x 0) * sin (π * unscaleCub 0 1 (x 1)) * (1 - x 2), exp (1 / (1 - x 0) - 1 / x 0) * cos (π * unscaleCub 0 1 (x 1))]

noncomputable def gmat (x : Vars) : Matrix (Fin 3) (Fin 3) ℝ :=
  let E := exp (1 / (1 - x 0) - 1 / x 0)
  let S := sin (π * unscaleCub 0 1 (x 1))
  let C := cos (π * unscaleCub 0 1 (x 1))
  let q := 1 / (1 - x 0) ^ 2 + 1 / x 0 ^ 2
  let t := π * (6 * x 1 * (1 - x 1))
  !![E * q * S * x 2, E * (C * t) * x 2, E * S; E * q * S * (1 - x 2), E * (C * t) * (1 - x 2), -(E * S); E * q * C, E * (-S * t), 0]

noncomputable def gder (x : Vars) : (Fin 3 → ℝ) →L[ℝ] (Fin 3 → ℝ) := LinearMap.toContinuousLinearMap (Matrix.toLin' (gmat x))

theorem gder_det (x : Vars) : (gder x).det = -(π * 6 * x 1 * (1 - x 1) * (exp (1 / (1 - x 0) - 1 / x 0) * sin (π * unscaleCub 0 1 (x 1))) * exp (1 / (1 - x 0) - 1 / x 0) * exp (1 / (1 - x 0) - 1 / x 0) * (1 / (1 - x 0) ^ 2 + 1 / x 0 ^ 2)) := by
  rw [gder, ContinuousLinearMap.det, LinearMap.coe_toContinuousLinearMap, LinearMap.det_toLin', gmat]
  simp only [Matrix.det_fin_three, Matrix.of_apply, Matrix.cons_val', Matrix.cons_val_zero, Matrix.cons_val_one, Matrix.cons_val, Matrix.cons_val_fin_one]
  linear_combination (-exp (1 / (1 - x 0) - 1 / x 0) ^ 3 * sin (π * unscaleCub 0 1 (x 1)) * (1 / (1 - x 0) ^ 2 + 1 / x 0 ^ 2) * (π * (6 * x 1 * (1 - x 1)))) * sin_sq_add_cos_sq (π * unscaleCub 0 1 (x 1))

theorem hasDeriv_E {u : ℝ} (h0 : 0 < u) (h1 : u < 1) : HasDerivAt (fun u : ℝ => exp (1 / (1 - u) - 1 / u)) (exp (1 / (1 - u) - 1 / u) * (1 / (1 - u) ^ 2 + 1 / u ^ 2)) u := by
  have a : HasDerivAt (fun u : ℝ => 1 / (1 - u)) (1 / (1 - u) ^ 2) u := by
    have := ((hasDerivAt_id u).const_sub 1).inv (show 1 - u ≠ 0 by linarith)
    simp only [id] at this
    refine (this.congr_deriv (by ring)).congr_of_eventuallyEq (Filter.Eventually.of_forall fun y => ?_)
    simp
  have b : HasDerivAt (fun u : ℝ => 1 / u) (-(1 / u ^ 2)) u := by
    have := (hasDerivAt_id u).inv h0.ne'
    simp only [id] at this
    refine (this.congr_deriv (by ring)).congr_of_eventuallyEq (Filter.Eventually.of_forall fun y => ?_)
    simp
  exact (a.sub b).exp.congr_deriv (by simp only [Pi.sub_apply]; ring)

theorem hasDeriv_th (v : ℝ) : HasDerivAt (fun v : ℝ => π * unscaleCub 0 1 v) (π * (6 * v * (1 - v))) v := by
  have : (fun v : ℝ => π * unscaleCub 0 1 v) = fun v : ℝ => π * (3 * v ^ 2 - 2 * v ^ 3) := by
    funext v; simp only [unscaleCub]; ring
  rw [this]
  have h := (((hasDerivAt_pow 2 v).const_mul 3).sub ((hasDerivAt_pow 3 v).const_mul 2)).const_mul π
  exact h.congr_deriv (by norm_num; ring)

theorem gmap_deriv {x : Vars} (h0 : 0 < x 0) (h1 : x 0 < 1) : HasFDerivAt gmap (gder x) x := by
  have p0 := hasFDerivAt_apply (𝕜 := ℝ) (F' := fun _ : Fin 3 => ℝ) 0 x
  have p1 := hasFDerivAt_apply (𝕜 := ℝ) (F' := fun _ : Fin 3 => ℝ) 1 x
  have p2 := hasFDerivAt_apply (𝕜 := ℝ) (F' := fun _ : Fin 3 => ℝ) 2 x
  have hE := (hasDeriv_E h0 h1).comp_hasFDerivAt x p0
  have hS := (hasDeriv_th (x 1)).sin.comp_hasFDerivAt x p1
  have hC := (hasDeriv_th (x 1)).cos.comp_hasFDerivAt x p1
  have r0 := (hE.mul hS).mul p2
  have r1 := (hE.mul hS).mul (p2.const_sub 1)
  have r2 := hE.mul hC
  rw [hasFDerivAt_pi']
  intro i
  fin_cases i
  · refine (r0.congr_fderiv ?_)
    ext y
    simp [gder, gmat, Matrix.toLin'_apply, dotProduct, Fin.sum_univ_three]
    ring
  · refine (r1.congr_fderiv ?_)
    ext y
    simp [gder, gmat, Matrix.toLin'_apply, dotProduct, Fin.sum_univ_three]
    ring
  · refine (r2.congr_fderiv ?_)
    ext y
    simp [gder, gmat, Matrix.toLin'_apply, dotProduct, Fin.sum_univ_three]
    ring

/-! ### integration region -/

def regX : Set Vars := {x | 0.02 ≤ x 0 ∧ x 0 ≤ 0.98 ∧ 0 < x 1 ∧ x 1 < 1 ∧ 0 < x 2 ∧ x 2 < 1}

/-- possible actions with amplitudes in the range that is not cut off -/
def region : Set (Fin 3 → ℝ) := {J | Phys (Act.ofVec J) ∧ ampMin ≤ amp (Act.ofVec J) ∧ amp (Act.ofVec J) ≤ ampMax}

theorem regX_meas : MeasurableSet regX := by
  unfold regX
  measurability

theorem jac_pos {x : Vars} (h : x ∈ regX) : 0 < π * 6 * x 1 * (1 - x 1) * (exp (1 / (1 - x 0) - 1 / x 0) * sin (π * unscaleCub 0 1 (x 1))) * exp (1 / (1 - x 0) - 1 / x 0) * exp (1 / (1 - x 0) - 1 / x 0) * (1 / (1 - x 0) ^ 2 + 1 / x 0 ^ 2) := by
  obtain ⟨a, b, c, d, e, f⟩ := h
  norm_num at a b
  have := vcub_lt c d
  have : 0 < 1 - x 0 := by linarith
  have : 0 < x 0 := by linarith
  have : 0 < 1 - x 1 := by linarith
  have := pi_pos
  positivity

theorem gmap_act {x : Vars} (h0 : 0.02 ≤ x 0) (h1 : x 0 ≤ 0.98) (h2 : 0 ≤ x 1) (h3 : x 1 ≤ 1) (h4 : 0 ≤ x 2) (h5 : x 2 ≤ 1) :
    TriangLog.toActions x = .actions (Act.ofVec (gmap x)) (π * 6 * x 1 * (1 - x 1) * (exp (1 / (1 - x 0) - 1 / x 0) * sin (π * unscaleCub 0 1 (x 1))) * exp (1 / (1 - x 0) - 1 / x 0) * exp (1 / (1 - x 0) - 1 / x 0) * (1 / (1 - x 0) ^ 2 + 1 / x 0 ^ 2)) := by
  rw [toActions_in h0 h1 h2 h3 h4 h5]
  rfl

theorem gmap_inj : Set.InjOn gmap regX := by
  rintro x hx y hy h
  have hx' := jac_pos hx
  obtain ⟨a, b, c, d, e, f⟩ := hx
  obtain ⟨a', b', c', d', e', f'⟩ := hy
  have hA : amp (Act.ofVec (gmap x)) = amp (Act.ofVec (gmap y)) := by rw [h]
  have A1 : amp (Act.ofVec (gmap x)) = exp (1 / (1 - x 0) - 1 / x 0) := amp_polar (exp_pos _).le (sin_sq_add_cos_sq _)
  have A2 : amp (Act.ofVec (gmap y)) = exp (1 / (1 - y 0) - 1 / y 0) := amp_polar (exp_pos _).le (sin_sq_add_cos_sq _)
  rw [A1, A2] at hA
  have e0 : x 0 = y 0 := by
    norm_num at a b a' b'
    exact ufun_mono.injOn ⟨by linarith, by linarith⟩ ⟨by linarith, by linarith⟩ (exp_injective hA)
  have e1 : x 1 = y 1 := by
    have h2 := congrFun h 2
    simp only [gmap, Matrix.cons_val] at h2
    rw [hA] at h2
    have h2 := mul_left_cancel₀ (exp_pos _).ne' h2
    have := injOn_cos (vcub_mem c.le d.le) (vcub_mem c'.le d'.le) h2
    exact (C17_cub 0 1 one_pos).mono.injOn ⟨c.le, d.le⟩ ⟨c'.le, d'.le⟩ (mul_left_cancel₀ pi_pos.ne' this)
  have e2 : x 2 = y 2 := by
    have h0 := congrFun h 0
    simp only [gmap, Matrix.cons_val_zero] at h0
    rw [hA, e1] at h0
    exact mul_left_cancel₀ (mul_pos (exp_pos _) (vcub_lt c' d')).ne' h0
  funext i
  fin_cases i
  exacts [e0, e1, e2]

theorem gmap_image : gmap '' regX = region ∩ {J | 0 < J 0 ∧ 0 < J 1} := by
  ext J
  constructor
  · rintro ⟨x, ⟨a, b, c, d, e, f⟩, rfl⟩
    obtain ⟨J, jac, y, h1, h2, h3, h4, -⟩ := C99_triang_there_back x a b c.le d.le e.le f.le
    rw [gmap_act a b c.le d.le e.le f.le] at h1
    injection h1 with h1 _
    refine ⟨⟨h1 ▸ h2, h1 ▸ h3, h1 ▸ h4⟩, ?_, ?_⟩
    · show 0 < _ * _ * _
      have := vcub_lt c d
      positivity
    · show 0 < _ * _ * _
      have := vcub_lt c d
      have : 0 < 1 - x 2 := by linarith
      positivity
  · rintro ⟨⟨h1, h2, h3⟩, h4, h5⟩
    obtain ⟨y, x, jac, -, hx, -, -, -, a, b, c, d, e, f, g1, g2⟩ := C99_triang_back_there _ h1 h2 h3
    have q1 := g1 (add_pos h4 h5)
    have q2 := g2 h4 h5
    refine ⟨x, ⟨a, b, q1.1, q1.2, q2.1, q2.2⟩, ?_⟩
    rw [gmap_act a b c d e f] at hx
    injection hx with hx _
    have w0 := congrArg Act.Jr hx
    have w1 := congrArg Act.Jz hx
    have w2 := congrArg Act.Jphi hx
    funext i
    fin_cases i
    exacts [w0, w1, w2]

/-! ### null sets -/

theorem null_plane (i : Fin 3) (c : ℝ) : volume {x : Fin 3 → ℝ | x i = c} = 0 :=
  Measure.pi_hyperplane (fun _ => (volume : Measure ℝ)) i c

theorem region_ae : gmap '' regX =ᵐ[volume] region := by
  rw [gmap_image]
  refine (ae_eq_set).mpr ⟨?_, ?_⟩
  · rw [Set.sdiff_eq_empty.mpr Set.inter_subset_left, measure_empty]
  · refine measure_mono_null (t := {x : Fin 3 → ℝ | x 0 = 0} ∪ {x | x 1 = 0}) ?_ (measure_union_null (null_plane 0 0) (null_plane 1 0))
    rintro J ⟨h1, h2⟩
    by_contra hc
    simp only [Set.mem_union, Set.mem_ofPred_eq, not_or] at hc
    exact h2 ⟨h1, lt_of_le_of_ne h1.1.1 (Ne.symm hc.1), lt_of_le_of_ne h1.1.2 (Ne.symm hc.2)⟩

/-- the function whose integral is requested: the DF itself, or the DF times minus its logarithm -/
noncomputable def target (logTerm : Bool) (df : Act → Option ℝ) (J : Fin 3 → ℝ) : ℝ :=
  let f := (df (Act.ofVec J)).getD 0
  if logTerm = true ∧ 0 < f then -(f * log f) else f

open Classical in
theorem integrand_eq (logTerm : Bool) (df : Act → Option ℝ) {x : Vars} (hx : x ∈ Set.Icc (0 : Vars) 1) :
    (integrand logTerm df x).getD 0 = if 0.02 ≤ x 0 ∧ x 0 ≤ 0.98 then (2 * π) ^ 3 * (|(gder x).det| * target logTerm df (gmap x)) else 0 := by
  have h0 : ∀ i, 0 ≤ x i ∧ x i ≤ 1 := fun i => ⟨hx.1 i, hx.2 i⟩
  by_cases hu : 0.02 ≤ x 0 ∧ x 0 ≤ 0.98
  · rw [if_pos hu, integrand, gmap_act hu.1 hu.2 (h0 1).1 (h0 1).2 (h0 2).1 (h0 2).2]
    simp only
    rw [gder_det, abs_neg]
    set j := π * 6 * x 1 * (1 - x 1) * (exp (1 / (1 - x 0) - 1 / x 0) * sin (π * unscaleCub 0 1 (x 1))) * exp (1 / (1 - x 0) - 1 / x 0) * exp (1 / (1 - x 0) - 1 / x 0) * (1 / (1 - x 0) ^ 2 + 1 / x 0 ^ 2) with hj
    have jn : 0 ≤ j := by
      have := sin_nonneg_of_nonneg_of_le_pi (vcub_mem (h0 1).1 (h0 1).2).1 (vcub_mem (h0 1).1 (h0 1).2).2
      have : 0 ≤ 1 - x 1 := by linarith [(h0 1).2]
      have := (h0 1).1
      have := pi_pos
      rw [hj]
      positivity
    rw [abs_of_nonneg jn]
    by_cases jz : j = 0
    · rw [if_neg (not_not.mpr jz), jz]; simp
    · rw [if_pos jz, Option.getD_some, target]
      by_cases c : logTerm = true ∧ 0 < (df (Act.ofVec (gmap x))).getD 0
      · simp only [c, and_self, if_true]; ring
      · simp only [c, if_false, gt_iff_lt]; ring
  · rw [if_neg hu, integrand]
    have hu' : x 0 < 0.02 ∨ 0.98 < x 0 := by
      by_contra hc
      push Not at hc
      exact hu hc
    rw [C99_triang_cut x h0 hu']
    split_ifs <;> simp

/-- C99 (total mass): the integral of the function that is handed to the numerical integration routine over the unit cube equals the integral of the DF (or of -f ln f) times (2π)³ over the triplets of actions with Jr>=0, Jz>=0 and any sign of Jphi, with amplitude √((Jr+Jz)²+Jphi²) between exp(-48.98) and exp(48.98). -/
theorem C99_total_mass (logTerm : Bool) (df : Act → Option ℝ) :
    ∫ x in Set.Icc (0 : Vars) 1, (integrand logTerm df x).getD 0 = (2 * π) ^ 3 * ∫ J in region, target logTerm df J := by
  classical
  have e1 : ∫ x in Set.Icc (0 : Vars) 1, (integrand logTerm df x).getD 0 = ∫ x in regX, (2 * π) ^ 3 * (|(gder x).det| * target logTerm df (gmap x)) := by
    rw [← integral_indicator measurableSet_Icc, ← integral_indicator regX_meas]
    apply integral_congr_ae
    have n1 := (measure_eq_zero_iff_ae_notMem.mp (null_plane 1 0))
    have n2 := (measure_eq_zero_iff_ae_notMem.mp (null_plane 1 1))
    have n3 := (measure_eq_zero_iff_ae_notMem.mp (null_plane 2 0))
    have n4 := (measure_eq_zero_iff_ae_notMem.mp (null_plane 2 1))
    filter_upwards [n1, n2, n3, n4] with x m1 m2 m3 m4
    by_cases hx : x ∈ Set.Icc (0 : Vars) 1
    · rw [Set.indicator_of_mem hx, integrand_eq logTerm df hx]
      by_cases hu : 0.02 ≤ x 0 ∧ x 0 ≤ 0.98
      · rw [if_pos hu, Set.indicator_of_mem]
        exact ⟨hu.1, hu.2, lt_of_le_of_ne (hx.1 1) (Ne.symm m1), lt_of_le_of_ne (hx.2 1) m2, lt_of_le_of_ne (hx.1 2) (Ne.symm m3), lt_of_le_of_ne (hx.2 2) m4⟩
      · rw [if_neg hu, Set.indicator_of_notMem]
        exact fun h => hu ⟨h.1, h.2.1⟩
    · rw [Set.indicator_of_notMem hx, Set.indicator_of_notMem]
      rintro ⟨a, b, c, d, e, f⟩
      norm_num at a b
      apply hx
      constructor <;> intro i <;> fin_cases i <;> simp <;> linarith
  rw [e1, integral_const_mul, ← setIntegral_congr_set region_ae,
    integral_image_eq_integral_abs_det_fderiv_smul volume regX_meas (fun x hx => (gmap_deriv (by have := hx.1; norm_num at this; linarith) (by have := hx.2.1; norm_num at this; linarith)).hasFDerivWithinAt) gmap_inj]
  simp only [smul_eq_mul]

/-! ### jacobian -/

/-- the point in the three-dimensional space of actions returned by toActions -/
def ToActions.vec : ToActions → Fin 3 → ℝ
  | .actions J _ => ![J.Jr, J.Jz, J.Jphi]
  | _ => 0

/-- the reported jacobian -/
def ToActions.jac : ToActions → ℝ
  | .actions _ j => j
  | .infinite j => j
  | .rangeError => 0

/-- C99 (jacobian): the jacobian reported together with the actions is the absolute value of the determinant of the derivative of the actions with respect to the scaled variables. -/
theorem C99_triang_jacobian (x : Vars) (h0 : 0.02 < x 0) (h1 : x 0 < 0.98) (h2 : 0 < x 1) (h3 : x 1 < 1) (h4 : 0 < x 2) (h5 : x 2 < 1) :
    ∃ L : (Fin 3 → ℝ) →L[ℝ] (Fin 3 → ℝ), HasFDerivAt (fun x => (TriangLog.toActions x).vec) L x ∧ (TriangLog.toActions x).jac = |L.det| ∧ 0 < |L.det| := by
  have hx : x ∈ regX := ⟨h0.le, h1.le, h2, h3, h4, h5⟩
  have jp := jac_pos hx
  have hj : (TriangLog.toActions x).jac = |(gder x).det| := by
    rw [gmap_act h0.le h1.le h2.le h3.le h4.le h5.le, gder_det, abs_neg, abs_of_pos jp]
    rfl
  refine ⟨gder x, ?_, hj, by rw [gder_det, abs_neg, abs_of_pos jp]; exact jp⟩
  refine (gmap_deriv (by norm_num at h0; linarith) (by norm_num at h1; linarith)).congr_of_eventuallyEq ?_
  have c0 : ContinuousAt (fun x : Vars => x 0) x := (continuous_apply 0).continuousAt
  have c1 : ContinuousAt (fun x : Vars => x 1) x := (continuous_apply 1).continuousAt
  have c2 : ContinuousAt (fun x : Vars => x 2) x := (continuous_apply 2).continuousAt
  filter_upwards [c0.eventually (lt_mem_nhds h0), c0.eventually (gt_mem_nhds h1), c1.eventually (lt_mem_nhds h2), c1.eventually (gt_mem_nhds h3), c2.eventually (lt_mem_nhds h4), c2.eventually (gt_mem_nhds h5)] with y a b c d e f
  rw [gmap_act a.le b.le c.le d.le e.le f.le]
  funext i
  fin_cases i <;> rfl

/-- example: the centre of the unit cube -/
example : TriangLog.toActions ![1 / 2, 1 / 2, 1 / 2] = .actions ⟨1 / 2, 1 / 2, 0⟩ (12 * π) := by
  have : π * (1 / 2) = π / 2 := by ring
  have e2 : (![1 / 2, 1 / 2, 1 / 2] : Vars) 2 = 1 / 2 := rfl
  rw [toActions_in] <;> norm_num [unscaleCub, this, e2]
  ring

/-! ### rectangular scaling -/

theorem rect_u (P : RectParam) (J : Act) :
    (if |J.Jphi / P.scaleJphi| < 1 then 1 / (1 + √(1 + (0.5 * (J.Jphi / P.scaleJphi)) ^ 2) - 0.5 * (J.Jphi / P.scaleJphi)) else 0.5 + √(0.25 + (1 / (J.Jphi / P.scaleJphi)) ^ 2) * Verif.Actions.sign (J.Jphi / P.scaleJphi) - 1 / (J.Jphi / P.scaleJphi))
      = TriangLog.scaleU (0.5 * (J.Jphi / P.scaleJphi)) := by
  set p := J.Jphi / P.scaleJphi
  by_cases h : |p| < 1
  · rw [if_pos h, scaleU_eq]
  · rw [if_neg h]
    have hp : p ≠ 0 := by intro c; rw [c] at h; simp at h
    rw [scaleU_eq]
    have hs := (s_gt (0.5 * p)).1
    have h2 : √(1 + (0.5 * p) ^ 2) ^ 2 = 1 + (0.5 * p) ^ 2 := sq_sqrt (by positivity)
    have e : √(0.25 + (1 / p) ^ 2) * Verif.Actions.sign p = √(1 + (0.5 * p) ^ 2) / p := by
      have : 0.25 + (1 / p) ^ 2 = (1 + (0.5 * p) ^ 2) / p ^ 2 := by field_simp; ring
      rw [this, sqrt_div (by positivity), sqrt_sq_eq_abs]
      rcases lt_or_gt_of_ne hp with c | c
      · rw [abs_of_neg c, Verif.Actions.sign, if_neg (by linarith), if_pos c]; field_simp
      · rw [abs_of_pos c, Verif.Actions.sign, if_pos c]; ring
    rw [e]
    have : 1 + √(1 + (0.5 * p) ^ 2) - 0.5 * p ≠ 0 := by linarith
    rw [eq_div_iff this]
    have h2' : √(1 + (0.5 * p) ^ 2) * √(1 + (0.5 * p) ^ 2) = 1 + (0.5 * p) ^ 2 := by rw [← sq, h2]
    generalize √(1 + (0.5 * p) ^ 2) = r at *
    field_simp
    norm_num at h2' ⊢
    nlinarith

theorem rect_in (P : RectParam) (x : Vars) (h0 : 0 < x 0) (h1 : x 0 < 1) (h2 : 0 ≤ x 1) (h3 : x 1 < 1) (h4 : 0 ≤ x 2) (h5 : x 2 ≤ 1) :
    ∃ jac, P.toActions x = .actions ⟨x 1 / (1 - x 1) * P.scaleJm * x 2, x 1 / (1 - x 1) * P.scaleJm * (1 - x 2), P.scaleJphi * (1 / (1 - x 0) - 1 / x 0)⟩ jac := by
  have w1 : 0 ≤ 1 - x 2 := by linarith
  have e0 : ∀ Jm : ℝ, (if x 2 = 0 then 0 else Jm * x 2) = Jm * x 2 := by intro Jm; split_ifs with c <;> simp [c]
  have e1 : ∀ Jm : ℝ, (if x 2 = 1 then 0 else Jm * (1 - x 2)) = Jm * (1 - x 2) := by intro Jm; split_ifs with c <;> simp [c]
  rw [RectParam.toActions]
  simp only
  rw [if_neg (by push Not; exact ⟨h0.le, h1.le, h2, h3.le, h4, w1⟩), if_neg (by push Not; exact ⟨h0.ne', h1.ne, h3.ne⟩), e0, e1]
  exact ⟨_, rfl⟩

/-- C99 (there and back) for the other scaling -/
theorem C99_rect_there_back (P : RectParam) (hP : P.accepted) (x : Vars) (h0 : 0 < x 0) (h1 : x 0 < 1) (h2 : 0 ≤ x 1) (h3 : x 1 < 1) (h4 : 0 ≤ x 2) (h5 : x 2 ≤ 1) :
    ∃ J jac, P.toActions x = .actions J jac ∧ Phys J ∧ P.toScaled J = some ![x 0, x 1, if x 1 = 0 then 0 else x 2] := by
  simp only [RectParam.accepted, not_or, not_le] at hP
  obtain ⟨hm, hp⟩ := hP
  set Jm := x 1 / (1 - x 1) * P.scaleJm with hJm
  have q : 0 < 1 - x 1 := by linarith
  have nJ : 0 ≤ Jm := by positivity
  have w1 : 0 ≤ 1 - x 2 := by linarith
  have hA := rect_in P x h0 h1 h2 h3 h4 h5
  obtain ⟨jac, hA⟩ := hA
  have ph : Phys ⟨Jm * x 2, Jm * (1 - x 2), P.scaleJphi * (1 / (1 - x 0) - 1 / x 0)⟩ := ⟨mul_nonneg nJ h4, mul_nonneg nJ w1⟩
  refine ⟨_, jac, hA, ph, ?_⟩
  rw [RectParam.toScaled, if_neg (not_not.mpr ⟨ph.1, ph.2⟩)]
  simp only
  have hu := rect_u P ⟨Jm * x 2, Jm * (1 - x 2), P.scaleJphi * (1 / (1 - x 0) - 1 / x 0)⟩
  simp only at hu
  rw [hu, show (0.5 : ℝ) * (P.scaleJphi * (1 / (1 - x 0) - 1 / x 0) / P.scaleJphi) = (1 / (1 - x 0) - 1 / x 0) / 2 by field_simp; norm_num; ring, scaleU_inv h0 h1,
    show Jm * x 2 + Jm * (1 - x 2) = Jm by ring]
  by_cases c : x 1 = 0
  · have : Jm = 0 := by rw [hJm, c]; simp
    rw [if_pos this, if_pos this, if_pos c, c]
  · have p1 : 0 < x 1 := lt_of_le_of_ne h2 (Ne.symm c)
    have : 0 < Jm := by positivity
    rw [if_neg this.ne', if_neg this.ne', if_neg c]
    congr 2
    funext i
    have ee : 1 / (P.scaleJm / Jm + 1) = x 1 := by
      rw [hJm]; field_simp; ring
    have ef : Jm * x 2 / Jm = x 2 := by field_simp
    rw [ee, ef]

/-- C99 (back and there) for the other scaling: all possible actions -/
theorem C99_rect_back_there (P : RectParam) (hP : P.accepted) (J : Act) (hJ : Phys J) :
    ∃ x jac, P.toScaled J = some x ∧ P.toActions x = .actions J jac ∧ 0 < x 0 ∧ x 0 < 1 ∧ 0 ≤ x 1 ∧ x 1 < 1 ∧ 0 ≤ x 2 ∧ x 2 ≤ 1 := by
  simp only [RectParam.accepted, not_or, not_le] at hP
  obtain ⟨hm, hp⟩ := hP
  have nm : 0 ≤ J.Jr + J.Jz := add_nonneg hJ.1 hJ.2
  obtain ⟨u0, u1, u2⟩ := scaleU_spec (0.5 * (J.Jphi / P.scaleJphi))
  set u := TriangLog.scaleU (0.5 * (J.Jphi / P.scaleJphi)) with hu
  set v := if J.Jr + J.Jz = 0 then 0 else 1 / (P.scaleJm / (J.Jr + J.Jz) + 1) with hv
  set w := if J.Jr + J.Jz = 0 then 0 else J.Jr / (J.Jr + J.Jz) with hw
  have hS : P.toScaled J = some ![u, v, w] := by
    rw [RectParam.toScaled, if_neg (not_not.mpr ⟨hJ.1, hJ.2⟩)]
    simp only
    rw [rect_u P J]
  have v01 : 0 ≤ v ∧ v < 1 ∧ v / (1 - v) * P.scaleJm = J.Jr + J.Jz := by
    by_cases c : J.Jr + J.Jz = 0
    · rw [hv, if_pos c, c]; simp
    · have : 0 < J.Jr + J.Jz := lt_of_le_of_ne nm (Ne.symm c)
      rw [hv, if_neg c]
      have k : 0 < P.scaleJm / (J.Jr + J.Jz) := by positivity
      refine ⟨by positivity, by rw [div_lt_one (by positivity)]; linarith, ?_⟩
      have : 1 - 1 / (P.scaleJm / (J.Jr + J.Jz) + 1) ≠ 0 := by
        have : 1 / (P.scaleJm / (J.Jr + J.Jz) + 1) < 1 := by rw [div_lt_one (by positivity)]; linarith
        linarith
      field_simp at this ⊢
      ring_nf
      try field_simp
  have w01 : 0 ≤ w ∧ w ≤ 1 ∧ (J.Jr + J.Jz) * w = J.Jr := by
    by_cases c : J.Jr + J.Jz = 0
    · rw [hw, if_pos c]
      have : J.Jr = 0 := by linarith [hJ.1, hJ.2]
      simp [this]
    · have : 0 < J.Jr + J.Jz := lt_of_le_of_ne nm (Ne.symm c)
      rw [hw, if_neg c]
      exact ⟨div_nonneg hJ.1 nm, div_le_one_of_le₀ (by linarith [hJ.2]) nm, by field_simp⟩
  have hA : ∃ jac, P.toActions ![u, v, w] = .actions J jac := by
    obtain ⟨jac, h⟩ := rect_in P ![u, v, w] u0 u1 v01.1 v01.2.1 w01.1 w01.2.1
    refine ⟨jac, h.trans (congrArg (fun a => ToActions.actions a _) ?_)⟩
    simp only [Matrix.cons_val_zero, Matrix.cons_val_one, Matrix.cons_val]
    rw [v01.2.2, u2, w01.2.2, show (J.Jr + J.Jz) * (1 - w) = J.Jz by linarith [w01.2.2],
      show P.scaleJphi * (2 * (0.5 * (J.Jphi / P.scaleJphi))) = J.Jphi by field_simp; norm_num]
  obtain ⟨jac, hA⟩ := hA
  exact ⟨_, jac, hS, hA, u0, u1, v01.1, v01.2.1, w01.1, w01.2.1⟩

example : (⟨2, 3⟩ : RectParam).accepted := by norm_num [RectParam.accepted]
/-- the hypotheses of C99_rect_back_there are met by non-trivial actions -/
example : ∃ x jac, (⟨2, 3⟩ : RectParam).toScaled ⟨2, 4, -9⟩ = some x ∧ (⟨2, 3⟩ : RectParam).toActions x = .actions ⟨2, 4, -9⟩ jac :=
  let ⟨x, jac, h1, h2, _⟩ := C99_rect_back_there ⟨2, 3⟩ (by norm_num [RectParam.accepted]) ⟨2, 4, -9⟩ ⟨by norm_num, by norm_num⟩
  ⟨x, jac, h1, h2⟩

noncomputable def rmap (P : RectParam) (x : Vars) : Fin 3 → ℝ :=
  ![x 1 / (1 - x 1) * P.scaleJm * x 2, x 1 / (1 - x 1) * P.scaleJm * (1 - x 2), P.scaleJphi * (1 / (1 - x 0) - 1 / x 0)]

noncomputable def rmat (P : RectParam) (x : Vars) : Matrix (Fin 3) (Fin 3) ℝ :=
  let m := x 1 / (1 - x 1) * P.scaleJm
  let d := 1 / (1 - x 1) ^ 2 * P.scaleJm
  !![0, d * x 2, m; 0, d * (1 - x 2), -m; P.scaleJphi * (1 / (1 - x 0) ^ 2 + 1 / x 0 ^ 2), 0, 0]

theorem hasDeriv_inv1 {u : ℝ} (h1 : u < 1) : HasDerivAt (fun u : ℝ => 1 / (1 - u)) (1 / (1 - u) ^ 2) u := by
  have := ((hasDerivAt_id u).const_sub 1).inv (show 1 - u ≠ 0 by linarith)
  simp only [id] at this
  refine (this.congr_deriv (by ring)).congr_of_eventuallyEq (Filter.Eventually.of_forall fun y => ?_)
  simp

theorem rmap_deriv (P : RectParam) {x : Vars} (h0 : 0 < x 0) (h1 : x 0 < 1) (h3 : x 1 < 1) : HasFDerivAt (rmap P) (LinearMap.toContinuousLinearMap (Matrix.toLin' (rmat P x))) x := by
  have p0 := hasFDerivAt_apply (𝕜 := ℝ) (F' := fun _ : Fin 3 => ℝ) 0 x
  have p1 := hasFDerivAt_apply (𝕜 := ℝ) (F' := fun _ : Fin 3 => ℝ) 1 x
  have p2 := hasFDerivAt_apply (𝕜 := ℝ) (F' := fun _ : Fin 3 => ℝ) 2 x
  have b : HasDerivAt (fun u : ℝ => 1 / u) (-(1 / x 0 ^ 2)) (x 0) := by
    have := (hasDerivAt_id (x 0)).inv h0.ne'
    simp only [id] at this
    refine (this.congr_deriv (by ring)).congr_of_eventuallyEq (Filter.Eventually.of_forall fun y => ?_)
    simp
  have q : 1 - x 1 ≠ 0 := by linarith
  have hv : HasDerivAt (fun v : ℝ => v / (1 - v) * P.scaleJm) (1 / (1 - x 1) ^ 2 * P.scaleJm) (x 1) := by
    have := (((hasDerivAt_id (x 1)).mul (hasDeriv_inv1 h3)).mul_const P.scaleJm)
    refine (this.congr_deriv (by simp only [id]; field_simp; ring)).congr_of_eventuallyEq (Filter.Eventually.of_forall fun y => ?_)
    simp [div_eq_mul_inv]
  have hm := hv.comp_hasFDerivAt x p1
  have hu := (((hasDeriv_inv1 h1).sub b).const_mul P.scaleJphi).comp_hasFDerivAt x p0
  have r0 := hm.mul p2
  have r1 := hm.mul (p2.const_sub 1)
  rw [hasFDerivAt_pi']
  intro i
  fin_cases i
  · refine (r0.congr_fderiv ?_)
    ext y
    simp [rmat, Matrix.toLin'_apply, dotProduct, Fin.sum_univ_three]
    ring
  · refine (r1.congr_fderiv ?_)
    ext y
    simp [rmat, Matrix.toLin'_apply, dotProduct, Fin.sum_univ_three]
    ring
  · refine (hu.congr_fderiv ?_)
    ext y
    simp [rmat, Matrix.toLin'_apply, dotProduct, Fin.sum_univ_three]

/-- C99 (jacobian) for the other scaling: the reported jacobian is the absolute value of the determinant, except that values outside the range from 1e-100 to 1e100 are replaced by zero. -/
theorem C99_rect_jacobian (P : RectParam) (hP : P.accepted) (x : Vars) (h0 : 0 < x 0) (h1 : x 0 < 1) (h2 : 0 < x 1) (h3 : x 1 < 1) (h4 : 0 < x 2) (h5 : x 2 < 1) :
    ∃ L : (Fin 3 → ℝ) →L[ℝ] (Fin 3 → ℝ), HasFDerivAt (fun x => (P.toActions x).vec) L x ∧
      (P.toActions x).jac = (if 1e-100 < |L.det| ∧ |L.det| < 1e100 then |L.det| else 0) := by
  simp only [RectParam.accepted, not_or, not_le] at hP
  obtain ⟨hm, hp⟩ := hP
  have hd : (LinearMap.toContinuousLinearMap (Matrix.toLin' (rmat P x))).det = -(P.scaleJm ^ 2 * P.scaleJphi * x 1 / (1 - x 1) ^ 3 * (1 / (1 - x 0) ^ 2 + 1 / x 0 ^ 2)) := by
    rw [ContinuousLinearMap.det, LinearMap.coe_toContinuousLinearMap, LinearMap.det_toLin', rmat]
    simp only [Matrix.det_fin_three, Matrix.of_apply, Matrix.cons_val', Matrix.cons_val_zero, Matrix.cons_val_one, Matrix.cons_val, Matrix.cons_val_fin_one]
    have : 1 - x 1 ≠ 0 := by linarith
    have : 1 - x 0 ≠ 0 := by linarith
    field_simp
    ring
  have jp : 0 < P.scaleJm ^ 2 * P.scaleJphi * x 1 / (1 - x 1) ^ 3 * (1 / (1 - x 0) ^ 2 + 1 / x 0 ^ 2) := by
    have : 0 < 1 - x 1 := by linarith
    have : 0 < 1 - x 0 := by linarith
    positivity
  refine ⟨LinearMap.toContinuousLinearMap (Matrix.toLin' (rmat P x)), ?_, ?_⟩
  · refine (rmap_deriv P h0 h1 h3).congr_of_eventuallyEq ?_
    have c0 : ContinuousAt (fun x : Vars => x 0) x := (continuous_apply 0).continuousAt
    have c1 : ContinuousAt (fun x : Vars => x 1) x := (continuous_apply 1).continuousAt
    have c2 : ContinuousAt (fun x : Vars => x 2) x := (continuous_apply 2).continuousAt
    filter_upwards [c0.eventually (lt_mem_nhds h0), c0.eventually (gt_mem_nhds h1), c1.eventually (lt_mem_nhds h2), c1.eventually (gt_mem_nhds h3), c2.eventually (lt_mem_nhds h4), c2.eventually (gt_mem_nhds h5)] with y a b c d e f
    rw [RectParam.toActions]
    simp only
    rw [if_neg (by push Not; exact ⟨a.le, b.le, c.le, d.le, e.le, by linarith⟩), if_neg (by push Not; exact ⟨a.ne', b.ne, d.ne⟩), if_neg e.ne', if_neg f.ne]
    funext i
    fin_cases i <;> rfl
  · rw [hd, abs_neg, abs_of_pos jp, RectParam.toActions]
    simp only
    rw [if_neg (by push Not; exact ⟨h0.le, h1.le, h2.le, h3.le, h4.le, by linarith⟩), if_neg (by push Not; exact ⟨h0.ne', h1.ne, h3.ne⟩)]
    simp only [ToActions.jac, gt_iff_lt]
    rw [ite_not]

end Verif.DF
