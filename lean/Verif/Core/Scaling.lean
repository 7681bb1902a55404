import Mathlib.Analysis.SpecialFunctions.Log.Basic
import Mathlib.Analysis.SpecialFunctions.ExpDeriv
import Mathlib.Analysis.SpecialFunctions.Sqrt
import Mathlib.Analysis.Calculus.Deriv.Inv
import Mathlib.Analysis.Calculus.Deriv.Abs
import Mathlib.Analysis.Calculus.Deriv.MeanValue
import Mathlib.MeasureTheory.Integral.IntervalIntegral.IntegrationByParts
import Mathlib.Topology.Order.IntermediateValue
import Mathlib.Tactic

/-! Model of the scaling transformations (/repo/src/math_core.cpp:245-387, /repo/src/math_core.h:104-243), exact
real arithmetic, and C17. Infinite values of `u` (reached only at s=0 or s=1) are not represented, so the infinite
intervals correspond to 0 < s < 1 here. -/
namespace Verif.Scaling
open Set

/-- math_core.h:21: `sign`. -/
noncomputable def sgn (x : ℝ) : ℝ := if x > 0 then 1 else if x < 0 then -1 else 0

/-- math_core.cpp:248-252. -/
noncomputable def scaleInf (u : ℝ) : ℝ :=
  if |u| < 1 then 1 / (1 + Real.sqrt (1 + 1/4 * u * u) - 1/2 * u)
  else 1/2 + Real.sqrt (1/4 + (1/u) ^ 2) * sgn u - 1/u

/-- math_core.cpp:254-258: value. -/
noncomputable def unscaleInf (s : ℝ) : ℝ := 1 / (1 - s) - 1 / s
/-- math_core.cpp:256: derivative. -/
noncomputable def dudsInf (s : ℝ) : ℝ := 1 / (1 - s) ^ 2 + 1 / s ^ 2

/-- The parameter `u0` of ScalingSemiInf: +0.0, -0.0 or a nonzero number. -/
inductive U0 where
  | plusZero
  | minusZero
  | num (u0 : ℝ)

/-- math_core.cpp:261-266. -/
noncomputable def scaleSemi : U0 → ℝ → ℝ
  | .plusZero, u => scaleInf (Real.log u)
  | .minusZero, u => scaleInf (-Real.log (-u))
  | .num u0, u => let l := Real.log (u / u0); l / (1 + l)

/-- math_core.cpp:268-282: value. -/
noncomputable def unscaleSemi : U0 → ℝ → ℝ
  | .plusZero, s => Real.exp (1 / (1 - s) - 1 / s)
  | .minusZero, s => -1 / Real.exp (1 / (1 - s) - 1 / s)
  | .num u0, s => u0 * Real.exp (s / (1 - s))

/-- math_core.cpp:273-274 and 278-279: derivative. -/
noncomputable def dudsSemi : U0 → ℝ → ℝ
  | .plusZero, s => |unscaleSemi .plusZero s| * (1 / (1 - s) ^ 2 + 1 / s ^ 2)
  | .minusZero, s => |unscaleSemi .minusZero s| * (1 / (1 - s) ^ 2 + 1 / s ^ 2)
  | .num u0, s => unscaleSemi (.num u0) s / (1 - s) ^ 2

/-- math_core.cpp:286: `exp(1/(0.5-t)-1/t)`, zero at t=0 where the argument is minus infinity. -/
noncomputable def dblExp (t : ℝ) : ℝ := if t = 0 then 0 else Real.exp (1 / (1/2 - t) - 1 / t)

/-- math_core.cpp:285-290: value. -/
noncomputable def unscaleDbl (u0 s : ℝ) : ℝ :=
  let t := |s - 1/2|
  u0 * (s - 1/2) + dblExp t * sgn (s - 1/2)

/-- math_core.cpp:287-288: derivative. -/
noncomputable def dudsDbl (u0 s : ℝ) : ℝ :=
  let t := |s - 1/2|
  let u := dblExp t
  u0 + (if u = 0 then 0 else u * (1 / (1/2 - t) ^ 2 + 1 / t ^ 2))

/-- math_core.cpp:292-297: `scale` for u0 = 0 (closed form) and finite u. For u0 > 0 the code iterates Newton's
method, which is not modelled. -/
noncomputable def scaleDbl0 (u : ℝ) : ℝ :=
  if u = 0 then 1/2 else 1/2 + 1/2 * scaleInf (Real.log |u| * (1/2)) * sgn u

/-- math_core.cpp:311-313. -/
noncomputable def scaleLin (ul ur u : ℝ) : ℝ := (u - ul) / (ur - ul)
/-- math_core.cpp:315-319: value. -/
noncomputable def unscaleLin (ul ur s : ℝ) : ℝ := ul * (1 - s) + ur * s
/-- math_core.cpp:317: derivative. -/
noncomputable def dudsLin (ul ur _s : ℝ) : ℝ := ur - ul

/-- math_core.cpp:342-346: value. -/
noncomputable def unscaleCub (ul ur s : ℝ) : ℝ := ul * (1 - s) ^ 2 * (1 + 2 * s) + ur * s ^ 2 * (3 - 2 * s)
/-- math_core.cpp:344: derivative. -/
noncomputable def dudsCub (ul ur s : ℝ) : ℝ := (ur - ul) * 6 * s * (1 - s)

/-- math_core.cpp:382-387: value. -/
noncomputable def unscaleQui (ul ur s : ℝ) : ℝ :=
  ul * (1 - s) ^ 3 * (1 + (6 * s + 3) * s) + ur * s ^ 3 * (10 + (6 * s - 15) * s)
/-- math_core.cpp:384: derivative. -/
noncomputable def dudsQui (ul ur s : ℝ) : ℝ := (ur - ul) * 30 * (s * (1 - s)) ^ 2

/-! ## Specification -/

/-- `un` maps the open interval (0,1) one-to-one, in increasing order, onto the set `T` of values of `u`, `du` is its
derivative there, and `sc` is its inverse. -/
structure IsScaling (T : Set ℝ) (sc un du : ℝ → ℝ) : Prop where
  maps : ∀ s, 0 < s → s < 1 → un s ∈ T
  mono : StrictMonoOn un (Ioo 0 1)
  deriv : ∀ s, 0 < s → s < 1 → HasDerivAt un (du s) s
  pos : ∀ s, 0 < s → s < 1 → 0 < du s
  scale_mem : ∀ u ∈ T, 0 < sc u ∧ sc u < 1
  un_sc : ∀ u ∈ T, un (sc u) = u
  sc_un : ∀ s, 0 < s → s < 1 → sc (un s) = s

/-- It is enough to check the derivative and the right inverse. -/
theorem IsScaling.mk' {T : Set ℝ} {sc un du : ℝ → ℝ} (maps : ∀ s, 0 < s → s < 1 → un s ∈ T)
    (deriv : ∀ s, 0 < s → s < 1 → HasDerivAt un (du s) s)
    (pos : ∀ s, 0 < s → s < 1 → 0 < du s)
    (scale_mem : ∀ u ∈ T, 0 < sc u ∧ sc u < 1)
    (un_sc : ∀ u ∈ T, un (sc u) = u) : IsScaling T sc un du := by
  have mono : StrictMonoOn un (Ioo 0 1) := by
    apply strictMonoOn_of_deriv_pos (convex_Ioo 0 1)
    · exact fun s hs => (deriv s hs.1 hs.2).continuousAt.continuousWithinAt
    · intro s hs
      rw [interior_Ioo] at hs
      rw [(deriv s hs.1 hs.2).deriv]
      exact pos s hs.1 hs.2
  refine ⟨maps, mono, deriv, pos, scale_mem, un_sc, ?_⟩
  intro s h0 h1
  have hT := maps s h0 h1
  exact mono.injOn (scale_mem _ hT) ⟨h0, h1⟩ (un_sc _ hT)

theorem inv_one_sub_deriv (s : ℝ) (h : s < 1) : HasDerivAt (fun s : ℝ => 1 / (1 - s)) (1 / (1 - s) ^ 2) s := by
  have h1 : HasDerivAt (fun s : ℝ => 1 - s) (-1) s := (hasDerivAt_id s).const_sub 1
  have := h1.inv (by linarith : 1 - s ≠ 0)
  simp only [one_div]
  exact this.congr_deriv (by ring)

theorem inv_deriv (s : ℝ) (h : 0 < s) : HasDerivAt (fun s : ℝ => 1 / s) (-(1 / s ^ 2)) s := by
  have := (hasDerivAt_id s).inv h.ne'
  simp only [one_div]
  exact this.congr_deriv (by simp; ring)

theorem unscaleInf_deriv (s : ℝ) (h0 : 0 < s) (h1 : s < 1) : HasDerivAt unscaleInf (dudsInf s) s := by
  exact ((inv_one_sub_deriv s h1).sub (inv_deriv s h0)).congr_deriv (by simp [dudsInf])

theorem dudsInf_pos (s : ℝ) (h0 : 0 < s) (h1 : s < 1) : 0 < dudsInf s := by
  have : 0 < 1 - s := by linarith
  unfold dudsInf; positivity

/-- The scaled variable is in (0,1) and satisfies the defining quadratic equation. -/
theorem scaleInf_spec (u : ℝ) : 0 < scaleInf u ∧ scaleInf u < 1 ∧
    u * scaleInf u ^ 2 + (2 - u) * scaleInf u - 1 = 0 := by
  unfold scaleInf
  by_cases hu : |u| < 1
  · rw [if_pos hu]
    have hw0 : 0 ≤ 1 + 1/4 * u * u := by nlinarith [sq_nonneg u]
    have hw := Real.sq_sqrt hw0
    have hwp := Real.sqrt_nonneg (1 + 1/4 * u * u)
    set w := Real.sqrt (1 + 1/4 * u * u)
    have hgt : 1/2 * u < w := by
      by_contra k; push Not at k; nlinarith
    have hden : 0 < 1 + w - 1/2 * u := by linarith
    have hd1 : 1 < 1 + w - 1/2 * u := by linarith
    refine ⟨by positivity, ?_, ?_⟩
    · rw [div_lt_one hden]; exact hd1
    · have hd2 : (1 + w - 1/2 * u) ^ 2 = (2 - u) * (1 + w - 1/2 * u) + u := by linear_combination hw
      set d := 1 + w - 1/2 * u
      have hi : 1 / d * d = 1 := by field_simp
      linear_combination -(1/d)^2 * hd2 + (1/d * d + 1 - (2 - u) * (1/d)) * hi
  · rw [if_neg hu]
    push Not at hu
    have hu0 : u ≠ 0 := by rintro rfl; norm_num at hu
    have hw0 : (0:ℝ) ≤ 1/4 + (1/u) ^ 2 := by positivity
    have hw := Real.sq_sqrt hw0
    have hwp := Real.sqrt_nonneg (1/4 + (1/u) ^ 2)
    set w := Real.sqrt (1/4 + (1/u) ^ 2)
    have hv : u * (1/u) = 1 := by field_simp
    have hv0 : 1/u ≠ 0 := by positivity
    set v := 1/u
    have hv2 : 0 < v ^ 2 := by positivity
    unfold sgn
    rcases lt_or_gt_of_ne hu0 with h | h
    · rw [if_neg (by linarith), if_pos h]
      have hvn : v < 0 := by
        by_contra k; push Not at k; nlinarith
      refine ⟨?_, ?_, ?_⟩
      · have : w < 1/2 - v := by
          by_contra k; push Not at k; nlinarith
        linarith
      · have : -v < w + 1/2 := by
          by_contra k; push Not at k; nlinarith
        linarith
      · linear_combination u * hw + (2 * v + 2 * w) * hv
    · rw [if_pos h]
      have hvn : 0 < v := by positivity
      refine ⟨?_, ?_, ?_⟩
      · have : v < w + 1/2 := by
          by_contra k; push Not at k; nlinarith
        linarith
      · have : w < 1/2 + v := by
          by_contra k; push Not at k; nlinarith
        linarith
      · linear_combination u * hw + (2 * v - 2 * w) * hv 

theorem unscaleInf_scaleInf (u : ℝ) : unscaleInf (scaleInf u) = u := by
  obtain ⟨h0, h1, h⟩ := scaleInf_spec u
  unfold unscaleInf
  have : 1 - scaleInf u ≠ 0 := by linarith
  field_simp
  linear_combination h

/-- C17, (-inf, inf). -/
theorem C17_inf : IsScaling univ scaleInf unscaleInf dudsInf :=
  IsScaling.mk' (fun _ _ _ => mem_univ _) unscaleInf_deriv dudsInf_pos
    (fun u _ => ⟨(scaleInf_spec u).1, (scaleInf_spec u).2.1⟩) (fun u _ => unscaleInf_scaleInf u)

/-- C17, [0, inf). -/
theorem C17_semi_plus : IsScaling (Ioi 0) (scaleSemi .plusZero) (unscaleSemi .plusZero) (dudsSemi .plusZero) := by
  apply IsScaling.mk'
  · intro s _ _; exact Real.exp_pos _
  · intro s h0 h1
    have := (unscaleInf_deriv s h0 h1).exp
    refine this.congr_deriv ?_
    simp only [dudsSemi, unscaleSemi]
    rw [abs_of_pos (Real.exp_pos _)]
    rfl
  · intro s h0 h1
    have h2 := dudsInf_pos s h0 h1
    simp only [dudsSemi, unscaleSemi]
    rw [abs_of_pos (Real.exp_pos _)]
    exact mul_pos (Real.exp_pos _) h2
  · intro u hu
    exact ⟨(scaleInf_spec _).1, (scaleInf_spec _).2.1⟩
  · intro u hu
    have := unscaleInf_scaleInf (Real.log u)
    simp only [unscaleSemi, scaleSemi]
    rw [unscaleInf] at this
    rw [this, Real.exp_log hu]

/-- C17, (-inf, 0]. -/
theorem C17_semi_minus : IsScaling (Iio 0) (scaleSemi .minusZero) (unscaleSemi .minusZero) (dudsSemi .minusZero) := by
  have hun : unscaleSemi .minusZero = fun s => -Real.exp (-unscaleInf s) := by
    funext s
    simp only [unscaleSemi, unscaleInf]
    rw [neg_div, one_div, ← Real.exp_neg]
  apply IsScaling.mk'
  · intro s _ _
    rw [hun]
    simp only [mem_Iio, neg_lt_zero]
    exact Real.exp_pos _
  · intro s h0 h1
    have := (unscaleInf_deriv s h0 h1).neg.exp.neg
    rw [show dudsSemi .minusZero s = |unscaleSemi .minusZero s| * dudsInf s from rfl, hun]
    refine this.congr_deriv ?_
    simp only [abs_neg, Pi.neg_apply]
    rw [abs_of_pos (Real.exp_pos _)]
    ring
  · intro s h0 h1
    have h2 := dudsInf_pos s h0 h1
    rw [show dudsSemi .minusZero s = |unscaleSemi .minusZero s| * dudsInf s from rfl, hun]
    simp only [abs_neg]
    rw [abs_of_pos (Real.exp_pos _)]
    exact mul_pos (Real.exp_pos _) h2
  · intro u hu
    exact ⟨(scaleInf_spec _).1, (scaleInf_spec _).2.1⟩
  · intro u hu
    rw [hun]
    simp only [scaleSemi]
    rw [unscaleInf_scaleInf, neg_neg, Real.exp_log (by simpa using hu)]
    ring

/-- C17, [u0, inf) with u0 > 0 and (-inf, u0] with u0 < 0: increasing for positive u0, decreasing for negative u0 (the
distance from u0 increases with s in both cases); s = 0 corresponds to u0. -/
theorem C17_semi_num (u0 : ℝ) (h : u0 ≠ 0) :
    unscaleSemi (.num u0) 0 = u0 ∧
    (∀ s, 0 ≤ s → s < 1 → HasDerivAt (unscaleSemi (.num u0)) (dudsSemi (.num u0) s) s ∧
      0 < dudsSemi (.num u0) s / u0 ∧ 1 ≤ unscaleSemi (.num u0) s / u0 ∧ scaleSemi (.num u0) (unscaleSemi (.num u0) s) = s) ∧
    (∀ u, 1 ≤ u / u0 → 0 ≤ scaleSemi (.num u0) u ∧ scaleSemi (.num u0) u < 1 ∧
      unscaleSemi (.num u0) (scaleSemi (.num u0) u) = u) := by
  refine ⟨by simp [unscaleSemi], ?_, ?_⟩
  · intro s h0 h1
    have hs : 1 - s ≠ 0 := by linarith
    have hs' : 0 < 1 - s := by linarith
    refine ⟨?_, ?_, ?_, ?_⟩
    · have hq : HasDerivAt (fun s : ℝ => s / (1 - s)) (1 / (1 - s) ^ 2) s := by
        have := (hasDerivAt_id s).div ((hasDerivAt_id s).const_sub 1) hs
        exact this.congr_deriv (by simp)
      have := hq.exp.const_mul u0
      refine this.congr_deriv ?_
      simp only [dudsSemi, unscaleSemi]
      ring
    · simp only [dudsSemi, unscaleSemi]
      rw [show u0 * Real.exp (s / (1 - s)) / (1 - s) ^ 2 / u0 = Real.exp (s / (1 - s)) / (1 - s) ^ 2 by field_simp]
      have := Real.exp_pos (s / (1 - s))
      positivity
    · simp only [unscaleSemi]
      rw [show u0 * Real.exp (s / (1 - s)) / u0 = Real.exp (s / (1 - s)) by field_simp]
      rw [Real.one_le_exp_iff]; positivity
    · simp only [unscaleSemi, scaleSemi]
      rw [show u0 * Real.exp (s / (1 - s)) / u0 = Real.exp (s / (1 - s)) by field_simp, Real.log_exp]
      field_simp
      ring
  · intro u hu
    have hl : 0 ≤ Real.log (u / u0) := Real.log_nonneg hu
    simp only [scaleSemi, unscaleSemi]
    have hel : Real.exp (Real.log (u / u0)) = u / u0 := Real.exp_log (by linarith)
    set l := Real.log (u / u0)
    have hl1 : 0 < 1 + l := by linarith
    refine ⟨by positivity, by rw [div_lt_one hl1]; linarith, ?_⟩
    have : l / (1 + l) / (1 - l / (1 + l)) = l := by field_simp; ring
    rw [this, hel]
    field_simp

/-! ### Finite intervals -/

/-- C17, linear: both closed form. -/
theorem C17_lin (ul ur : ℝ) (h : ul ≠ ur) :
    unscaleLin ul ur 0 = ul ∧ unscaleLin ul ur 1 = ur ∧
    (∀ s, HasDerivAt (unscaleLin ul ur) (dudsLin ul ur s) s ∧ scaleLin ul ur (unscaleLin ul ur s) = s) ∧
    (∀ u, unscaleLin ul ur (scaleLin ul ur u) = u) := by
  have h' : ur - ul ≠ 0 := sub_ne_zero.2 (Ne.symm h)
  refine ⟨by simp [unscaleLin], by simp [unscaleLin], fun s => ⟨?_, ?_⟩, fun u => ?_⟩
  · have := (((hasDerivAt_id s).const_sub 1).const_mul ul).add ((hasDerivAt_id s).const_mul ur)
    exact this.congr_deriv (by simp [dudsLin]; ring)
  · simp only [unscaleLin, scaleLin]; field_simp; ring
  · simp only [unscaleLin, scaleLin]; field_simp; ring

/-- Ends, derivative and strict monotonicity of a transformation of [0,1] onto [ul, ur]. -/
structure IsFiniteScaling (ul ur : ℝ) (un du : ℝ → ℝ) : Prop where
  at0 : un 0 = ul
  at1 : un 1 = ur
  deriv : ∀ s, HasDerivAt un (du s) s
  mono : StrictMonoOn un (Icc 0 1)
  bij : BijOn un (Icc 0 1) (Icc ul ur)

theorem IsFiniteScaling.mk' {ul ur : ℝ} {un du : ℝ → ℝ} (at0 : un 0 = ul) (at1 : un 1 = ur)
    (deriv : ∀ s, HasDerivAt un (du s) s) (pos : ∀ s, 0 < s → s < 1 → 0 < du s) : IsFiniteScaling ul ur un du := by
  have hc : ContinuousOn un (Icc 0 1) := fun s _ => (deriv s).continuousAt.continuousWithinAt
  have mono : StrictMonoOn un (Icc 0 1) := by
    apply strictMonoOn_of_deriv_pos (convex_Icc 0 1) hc
    intro s hs
    rw [interior_Icc] at hs
    rw [(deriv s).deriv]
    exact pos s hs.1 hs.2
  refine ⟨at0, at1, deriv, mono, ?_, mono.injOn, ?_⟩
  · intro s hs
    rw [← at0, ← at1]
    exact ⟨mono.monotoneOn ⟨le_refl _, zero_le_one⟩ hs hs.1, mono.monotoneOn hs ⟨zero_le_one, le_refl _⟩ hs.2⟩
  · have := intermediate_value_Icc zero_le_one hc
    rw [at0, at1] at this
    exact this

/-- C17, cubic. -/
theorem C17_cub (ul ur : ℝ) (h : ul < ur) : IsFiniteScaling ul ur (unscaleCub ul ur) (dudsCub ul ur) := by
  apply IsFiniteScaling.mk'
  · simp [unscaleCub]
  · simp [unscaleCub]; ring
  · intro s
    have h1 : HasDerivAt (fun s : ℝ => 1 - s) (-1) s := (hasDerivAt_id s).const_sub 1
    have h2 : HasDerivAt (fun s : ℝ => 1 + 2 * s) (2) s := by
      simpa using ((hasDerivAt_id s).const_mul 2).const_add 1
    have h3 : HasDerivAt (fun s : ℝ => 3 - 2 * s) (-2) s := by
      simpa using ((hasDerivAt_id s).const_mul 2).const_sub 3
    have := (((h1.pow 2).const_mul ul).mul h2).add ((((hasDerivAt_id s).pow 2).const_mul ur).mul h3)
    exact this.congr_deriv (by simp [dudsCub]; ring)
  · intro s h0 h1
    have : 0 < ur - ul := by linarith
    have : 0 < 1 - s := by linarith
    unfold dudsCub; positivity

/-- C17, quintic. -/
theorem C17_qui (ul ur : ℝ) (h : ul < ur) : IsFiniteScaling ul ur (unscaleQui ul ur) (dudsQui ul ur) := by
  apply IsFiniteScaling.mk'
  · simp [unscaleQui]
  · simp [unscaleQui]; ring
  · intro s
    have h1 : HasDerivAt (fun s : ℝ => 1 - s) (-1) s := (hasDerivAt_id s).const_sub 1
    have h2 : HasDerivAt (fun s : ℝ => 1 + (6 * s + 3) * s) (12 * s + 3) s := by
      exact ((((((hasDerivAt_id s).const_mul 6).add_const 3)).mul (hasDerivAt_id s)).const_add 1).congr_deriv
        (by simp; ring)
    have h3 : HasDerivAt (fun s : ℝ => 10 + (6 * s - 15) * s) (12 * s - 15) s := by
      exact ((((((hasDerivAt_id s).const_mul 6).sub_const 15)).mul (hasDerivAt_id s)).const_add 10).congr_deriv
        (by simp; ring)
    have := (((h1.pow 3).const_mul ul).mul h2).add ((((hasDerivAt_id s).pow 3).const_mul ur).mul h3)
    exact this.congr_deriv (by simp [dudsQui]; ring)
  · intro s h0 h1
    have : 0 < ur - ul := by linarith
    have : 0 < 1 - s := by linarith
    unfold dudsQui; positivity

/-- math_core.h:236-239: ScaledIntegrand::value, for a finite interval. Integrating it over the scaled variable gives the
integral of the original function over the corresponding interval of `u`. -/
theorem C17_integral {ul ur : ℝ} {un du : ℝ → ℝ} (hs : IsFiniteScaling ul ur un du) (hdu : Continuous du)
    (f : ℝ → ℝ) (hf : ContinuousOn f (un '' uIcc 0 1)) :
    ∫ s in (0:ℝ)..1, f (un s) * du s = ∫ u in ul..ur, f u := by
  rw [← hs.at0, ← hs.at1]
  exact intervalIntegral.integral_comp_mul_deriv' (fun s _ => hs.deriv s) hdu.continuousOn hf

/-- Non-vacuity of the finite-interval results. -/
example : ∫ s in (0:ℝ)..1, (unscaleCub 1 3 s) ^ 2 * dudsCub 1 3 s = ∫ u in (1:ℝ)..3, u ^ 2 :=
  C17_integral (C17_cub 1 3 (by norm_num)) (by unfold dudsCub; fun_prop) (fun u => u ^ 2) (by fun_prop)

/-! ### The doubly-infinite interval -/

theorem dblExp_eq (t : ℝ) (h0 : 0 < t) (h1 : t < 1/2) : dblExp t = Real.exp (2 * unscaleInf (2 * t)) := by
  unfold dblExp unscaleInf
  rw [if_neg h0.ne']
  have : 1/2 - t ≠ 0 := by linarith
  have : 1 - 2 * t ≠ 0 := by linarith
  congr 1
  have e : (1:ℝ)/2 - t = (1 - 2 * t) / 2 := by ring
  rw [e]
  field_simp

theorem C17_double_half (u0 : ℝ) : unscaleDbl u0 (1/2) = 0 := by simp [unscaleDbl, sgn]

/-- The transformation is odd about s=1/2. -/
theorem C17_double_odd (u0 s : ℝ) : unscaleDbl u0 (1 - s) = -unscaleDbl u0 s := by
  unfold unscaleDbl
  simp only
  rw [show 1 - s - 1/2 = -(s - 1/2) by ring, abs_neg]
  have : sgn (-(s - 1/2)) = -sgn (s - 1/2) := by
    unfold sgn
    rcases lt_trichotomy (s - 1/2) 0 with h | h | h
    · rw [if_pos (by linarith), if_neg (by linarith), if_pos h]; norm_num
    · rw [h]; norm_num
    · rw [if_neg (by linarith), if_pos (by linarith), if_pos h]
  rw [this]; ring

theorem unscaleDbl_upper (u0 s : ℝ) (h0 : 1/2 < s) (h1 : s < 1) :
    unscaleDbl u0 s = u0 * (s - 1/2) + Real.exp (2 * unscaleInf (2 * (s - 1/2))) := by
  unfold unscaleDbl sgn
  simp only
  rw [abs_of_pos (by linarith), if_pos (by linarith), dblExp_eq _ (by linarith) (by linarith), mul_one]

/-- C17, doubly infinite interval, upper half: derivative. -/
theorem dbl_deriv_upper (u0 s : ℝ) (h0 : 1/2 < s) (h1 : s < 1) : HasDerivAt (unscaleDbl u0) (dudsDbl u0 s) s := by
  have hev : unscaleDbl u0 =ᶠ[nhds s] fun s => u0 * (s - 1/2) + Real.exp (2 * unscaleInf (2 * (s - 1/2))) := by
    filter_upwards [Ioo_mem_nhds h0 h1] with x hx
    exact unscaleDbl_upper u0 x hx.1 hx.2
  have hlin : HasDerivAt (fun s : ℝ => 2 * (s - 1/2)) 2 s := by
    exact (((hasDerivAt_id s).sub_const (1/2)).const_mul 2).congr_deriv (by simp)
  have hu := unscaleInf_deriv (2 * (s - 1/2)) (by linarith) (by linarith)
  have hc := (HasDerivAt.comp s hu hlin).const_mul 2
  have hall := (((hasDerivAt_id s).sub_const (1/2)).const_mul u0).add hc.exp
  refine (hall.congr_of_eventuallyEq hev).congr_deriv ?_
  have ht : |s - 1/2| = s - 1/2 := abs_of_pos (by linarith)
  unfold dudsDbl
  simp only [ht]
  rw [dblExp_eq _ (by linarith) (by linarith), if_neg (Real.exp_pos _).ne', mul_one]
  congr 1
  simp only [dudsInf, Function.comp]
  have a1 : (1:ℝ)/2 - (s - 1/2) ≠ 0 := by linarith
  have a2 : s - 1/2 ≠ 0 := by linarith
  have a3 : 1 - 2 * (s - 1/2) ≠ 0 := by intro h; apply a1; linarith
  have e : (1:ℝ) - 2 * (s - 1/2) = 2 * (1/2 - (s - 1/2)) := by ring
  rw [e]
  field_simp

/-- At the centre the exponential part is flat. -/
theorem dbl_deriv_centre (u0 : ℝ) : HasDerivAt (unscaleDbl u0) (dudsDbl u0 (1/2)) (1/2) := by
  have hd : dudsDbl u0 (1/2) = u0 := by simp [dudsDbl, dblExp]
  rw [hd, hasDerivAt_iff_isLittleO]
  have hlit : (fun x : ℝ => (x - 1/2) ^ 2) =o[nhds (1/2)] fun x => x - 1/2 := by
    have := Asymptotics.isLittleO_pow_sub_sub (1/2 : ℝ) (m := 2) (by norm_num)
    simpa [Real.norm_eq_abs, sq_abs] using this
  refine Asymptotics.IsBigO.trans_isLittleO ?_ hlit
  refine Asymptotics.IsBigO.of_bound (2 * Real.exp 4) ?_
  filter_upwards [Ioo_mem_nhds (show (1:ℝ)/4 < 1/2 by norm_num) (show (1:ℝ)/2 < 3/4 by norm_num)] with x hx
  have e : unscaleDbl u0 x - unscaleDbl u0 (1/2) - (x - 1/2) • u0 = dblExp |x - 1/2| * sgn (x - 1/2) := by
    rw [C17_double_half]; simp [unscaleDbl]; ring
  rw [e, Real.norm_eq_abs, Real.norm_eq_abs, abs_mul, abs_of_nonneg (sq_nonneg (x - 1/2))]
  have ht : |x - 1/2| < 1/4 := by rw [abs_lt]; constructor <;> linarith [hx.1, hx.2]
  have hsg : |sgn (x - 1/2)| ≤ 1 := by
    unfold sgn
    split
    · simp
    · split <;> simp
  have hb : |dblExp (|x - 1/2|)| ≤ 2 * Real.exp 4 * (x - 1/2) ^ 2 := by
    rw [← sq_abs (x - 1/2)]
    rcases eq_or_lt_of_le (abs_nonneg (x - 1/2)) with h | h
    · rw [← h]; simp [dblExp]
    · set t := |x - 1/2|
      unfold dblExp
      rw [if_neg h.ne', abs_of_pos (Real.exp_pos _), sub_eq_add_neg, Real.exp_add]
      have h1 : Real.exp (1 / (1/2 - t)) ≤ Real.exp 4 := by
        apply Real.exp_le_exp.2
        rw [div_le_iff₀ (by linarith)]; linarith
      have h2 : Real.exp (-(1 / t)) ≤ 2 * t ^ 2 := by
        have hq := Real.quadratic_le_exp_of_nonneg (show 0 ≤ 1 / t by positivity)
        have hq' : (1 / t) ^ 2 / 2 ≤ Real.exp (1 / t) := by
          have : 0 ≤ 1 / t := by positivity
          linarith
        rw [Real.exp_neg]
        rw [inv_le_comm₀ (Real.exp_pos _) (by positivity)]
        refine le_trans (le_of_eq ?_) hq'
        field_simp
      calc Real.exp (1 / (1/2 - t)) * Real.exp (-(1 / t)) ≤ Real.exp 4 * (2 * t ^ 2) :=
            mul_le_mul h1 h2 (Real.exp_pos _).le (Real.exp_pos _).le
        _ = 2 * Real.exp 4 * t ^ 2 := by ring
  calc |dblExp (|x - 1/2|)| * |sgn (x - 1/2)| ≤ |dblExp (|x - 1/2|)| * 1 :=
        mul_le_mul_of_nonneg_left hsg (abs_nonneg _)
    _ ≤ _ := by rw [mul_one]; exact hb

/-- C17, doubly infinite interval: the reported derivative is the derivative of `unscale`, for every s in (0,1). -/
theorem C17_double_deriv (u0 s : ℝ) (h0 : 0 < s) (h1 : s < 1) :
    HasDerivAt (unscaleDbl u0) (dudsDbl u0 s) s := by
  rcases eq_or_ne s (1/2) with hs | hs
  · rw [hs]; exact dbl_deriv_centre u0
  rcases lt_or_gt_of_ne hs with h | h
  · have hu := dbl_deriv_upper u0 (1 - s) (by linarith) (by linarith)
    have hl : HasDerivAt (fun s : ℝ => 1 - s) (-1) s := (hasDerivAt_id s).const_sub 1
    have hc := (HasDerivAt.comp s hu hl).neg
    have e : unscaleDbl u0 = -(unscaleDbl u0 ∘ fun s => 1 - s) := by
      funext x; simp [C17_double_odd]
    rw [e]
    refine hc.congr_deriv ?_
    unfold dudsDbl
    rw [show |1 - s - 1/2| = |s - 1/2| by rw [← abs_neg]; congr 1; ring]
    ring
  · exact dbl_deriv_upper u0 s h h1

/-- C17, doubly infinite interval: strictly increasing on (0,1), for every u0 ≥ 0. -/
theorem C17_double_mono (u0 : ℝ) (h : 0 ≤ u0) : StrictMonoOn (unscaleDbl u0) (Ioo 0 1) := by
  have up : ∀ x y, 1/2 < x → x < y → y < 1 → unscaleDbl u0 x < unscaleDbl u0 y := by
    intro x y hx hxy hy
    rw [unscaleDbl_upper u0 x hx (by linarith), unscaleDbl_upper u0 y (by linarith) hy]
    have hm := C17_inf.mono (a := 2 * (x - 1/2)) (b := 2 * (y - 1/2)) ⟨by linarith, by linarith⟩
      ⟨by linarith, by linarith⟩ (by linarith)
    have : Real.exp (2 * unscaleInf (2 * (x - 1/2))) < Real.exp (2 * unscaleInf (2 * (y - 1/2))) :=
      Real.exp_lt_exp.2 (by linarith)
    nlinarith
  have pos : ∀ y, 1/2 < y → y < 1 → 0 < unscaleDbl u0 y := by
    intro y hy hy1
    rw [unscaleDbl_upper u0 y hy hy1]
    have := Real.exp_pos (2 * unscaleInf (2 * (y - 1/2)))
    nlinarith
  have neg : ∀ y, 0 < y → y < 1/2 → unscaleDbl u0 y < 0 := by
    intro y hy hy1
    have := pos (1 - y) (by linarith) (by linarith)
    rw [C17_double_odd] at this; linarith
  intro x hx y hy hxy
  rcases lt_trichotomy x (1/2) with a | a | a <;> rcases lt_trichotomy y (1/2) with b | b | b
  · have := up (1 - y) (1 - x) (by linarith) (by linarith) (by linarith [hx.1])
    rw [C17_double_odd, C17_double_odd] at this; linarith
  · rw [b, C17_double_half]; exact neg x hx.1 a
  · exact (neg x hx.1 a).trans (pos y b hy.2)
  · linarith
  · linarith
  · rw [a, C17_double_half]; exact pos y b hy.2
  · linarith
  · linarith
  · exact up x y a hxy hy.2

/-- C17, doubly infinite interval with u0 = 0: `scale` inverts `unscale` for every number. -/
theorem C17_double_inverse (u : ℝ) :
    0 < scaleDbl0 u ∧ scaleDbl0 u < 1 ∧ unscaleDbl 0 (scaleDbl0 u) = u := by
  unfold scaleDbl0
  by_cases hu : u = 0
  · rw [if_pos hu, hu]
    exact ⟨by norm_num, by norm_num, C17_double_half 0⟩
  · rw [if_neg hu]
    obtain ⟨q0, q1, _⟩ := scaleInf_spec (Real.log |u| * (1/2))
    have hinv := unscaleInf_scaleInf (Real.log |u| * (1/2))
    set q := scaleInf (Real.log |u| * (1/2))
    have hexp : Real.exp (2 * unscaleInf q) = |u| := by
      rw [hinv, show 2 * (Real.log |u| * (1/2)) = Real.log |u| by ring, Real.exp_log (abs_pos.2 hu)]
    rcases lt_or_gt_of_ne hu with h | h
    · have hs : sgn u = -1 := by unfold sgn; rw [if_neg (by linarith), if_pos h]
      rw [hs]
      refine ⟨by linarith, by linarith, ?_⟩
      have := C17_double_odd 0 (1/2 + 1/2 * q)
      rw [show 1/2 + 1/2 * q * -1 = 1 - (1/2 + 1/2 * q) by ring, this,
        unscaleDbl_upper 0 _ (by linarith) (by linarith)]
      rw [show 2 * (1/2 + 1/2 * q - 1/2) = q by ring, hexp, abs_of_neg h]; ring
    · have hs : sgn u = 1 := by unfold sgn; rw [if_pos h]
      rw [hs, mul_one]
      refine ⟨by linarith, by linarith, ?_⟩
      rw [unscaleDbl_upper 0 _ (by linarith) (by linarith)]
      rw [show 2 * (1/2 + 1/2 * q - 1/2) = q by ring, hexp, abs_of_pos h]; ring

end Verif.Scaling
