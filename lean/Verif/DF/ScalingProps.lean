import Verif.DF.Scaling

/-! # C99: scaling of actions -/

namespace Verif.DF

open Real Verif.Actions Verif.Coord Verif.Scaling

/-! ### first variable -/

theorem s_gt (l : ℝ) : 0 < √(1 + l ^ 2) - l ∧ 0 < √(1 + l ^ 2) + l := by
  have h := sqrt_nonneg (1 + l ^ 2)
  have h2 : √(1 + l ^ 2) ^ 2 = 1 + l ^ 2 := sq_sqrt (by positivity)
  constructor <;> nlinarith [abs_lt_of_sq_lt_sq (show l ^ 2 < √(1 + l ^ 2) ^ 2 by rw [h2]; linarith) h, abs_lt.mp (abs_lt_of_sq_lt_sq (show l ^ 2 < √(1 + l ^ 2) ^ 2 by rw [h2]; linarith) h)]

theorem scaleU_eq (l : ℝ) : TriangLog.scaleU l = 1 / (1 + √(1 + l ^ 2) - l) := by
  rw [TriangLog.scaleU]
  split_ifs with h
  · rfl
  · have hl : l ≠ 0 := by rintro rfl; simp at h
    have hs := (s_gt l).1
    have h2 : √(1 + l ^ 2) ^ 2 = 1 + l ^ 2 := sq_sqrt (by positivity)
    have e : √(1 + (1 / l) ^ 2) * Verif.Actions.sign l = √(1 + l ^ 2) / l := by
      have : 1 + (1 / l) ^ 2 = (1 + l ^ 2) / l ^ 2 := by field_simp; ring
      rw [this, sqrt_div (by positivity), sqrt_sq_eq_abs]
      rcases lt_or_gt_of_ne hl with c | c
      · rw [abs_of_neg c, Verif.Actions.sign, if_neg (by linarith), if_pos c]; field_simp
      · rw [abs_of_pos c, Verif.Actions.sign, if_pos c]; ring
    rw [e]
    have : 1 + √(1 + l ^ 2) - l ≠ 0 := by linarith
    field_simp
    norm_num
    nlinarith

theorem scaleU_spec (l : ℝ) : 0 < TriangLog.scaleU l ∧ TriangLog.scaleU l < 1 ∧ 1 / (1 - TriangLog.scaleU l) - 1 / TriangLog.scaleU l = 2 * l := by
  rw [scaleU_eq]
  obtain ⟨a, b⟩ := s_gt l
  have h2 : √(1 + l ^ 2) ^ 2 = 1 + l ^ 2 := sq_sqrt (by positivity)
  have p : 0 < 1 + √(1 + l ^ 2) - l := by linarith
  refine ⟨by positivity, by rw [div_lt_one p]; linarith, ?_⟩
  have e : 1 - 1 / (1 + √(1 + l ^ 2) - l) = (√(1 + l ^ 2) - l) / (1 + √(1 + l ^ 2) - l) := by field_simp; ring
  rw [e, one_div_div, one_div_one_div]
  have := a.ne'
  field_simp
  nlinarith

theorem scaleU_inv {u : ℝ} (h0 : 0 < u) (h1 : u < 1) : TriangLog.scaleU ((1 / (1 - u) - 1 / u) / 2) = u := by
  rw [scaleU_eq]
  have p : 0 < 1 - u := by linarith
  have e : 1 + ((1 / (1 - u) - 1 / u) / 2) ^ 2 = ((1 / (1 - u) + 1 / u - 2) / 2) ^ 2 := by
    field_simp; ring
  have nn : 0 ≤ (1 / (1 - u) + 1 / u - 2) / 2 := by
    have : 1 / (1 - u) + 1 / u - 2 = (1 - 2 * u + 2 * u ^ 2) / (u * (1 - u)) := by field_simp; ring
    rw [this]
    have : 0 < 1 - 2 * u + 2 * u ^ 2 := by nlinarith [sq_nonneg (u - 1 / 2)]
    positivity
  rw [e, sqrt_sq nn, show 1 + (1 / (1 - u) + 1 / u - 2) / 2 - (1 / (1 - u) - 1 / u) / 2 = 1 / u by ring, one_div_one_div]

/-- the first variable is an increasing function of the logarithm of the amplitude -/
theorem ufun_mono : StrictMonoOn (fun u : ℝ => 1 / (1 - u) - 1 / u) (Set.Ioo 0 1) := by
  intro a ha b hb hab
  have h1 : 1 / (1 - a) < 1 / (1 - b) := one_div_lt_one_div_of_lt (by linarith [hb.2]) (by linarith)
  have h2 : 1 / b < 1 / a := one_div_lt_one_div_of_lt ha.1 hab
  simp only
  linarith

/-! ### specification -/

/-- amplitude of the triplet of actions, df_base.cpp:22 -/
noncomputable def amp (J : Act) : ℝ := √((J.Jr + J.Jz) ^ 2 + J.Jphi ^ 2)

/-- the range of amplitudes which is taken into account in the computation of the total mass: the first variable is between 0.02 and 0.98 -/
noncomputable def ampMin : ℝ := exp (1 / 0.98 - 1 / 0.02)
noncomputable def ampMax : ℝ := exp (1 / 0.02 - 1 / 0.98)

theorem vcub (v : ℝ) : π * v * v * (3 - 2 * v) = π * unscaleCub 0 1 v := by simp only [unscaleCub]; ring

theorem vcub_mem {v : ℝ} (h0 : 0 ≤ v) (h1 : v ≤ 1) : 0 ≤ π * unscaleCub 0 1 v ∧ π * unscaleCub 0 1 v ≤ π := by
  have := (C17_cub 0 1 one_pos).bij.mapsTo ⟨h0, h1⟩
  have := pi_pos
  constructor <;> nlinarith [this, (C17_cub 0 1 one_pos).bij.mapsTo ⟨h0, h1⟩ |>.1, (C17_cub 0 1 one_pos).bij.mapsTo ⟨h0, h1⟩ |>.2]

theorem vcub_lt {v : ℝ} (h0 : 0 < v) (h1 : v < 1) : 0 < sin (π * unscaleCub 0 1 v) := by
  have hm := (C17_cub 0 1 one_pos).mono
  have a := hm ⟨le_rfl, zero_le_one⟩ ⟨h0.le, h1.le⟩ h0
  have b := hm ⟨h0.le, h1.le⟩ ⟨zero_le_one, le_rfl⟩ h1
  rw [(C17_cub 0 1 one_pos).at0] at a
  rw [(C17_cub 0 1 one_pos).at1] at b
  exact sin_pos_of_pos_of_lt_pi (by have := pi_pos; positivity) (by nlinarith [pi_pos])

theorem atan2_polar {r θ : ℝ} (hr : 0 < r) (h0 : 0 ≤ θ) (h1 : θ ≤ π) : atan2 (r * sin θ) (r * cos θ) = θ := by
  rw [atan2]
  have : (⟨r * cos θ, r * sin θ⟩ : ℂ) = r * (Complex.cos θ + Complex.sin θ * Complex.I) := by
    apply Complex.ext <;> simp [Complex.cos_ofReal_re, Complex.sin_ofReal_re]
  rw [this, Complex.arg_mul_cos_add_sin_mul_I hr ⟨by linarith [pi_pos], h1⟩]

/-- the value of toActions inside the allowed range -/
theorem toActions_in {x : Vars} (h0 : 0.02 ≤ x 0) (h1 : x 0 ≤ 0.98) (h2 : 0 ≤ x 1) (h3 : x 1 ≤ 1) (h4 : 0 ≤ x 2) (h5 : x 2 ≤ 1) :
    TriangLog.toActions x = .actions ⟨exp (1 / (1 - x 0) - 1 / x 0) * sin (π * unscaleCub 0 1 (x 1)) * x 2,
      exp (1 / (1 - x 0) - 1 / x 0) * sin (π * unscaleCub 0 1 (x 1)) * (1 - x 2), exp (1 / (1 - x 0) - 1 / x 0) * cos (π * unscaleCub 0 1 (x 1))⟩
      (π * 6 * x 1 * (1 - x 1) * (exp (1 / (1 - x 0) - 1 / x 0) * sin (π * unscaleCub 0 1 (x 1))) * exp (1 / (1 - x 0) - 1 / x 0) * exp (1 / (1 - x 0) - 1 / x 0) * (1 / (1 - x 0) ^ 2 + 1 / x 0 ^ 2)) := by
  norm_num at h0 h1
  rw [TriangLog.toActions]
  simp only
  rw [if_neg (by push Not; exact ⟨by linarith, by linarith, h2, h3, h4, h5⟩), if_neg (by push Not; norm_num; exact ⟨h1, h0⟩), vcub]

/-- the amplitude of the result -/
theorem amp_polar {E S C w : ℝ} (hE : 0 ≤ E) (h : S ^ 2 + C ^ 2 = 1) : amp ⟨E * S * w, E * S * (1 - w), E * C⟩ = E := by
  simp only [amp]
  rw [show (E * S * w + E * S * (1 - w)) ^ 2 + (E * C) ^ 2 = E ^ 2 * (S ^ 2 + C ^ 2) by ring, h, mul_one, sqrt_sq hE]

/-- C99 (there and back): any triplet of scaled variables in the range that is not cut off is mapped to possible actions with the documented amplitude; mapped back, they give the same variables (the second one up to the accuracy 1e-13 of the cubic scaling); on the boundary v=0 or v=1, where Jr=Jz=0, the third variable is immaterial and is returned as zero. -/
theorem C99_triang_there_back (x : Vars) (h0 : 0.02 ≤ x 0) (h1 : x 0 ≤ 0.98) (h2 : 0 ≤ x 1) (h3 : x 1 ≤ 1) (h4 : 0 ≤ x 2) (h5 : x 2 ≤ 1) :
    ∃ J jac y, TriangLog.toActions x = .actions J jac ∧ Phys J ∧ ampMin ≤ amp J ∧ amp J ≤ ampMax ∧ TriangLog.toScaled J = some y ∧
      y 0 = x 0 ∧ |y 1 - x 1| ≤ 1e-13 * min (x 1) (1 - x 1) ∧ y 2 = (if x 1 = 0 ∨ x 1 = 1 then 0 else x 2) := by
  have h0' := h0
  have h1' := h1
  norm_num at h0' h1'
  have u0 : 0 < x 0 := by linarith
  have u1 : x 0 < 1 := by linarith
  set E := exp (1 / (1 - x 0) - 1 / x 0) with hE
  have pE : 0 < E := exp_pos _
  obtain ⟨m0, m1⟩ := vcub_mem h2 h3
  set θ := π * unscaleCub 0 1 (x 1) with hθ
  have sn : 0 ≤ sin θ := sin_nonneg_of_nonneg_of_le_pi m0 m1
  have ha := amp_polar (w := x 2) pE.le (sin_sq_add_cos_sq θ)
  have w1 : 0 ≤ 1 - x 2 := by linarith
  have hph : Phys ⟨E * sin θ * x 2, E * sin θ * (1 - x 2), E * cos θ⟩ := ⟨by show 0 ≤ E * sin θ * x 2; positivity, by show 0 ≤ E * sin θ * (1 - x 2); positivity⟩
  refine ⟨_, _, ![TriangLog.scaleU (0.5 * log E), scaleCub 0 1 (unscaleCub 0 1 (x 1)), if E * sin θ * x 2 = 0 then 0 else E * sin θ * x 2 / (E * sin θ)], toActions_in h0 h1 h2 h3 h4 h5, hph, ?_, ?_, ?_⟩
  · rw [ha, ampMin, hE]
    apply exp_le_exp.mpr
    have := ufun_mono.monotoneOn (show (0.02 : ℝ) ∈ Set.Ioo 0 1 by norm_num) ⟨u0, u1⟩ h0
    norm_num at this ⊢
    linarith
  · rw [ha, ampMax, hE]
    apply exp_le_exp.mpr
    have := ufun_mono.monotoneOn ⟨u0, u1⟩ (show (0.98 : ℝ) ∈ Set.Ioo 0 1 by norm_num) h1
    norm_num at this ⊢
    linarith
  · have eJm : |E * sin θ * x 2 + E * sin θ * (1 - x 2)| = E * sin θ := by
      rw [show E * sin θ * x 2 + E * sin θ * (1 - x 2) = E * sin θ by ring, abs_of_nonneg (by positivity)]
    have eJs : √((E * sin θ) ^ 2 + (E * cos θ) ^ 2) = E := by
      rw [show (E * sin θ) ^ 2 + (E * cos θ) ^ 2 = E ^ 2 * (sin θ ^ 2 + cos θ ^ 2) by ring, sin_sq_add_cos_sq, mul_one, sqrt_sq pE.le]
    have exi : atan2 (E * sin θ) (E * cos θ) / π = unscaleCub 0 1 (x 1) := by
      rw [atan2_polar pE m0 m1, hθ]; field_simp
    refine ⟨?_, ?_, ?_, ?_⟩
    · show TriangLog.toScaled ⟨E * sin θ * x 2, E * sin θ * (1 - x 2), E * cos θ⟩ = _
      rw [TriangLog.toScaled, if_neg (not_not.mpr ⟨hph.1, hph.2⟩)]
      simp only [eJm, eJs, exi, if_neg pE.ne']
    · show TriangLog.scaleU (0.5 * log E) = x 0
      rw [hE, log_exp, show (0.5 : ℝ) * (1 / (1 - x 0) - 1 / x 0) = (1 / (1 - x 0) - 1 / x 0) / 2 by norm_num; ring]
      exact scaleU_inv u0 u1
    · exact (C17_cub_scale 0 1 one_pos (x 1) h2 h3).1
    · show (if E * sin θ * x 2 = 0 then 0 else E * sin θ * x 2 / (E * sin θ)) = _
      by_cases hv : x 1 = 0 ∨ x 1 = 1
      · rw [if_pos hv]
        have : sin θ = 0 := by
          rcases hv with c | c
          · rw [hθ, c, (C17_cub 0 1 one_pos).at0]; simp
          · rw [hθ, c, (C17_cub 0 1 one_pos).at1]; simp
        rw [if_pos (by rw [this]; simp)]
      · rw [if_neg hv]
        push Not at hv
        have sp : 0 < sin θ := vcub_lt (lt_of_le_of_ne h2 (Ne.symm hv.1)) (lt_of_le_of_ne h3 hv.2)
        by_cases hw : x 2 = 0
        · rw [hw]; simp
        · have : E * sin θ * x 2 ≠ 0 := by positivity
          rw [if_neg this]
          field_simp

/-- C99 (back and there): for any possible non-zero actions whose amplitude is in the range that is not cut off, the variables returned by toScaled lie in the unit cube, and there are exact variables, which differ from them only in the second one and only by 1e-13, mapped to these actions. -/
theorem C99_triang_back_there (J : Act) (hJ : Phys J) (hlo : ampMin ≤ amp J) (hhi : amp J ≤ ampMax) :
    ∃ y x : Vars, ∃ jac, TriangLog.toScaled J = some y ∧ TriangLog.toActions x = .actions J jac ∧ y 0 = x 0 ∧ y 2 = x 2 ∧ |y 1 - x 1| ≤ 1e-13 * min (x 1) (1 - x 1) ∧
      0.02 ≤ x 0 ∧ x 0 ≤ 0.98 ∧ 0 ≤ x 1 ∧ x 1 ≤ 1 ∧ 0 ≤ x 2 ∧ x 2 ≤ 1 ∧ (0 < J.Jr + J.Jz → 0 < x 1 ∧ x 1 < 1) ∧ (0 < J.Jr → 0 < J.Jz → 0 < x 2 ∧ x 2 < 1) := by
  have pA : 0 < amp J := lt_of_lt_of_le (exp_pos _) hlo
  have hm : 0 ≤ J.Jr + J.Jz := add_nonneg hJ.1 hJ.2
  obtain ⟨z0, z1, z2⟩ := scaleU_spec (0.5 * log (amp J))
  set u := TriangLog.scaleU (0.5 * log (amp J)) with hu
  have eE : exp (1 / (1 - u) - 1 / u) = amp J := by
    rw [z2, show 2 * (0.5 * log (amp J)) = log (amp J) by norm_num; ring, exp_log pA]
  have u02 : 0.02 ≤ u := by
    by_contra hc
    push Not at hc
    have := ufun_mono ⟨z0, z1⟩ (show (0.02 : ℝ) ∈ Set.Ioo 0 1 by norm_num) hc
    have := exp_lt_exp.mpr this
    rw [eE] at this
    rw [ampMin] at hlo
    norm_num at this hlo
    linarith
  have u98 : u ≤ 0.98 := by
    by_contra hc
    push Not at hc
    have := ufun_mono (show (0.98 : ℝ) ∈ Set.Ioo 0 1 by norm_num) ⟨z0, z1⟩ hc
    have := exp_lt_exp.mpr this
    rw [eE] at this
    rw [ampMax] at hhi
    norm_num at this hhi
    linarith
  -- polar angle
  set θ := atan2 (J.Jr + J.Jz) J.Jphi with hθ
  have nz : (⟨J.Jphi, J.Jr + J.Jz⟩ : ℂ) ≠ 0 := by
    intro h
    have h1 := congrArg Complex.re h
    have h2 := congrArg Complex.im h
    simp only [Complex.zero_re, Complex.zero_im] at h1 h2
    rw [amp, h1, h2] at pA
    simp at pA
  have nrm : ‖(⟨J.Jphi, J.Jr + J.Jz⟩ : ℂ)‖ = amp J := by
    rw [Complex.norm_eq_sqrt_sq_add_sq, amp, add_comm]
  have cs : amp J * cos θ = J.Jphi ∧ amp J * sin θ = J.Jr + J.Jz := by
    rw [hθ, atan2, Complex.cos_arg nz, Complex.sin_arg, nrm]
    constructor <;> field_simp
  have t0 : 0 ≤ θ := by rw [hθ, atan2]; exact Complex.arg_nonneg_iff.mpr hm
  have t1 : θ ≤ π := by rw [hθ, atan2]; exact Complex.arg_le_pi _
  obtain ⟨v, v0, v1, ev, hv⟩ := C17_cub_scale' 0 1 one_pos (θ / π) (by positivity) ((div_le_one pi_pos).mpr t1)
  have ev' : π * unscaleCub 0 1 v = θ := by rw [ev]; field_simp
  set w := if J.Jr = 0 then 0 else J.Jr / (J.Jr + J.Jz) with hw
  have w0 : 0 ≤ w := by rw [hw]; split_ifs; exacts [le_rfl, div_nonneg hJ.1 hm]
  have w1 : w ≤ 1 := by rw [hw]; split_ifs; exacts [zero_le_one, div_le_one_of_le₀ (by linarith [hJ.2]) hm]
  have ew : (J.Jr + J.Jz) * w = J.Jr := by
    rw [hw]; split_ifs with c
    · rw [c]; simp
    · have : 0 < J.Jr := lt_of_le_of_ne hJ.1 (Ne.symm c)
      have : J.Jr + J.Jz ≠ 0 := by linarith [hJ.2]
      field_simp
  have hx : ∃ j, TriangLog.toActions ![u, v, w] = .actions J j := by
    refine ⟨_, (toActions_in (x := ![u, v, w]) u02 u98 v0 v1 w0 w1).trans (congrArg (fun a => ToActions.actions a _) ?_)⟩
    simp only [Matrix.cons_val_zero, Matrix.cons_val_one, Matrix.cons_val, ev', eE, cs.1, cs.2, ew, mul_sub, mul_one]
    obtain ⟨a, b, c⟩ := J
    simp
  obtain ⟨jac, hx⟩ := hx
  refine ⟨![u, scaleCub 0 1 (θ / π), w], ![u, v, w], jac, ?_, hx, rfl, rfl, hv, u02, u98, v0, v1, w0, w1, ?_, ?_⟩
  · rw [TriangLog.toScaled, if_neg (not_not.mpr ⟨hJ.1, hJ.2⟩)]
    simp only [abs_of_nonneg hm]
    change some ![if amp J = 0 then _ else TriangLog.scaleU (0.5 * log (amp J)), scaleCub 0 1 (θ / π), _] = _
    rw [if_neg pA.ne']
  · intro hp
    have sp : 0 < sin θ := by
      by_contra hc
      nlinarith [cs.2, not_lt.mp hc]
    constructor
    · refine lt_of_le_of_ne v0 fun h => ?_
      change 0 = v at h
      rw [← ev', ← h, (C17_cub 0 1 one_pos).at0] at sp
      simp at sp
    · refine lt_of_le_of_ne v1 fun h => ?_
      change v = 1 at h
      rw [← ev', h, (C17_cub 0 1 one_pos).at1] at sp
      simp at sp
  · intro r0 z0
    show 0 < w ∧ w < 1
    rw [hw, if_neg r0.ne']
    exact ⟨by positivity, by rw [div_lt_one (by positivity)]; linarith⟩

/-- the actions outside the range are cut off: zero or infinite, with zero weight -/
theorem C99_triang_cut (x : Vars) (h : ∀ i, 0 ≤ x i ∧ x i ≤ 1) (hu : x 0 < 0.02 ∨ 0.98 < x 0) :
    TriangLog.toActions x = if x 0 < 0.02 then .actions ⟨0, 0, 0⟩ 0 else .infinite 0 := by
  rw [TriangLog.toActions]
  simp only
  have := h 0; have := h 1; have := h 2
  rw [if_neg (by push Not; exact ⟨(h 0).1, (h 0).2, (h 1).1, (h 1).2, (h 2).1, (h 2).2⟩), if_pos (by rcases hu with c | c <;> [right; left] <;> exact c)]
  by_cases c : x 0 < 0.02
  · rw [if_pos c, if_pos (by norm_num at c ⊢; linarith)]
  · rw [if_neg c, if_neg (by have := hu.resolve_left c; norm_num at this ⊢; linarith)]

/-- an error is reported if and only if the variables are outside the unit cube -/
theorem C99_triang_error (x : Vars) : TriangLog.toActions x = .rangeError ↔ ∃ i, x i < 0 ∨ 1 < x i := by
  rw [TriangLog.toActions]
  simp only [Fin.exists_fin_succ, Fin.exists_fin_zero]
  constructor
  · intro h
    by_contra hc
    rw [if_neg (fun q => hc (by simpa [or_assoc] using q))] at h
    split_ifs at h
  · intro h
    rw [if_pos (by simpa [or_assoc] using h)]

end Verif.DF
