import Verif.Pot.Disk

/-! # C97: the separable disk profile: radial and vertical functions, and the analytic potential built from them -/

namespace Verif.Pot

open Real Verif.Coord MeasureTheory

/-- A radial function as a triple; the derivatives are replaced by zero when they are NaN. -/
noncomputable def asRadial (f : ℝ → ℝ × Option (ℝ × ℝ)) (R : ℝ) : Radial := ⟨(f R).1, ((f R).2.getD 0).1, ((f R).2.getD 0).2⟩

/-- what lines 176-181 accept -/
theorem createRadial_valid {P : DiskParam} {f : ℝ → ℝ × Option (ℝ × ℝ)} (h : createRadial P = some f) : P.Valid := by
  simp only [createRadial] at h
  split_ifs at h <;> exact ⟨by linarith, by linarith, by linarith⟩

theorem rich_pos (P : DiskParam) {R : ℝ} (hR : 0 < R) :
    (radialRich P R).1 = surfDens P R ∧ ∃ d, (radialRich P R).2 = some d ∧
      d.1 = surfDens P R * (P.innerCutoffRadius / R ^ 2 - 1 / P.sersicIndex * ((R / P.scaleRadius) ^ (1 / P.sersicIndex) / R) -
        P.modulationAmplitude * sin (R / P.scaleRadius) / P.scaleRadius) ∧
      d.2 = surfDens P R * ((P.innerCutoffRadius / R ^ 2 - 1 / P.sersicIndex * ((R / P.scaleRadius) ^ (1 / P.sersicIndex) / R) -
        P.modulationAmplitude * sin (R / P.scaleRadius) / P.scaleRadius) ^ 2 - 2 * P.innerCutoffRadius / R ^ 3 -
        P.modulationAmplitude * cos (R / P.scaleRadius) / P.scaleRadius ^ 2 +
        (R / P.scaleRadius) ^ (1 / P.sersicIndex) / R ^ 2 * (1 / P.sersicIndex) * (1 - 1 / P.sersicIndex)) := by
  have h0 : ¬(P.innerCutoffRadius ≠ 0 ∧ R = 0) := fun h => hR.ne' h.2
  have g1 : ∀ x : ℝ, (if P.modulationAmplitude ≠ 0 then P.modulationAmplitude * x else 0) = P.modulationAmplitude * x := by
    intro x; split_ifs with h
    · rfl
    · push Not at h; simp [h]
  have g2 : (if P.innerCutoffRadius ≠ 0 then P.innerCutoffRadius * (1 / R) else 0) = P.innerCutoffRadius * (1 / R) := by
    split_ifs with h
    · rfl
    · push Not at h; simp [h]
  have g3 : ∀ v x : ℝ, (if v ≠ 0 then x * v else 0) = x * v := by
    intro v x; split_ifs with h
    · rfl
    · push Not at h; simp [h]
  have g4 : ∀ v x : ℝ, (if v ≠ 0 then v * x else 0) = v * x := by
    intro v x; split_ifs with h
    · rfl
    · push Not at h; simp [h]
  have g5 : ∀ x k : ℝ, (if k = 1 then 0 else x * k * (1 - k)) = x * k * (1 - k) := by
    intro x k; split_ifs with h
    · simp [h]
    · rfl
  have e1 : P.surfaceDensity * exp (-(P.innerCutoffRadius * (1 / R)) - (R * (1 / P.scaleRadius)) ^ (1 / P.sersicIndex) +
      P.modulationAmplitude * cos (R * (1 / P.scaleRadius))) = surfDens P R := by
    rw [surfDens]; congr 2; rw [mul_one_div, mul_one_div]; ring
  simp only [radialRich, if_neg h0, if_neg hR.ne', g1, g2, g3, g4, g5, e1]
  refine ⟨trivial, _, rfl, ?_, ?_⟩
  · simp only [mul_one_div]; ring
  · simp only [mul_one_div]; field_simp

theorem exp_pos_form (P : DiskParam) (h : P.innerCutoffRadius = 0 ∧ P.modulationAmplitude = 0 ∧ P.sersicIndex = 1) (R : ℝ) :
    (radialExp P R).pot = surfDens P R := by
  simp only [radialExp, surfDens, h.1, h.2.1, h.2.2]
  congr 2; simp; ring

theorem surfDens_deriv (P : DiskParam) (hv : P.Valid) {R : ℝ} (hR : 0 < R) :
    HasDerivAt (surfDens P) (surfDens P R * (P.innerCutoffRadius / R ^ 2 - 1 / P.sersicIndex * ((R / P.scaleRadius) ^ (1 / P.sersicIndex) / R) -
        P.modulationAmplitude * sin (R / P.scaleRadius) / P.scaleRadius)) R := by
  have hd := hv.radius
  have hu : HasDerivAt (fun s : ℝ => s / P.scaleRadius) (1 / P.scaleRadius) R := (hasDerivAt_id R).div_const _
  have hx : 0 < R / P.scaleRadius := by positivity
  have h1 := hu.rpow_const (p := 1 / P.sersicIndex) (Or.inl hx.ne')
  have h2 : HasDerivAt (fun s : ℝ => P.innerCutoffRadius / s) (-P.innerCutoffRadius / R ^ 2) R := by
    refine ((hasDerivAt_const R P.innerCutoffRadius).div (hasDerivAt_id R) hR.ne').congr_deriv ?_
    simp
  have h3 := (hu.cos).const_mul P.modulationAmplitude
  have h4 := ((((h1.neg).sub h2).add h3).exp).const_mul P.surfaceDensity
  refine h4.congr_deriv ?_
  simp only [surfDens, Pi.neg_apply, Pi.sub_apply, Pi.add_apply]
  rw [rpow_sub_one hx.ne']
  field_simp
  ring

/-- C97 (radial): for every positive radius, the radial function made for any admissible parameters is the documented surface density, and the derivatives that it reports are its derivatives -/
theorem C97_radial (P : DiskParam) (f : ℝ → ℝ × Option (ℝ × ℝ)) (h : createRadial P = some f) (R : ℝ) (hR : 0 < R) :
    (f R).1 = surfDens P R ∧ (f R).2.isSome ∧ RadialOk (asRadial f) R := by
  have hv := createRadial_valid h
  have hd := hv.radius
  by_cases hc : P.innerCutoffRadius = 0 ∧ P.modulationAmplitude = 0 ∧ P.sersicIndex = 1
  · have e : f = fun R => ((radialExp P R).pot, some ((radialExp P R).der, (radialExp P R).der2)) := by
      simp only [createRadial, if_neg (not_le.mpr hv.radius), if_neg (not_lt.mpr hv.hole), if_neg (not_le.mpr hv.sersic), if_pos hc, Option.some.injEq] at h
      exact h.symm
    subst e
    refine ⟨exp_pos_form P hc R, rfl, ?_⟩
    have hu : HasDerivAt (fun s : ℝ => -s * (1 / P.scaleRadius)) (-1 * (1 / P.scaleRadius)) R := (hasDerivAt_id R).neg.mul_const _
    have h1 := (hu.exp).const_mul P.surfaceDensity
    refine ⟨h1.congr_deriv ?_, ((h1.neg).mul_const (1 / P.scaleRadius)).congr_deriv ?_⟩
    · simp only [asRadial, Option.getD_some, radialExp]; ring
    · simp only [asRadial, Option.getD_some, radialExp]; ring
  · have e : f = radialRich P := by
      simp only [createRadial, if_neg (not_le.mpr hv.radius), if_neg (not_lt.mpr hv.hole), if_neg (not_le.mpr hv.sersic), if_neg hc, Option.some.injEq] at h
      exact h.symm
    subst e
    obtain ⟨hp, d, hs, d1, d2⟩ := rich_pos P hR
    refine ⟨hp, by rw [hs]; rfl, ?_, ?_⟩
    · have : (asRadial (radialRich P) R).der = d.1 := by simp [asRadial, hs]
      rw [this, d1]
      refine (surfDens_deriv P hv hR).congr_of_eventuallyEq ?_
      filter_upwards [lt_mem_nhds hR] with s hs
      exact (rich_pos P hs).1
    · have : (asRadial (radialRich P) R).der2 = d.2 := by simp [asRadial, hs]
      rw [this, d2]
      have hu : HasDerivAt (fun s : ℝ => s / P.scaleRadius) (1 / P.scaleRadius) R := (hasDerivAt_id R).div_const _
      have hx : 0 < R / P.scaleRadius := by positivity
      have h1 := ((hu.rpow_const (p := 1 / P.sersicIndex) (Or.inl hx.ne')).div (hasDerivAt_id R) hR.ne').const_mul (1 / P.sersicIndex)
      have h2 : HasDerivAt (fun s : ℝ => P.innerCutoffRadius / s ^ 2) (-2 * P.innerCutoffRadius / R ^ 3) R := by
        refine ((hasDerivAt_const R P.innerCutoffRadius).div (hasDerivAt_pow 2 R) (pow_ne_zero 2 hR.ne')).congr_deriv ?_
        simp
        field_simp
      have h3 := ((hu.sin).const_mul P.modulationAmplitude).div_const P.scaleRadius
      have h4 := (surfDens_deriv P hv hR).mul ((h2.sub h1).sub h3)
      refine (h4.congr_deriv ?_).congr_of_eventuallyEq ?_
      · simp only [Pi.sub_apply, id, Pi.div_apply]
        rw [rpow_sub_one hx.ne']
        field_simp
        ring
      · filter_upwards [lt_mem_nhds hR] with s hs
        obtain ⟨-, d', hs', d1', -⟩ := rich_pos P hs
        simp only [asRadial, hs', Option.getD_some, d1', Pi.mul_apply, Pi.sub_apply, Pi.div_apply, id]

/-- at the centre of a disk with a hole, everything is zero, which is the limit of the surface density -/
theorem C97_radial_hole (P : DiskParam) (f : ℝ → ℝ × Option (ℝ × ℝ)) (h : createRadial P = some f) (h0 : 0 < P.innerCutoffRadius) :
    f 0 = (0, some (0, 0)) := by
  have hv := createRadial_valid h
  have hc : ¬(P.innerCutoffRadius = 0 ∧ P.modulationAmplitude = 0 ∧ P.sersicIndex = 1) := fun h => h0.ne' h.1
  simp only [createRadial, if_neg (not_le.mpr hv.radius), if_neg (not_lt.mpr hv.hole), if_neg (not_le.mpr hv.sersic), if_neg hc, Option.some.injEq] at h
  rw [← h, radialRich, if_pos ⟨h0.ne', rfl⟩]

/-- C97 (refutation at the centre): for a disk with a Sersic index other than one and no hole, the derivatives reported at R=0 are NaN, even when the surface density is smooth there (here exp(-R²)) -/
theorem C97_refuted_centre : ∃ P f, createRadial P = some f ∧ (f 0).1 = surfDens P 0 ∧ (f 0).2 = none ∧
    HasDerivAt (surfDens P) 0 0 ∧ HasDerivAt (deriv (surfDens P)) (-2) 0 := by
  refine ⟨⟨1, 1, 1, 0, 0, 1 / 2⟩, radialRich ⟨1, 1, 1, 0, 0, 1 / 2⟩, ?_, ?_, ?_, ?_⟩
  · norm_num [createRadial]
  · norm_num [radialRich, surfDens]
  · norm_num [radialRich]
  · have e : surfDens ⟨1, 1, 1, 0, 0, 1 / 2⟩ = fun R => exp (-R ^ 2) := by
      funext R
      norm_num [surfDens]
    have h : ∀ R : ℝ, HasDerivAt (fun R : ℝ => exp (-R ^ 2)) (exp (-R ^ 2) * (-(2 * R))) R := by
      intro R
      refine ((hasDerivAt_pow 2 R).neg.exp).congr_deriv ?_
      simp
    rw [e]
    have e2 : deriv (fun R : ℝ => exp (-R ^ 2)) = fun R => exp (-R ^ 2) * (-(2 * R)) := funext fun R => (h R).deriv
    refine ⟨(h 0).congr_deriv (by simp), ?_⟩
    rw [e2]
    refine ((h 0).mul (((hasDerivAt_id (0 : ℝ)).const_mul 2).neg)).congr_deriv ?_
    simp

/-! ### vertical profile -/

/-- derivative of an even function -/
theorem even_deriv {g g' : ℝ → ℝ} (hg : ∀ x, HasDerivAt g (g' x) x) (h0 : g' 0 = 0) (z : ℝ) :
    HasDerivAt (fun s => g |s|) (sgn z * g' |z|) z := by
  rcases lt_trichotomy z 0 with hz | rfl | hz
  · have h1 := (hg (-z)).comp z (hasDerivAt_neg z)
    refine (h1.congr_deriv ?_).congr_of_eventuallyEq ?_
    · simp only [sgn, if_neg (not_lt.mpr hz.le), if_pos hz, abs_of_neg hz]; ring
    · filter_upwards [gt_mem_nhds hz] with s hs
      simp [abs_of_neg hs]
  · have e : sgn 0 * g' |(0 : ℝ)| = 0 := by simp [sgn]
    rw [e]
    have h1 : HasDerivWithinAt (fun s => g |s|) 0 (Set.Ici 0) 0 := by
      have := (hg 0).hasDerivWithinAt (s := Set.Ici 0)
      rw [h0] at this
      exact this.congr (fun s hs => by rw [abs_of_nonneg hs]) (by simp)
    have h2 : HasDerivWithinAt (fun s => g |s|) 0 (Set.Iic 0) 0 := by
      have h3 : HasDerivAt (fun s => g (-s)) 0 0 := by
        have := (show HasDerivAt g (g' (-0)) (-0) from hg (-0)).comp (0 : ℝ) (hasDerivAt_neg 0)
        exact this.congr_deriv (by simp [h0])
      exact h3.hasDerivWithinAt.congr (fun s hs => by rw [abs_of_nonpos hs]) (by simp)
    have := h1.union h2
    rwa [Set.union_comm, Set.Iic_union_Ici, hasDerivWithinAt_univ] at this
  · refine ((hg z).congr_deriv ?_).congr_of_eventuallyEq ?_
    · simp only [sgn, if_pos hz, abs_of_pos hz]; ring
    · filter_upwards [lt_mem_nhds hz] with s hs
      simp [abs_of_pos hs]

/-- derivative of an odd function -/
theorem odd_deriv {k k' : ℝ → ℝ} (hk : ∀ x, HasDerivAt k (k' x) x) (h0 : k 0 = 0) (z : ℝ) :
    HasDerivAt (fun s => sgn s * k |s|) (k' |z|) z := by
  rcases lt_trichotomy z 0 with hz | rfl | hz
  · have h1 := ((hk (-z)).comp z (hasDerivAt_neg z)).neg
    refine (h1.congr_deriv ?_).congr_of_eventuallyEq ?_
    · simp only [abs_of_neg hz]; ring
    · filter_upwards [gt_mem_nhds hz] with s hs
      simp [sgn, abs_of_neg hs, hs, not_lt.mpr hs.le]
  · have h1 : HasDerivWithinAt (fun s => sgn s * k |s|) (k' |(0 : ℝ)|) (Set.Ici 0) 0 := by
      have := (hk 0).hasDerivWithinAt (s := Set.Ici 0)
      rw [abs_zero]
      refine this.congr (fun s hs => ?_) (by simp [h0])
      rcases (show (0 : ℝ) ≤ s from hs).eq_or_lt with rfl | h
      · simp [h0]
      · simp [sgn, abs_of_pos h, h]
    have h2 : HasDerivWithinAt (fun s => sgn s * k |s|) (k' |(0 : ℝ)|) (Set.Iic 0) 0 := by
      have h3 : HasDerivAt (fun s => -k (-s)) (k' |(0 : ℝ)|) 0 := by
        have := ((show HasDerivAt k (k' (-0)) (-0) from hk (-0)).comp (0 : ℝ) (hasDerivAt_neg 0)).neg
        exact this.congr_deriv (by simp)
      refine h3.hasDerivWithinAt.congr (fun s hs => ?_) (by simp [h0])
      rcases (show s ≤ (0 : ℝ) from hs).eq_or_lt with rfl | h
      · simp [h0]
      · simp [sgn, abs_of_neg h, h, not_lt.mpr h.le]
    have := h1.union h2
    rwa [Set.union_comm, Set.Iic_union_Ici, hasDerivWithinAt_univ] at this
  · refine ((hk z).congr_deriv ?_).congr_of_eventuallyEq ?_
    · simp only [abs_of_pos hz]
    · filter_upwards [lt_mem_nhds hz] with s hs
      simp [sgn, abs_of_pos hs, hs]

/-- the exact antiderivatives -/
noncomputable def exactH (P : DiskParam) (z : ℝ) : ℝ :=
  if P.scaleHeight > 0 then P.scaleHeight / 2 * (exp (-|z / P.scaleHeight|) - 1 + |z / P.scaleHeight|)
  else if P.scaleHeight < 0 then |P.scaleHeight| * log (cosh (z / (2 * P.scaleHeight)))
  else |z| / 2

theorem cosh_half (x : ℝ) : 0.5 * x + log (0.5 * (1 + exp (-x))) = log (cosh (x / 2)) := by
  have : cosh (x / 2) = exp (0.5 * x) * (0.5 * (1 + exp (-x))) := by
    rw [cosh_eq, show exp (-x) = exp (-(x / 2)) * exp (-(x / 2)) by rw [← exp_add]; ring_nf, show 0.5 * x = x / 2 by ring]
    have : exp (x / 2) * exp (-(x / 2)) = 1 := by rw [← exp_add]; simp
    linear_combination (1/2) * (-exp (-(x/2))) * this
  rw [this, log_mul (exp_pos _).ne' (by positivity), log_exp]

/-- C97 (vertical, derivatives): for a disk of finite thickness, the second derivative reported at any height is the documented vertical profile, and it is the derivative of the first derivative reported; the latter is the derivative of an exact antiderivative -/
theorem C97_vertical (P : DiskParam) (h : P.scaleHeight ≠ 0) (z : ℝ) :
    (createVertical P z).der2 = vertDens P z ∧ HasDerivAt (fun s => (createVertical P s).der) (createVertical P z).der2 z ∧
    HasDerivAt (exactH P) (createVertical P z).der z := by
  rcases lt_or_gt_of_ne h with hn | hp
  · have hq : 0 < -P.scaleHeight := by linarith
    have hv : createVertical P = verticalIso (-P.scaleHeight) := by simp only [createVertical, if_neg (not_lt.mpr hn.le), if_pos hn]
    set q := -P.scaleHeight with hqd
    have hx : ∀ s : ℝ, |s * (1 / q)| = |s| / q := fun s => by rw [abs_mul, abs_of_pos (by positivity : 0 < 1 / q)]; ring
    have he : ∀ x : ℝ, HasDerivAt (fun x => exp (-(x / q))) (-exp (-(x / q)) / q) x := fun x => by
      refine (((hasDerivAt_id x).div_const q).neg.exp).congr_deriv ?_
      simp; ring
    have p1 : ∀ x : ℝ, 0 < 1 + exp (-(x / q)) := fun x => by positivity
    refine ⟨?_, ?_, ?_⟩
    · rw [hv, verticalIso, vertDens, if_neg (not_lt.mpr hn.le)]
      simp only [hx]
      have e1 : |P.scaleHeight| = q := abs_of_neg hn
      have e2 : cosh (z / (2 * P.scaleHeight)) = cosh (|z| / q / 2) := by
        rw [← cosh_abs, abs_div, abs_mul, e1, abs_of_pos (by norm_num : (0:ℝ) < 2)]; congr 1; field_simp
      rw [e1, e2]
      have e3 : exp (-(|z| / q)) = exp (-(|z| / q / 2)) ^ 2 := by rw [← exp_nat_mul]; congr 1; push_cast; ring
      have e4 : exp (|z| / q / 2) = 1 / exp (-(|z| / q / 2)) := by rw [exp_neg]; simp
      rw [cosh_eq, e3, e4]
      have := exp_pos (-(|z| / q / 2))
      generalize exp (-(|z| / q / 2)) = y at *
      field_simp
      ring
    · rw [hv]
      have hk : ∀ x : ℝ, HasDerivAt (fun x => 0.5 * (1 - exp (-(x / q))) * (1 / (1 + exp (-(x / q))))) (exp (-(x / q)) * (1 / q) * (1 / (1 + exp (-(x / q)))) ^ 2) x := fun x => by
        have h1 := (((he x).const_sub 1).const_mul 0.5).mul ((hasDerivAt_const x (1:ℝ)).div ((he x).const_add 1) (p1 x).ne')
        refine h1.congr_deriv ?_
        have := p1 x
        simp only [Pi.div_apply]
        field_simp
        ring
      have := odd_deriv hk (by simp) z
      refine (this.congr_deriv ?_).congr_of_eventuallyEq (Filter.Eventually.of_forall fun s => ?_)
      · simp only [verticalIso, hx]
      · simp only [verticalIso, hx]; ring
    · rw [hv]
      have hg : ∀ x : ℝ, HasDerivAt (fun x => q * log (cosh (x / q / 2))) (0.5 * (1 - exp (-(x / q))) * (1 / (1 + exp (-(x / q))))) x := fun x => by
        have h1 : (fun x => q * log (cosh (x / q / 2))) = fun x => q * (0.5 * (x / q) + log (0.5 * (1 + exp (-(x / q))))) := by
          funext x; rw [cosh_half]
        rw [h1]
        have h2 := ((((hasDerivAt_id x).div_const q).const_mul 0.5).add ((((he x).const_add 1).const_mul 0.5).log (by have := p1 x; positivity))).const_mul q
        refine h2.congr_deriv ?_
        have := p1 x
        field_simp
        ring
      have := even_deriv hg (by simp) z
      refine (this.congr_deriv ?_).congr_of_eventuallyEq (Filter.Eventually.of_forall fun s => ?_)
      · simp only [verticalIso, hx]; ring
      · simp only [exactH, if_neg (not_lt.mpr hn.le), if_pos hn, abs_of_neg hn]
        rw [← cosh_abs, abs_div, abs_mul, abs_of_neg hn, abs_of_pos (by norm_num : (0:ℝ) < 2)]
        congr 3; rw [← hqd]; field_simp
  · have hv : createVertical P = verticalExp P.scaleHeight := by simp only [createVertical, if_pos hp]
    set q := P.scaleHeight with hqd
    have hx : ∀ s : ℝ, |s * (1 / q)| = |s| / q := fun s => by rw [abs_mul, abs_of_pos (by positivity : 0 < 1 / q)]; ring
    have he : ∀ x : ℝ, HasDerivAt (fun x => exp (-(x / q))) (-exp (-(x / q)) / q) x := fun x => by
      refine (((hasDerivAt_id x).div_const q).neg.exp).congr_deriv ?_
      simp; ring
    refine ⟨?_, ?_, ?_⟩
    · rw [hv, verticalExp, vertDens, if_pos hp]
      simp only [hx, abs_div, abs_of_pos hp, ← hqd]
      field_simp; norm_num
    · rw [hv]
      have hk : ∀ x : ℝ, HasDerivAt (fun x => 0.5 * (1 - exp (-(x / q)))) (0.5 * exp (-(x / q)) * (1 / q)) x := fun x => by
        refine (((he x).const_sub 1).const_mul 0.5).congr_deriv ?_
        ring
      have := odd_deriv hk (by simp) z
      refine (this.congr_deriv ?_).congr_of_eventuallyEq (Filter.Eventually.of_forall fun s => ?_)
      · simp only [verticalExp, hx]
      · simp only [verticalExp, hx]; ring
    · rw [hv]
      have hg : ∀ x : ℝ, HasDerivAt (fun x => q / 2 * (exp (-(x / q)) - 1 + x / q)) (0.5 * (1 - exp (-(x / q)))) x := fun x => by
        refine ((((he x).sub_const 1).add ((hasDerivAt_id x).div_const q)).const_mul (q / 2)).congr_deriv ?_
        field_simp
        ring
      have := even_deriv hg (by simp) z
      refine (this.congr_deriv ?_).congr_of_eventuallyEq (Filter.Eventually.of_forall fun s => ?_)
      · simp only [verticalExp, hx]; ring
      · simp only [exactH, ← hqd, if_pos hp, abs_div, abs_of_pos hp]

end Verif.Pot
