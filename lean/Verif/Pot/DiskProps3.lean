import Verif.Pot.DiskProps2

/-! # C97: the DiskAnsatz potential at the origin and in the plane; disk made from parameters -/

namespace Verif.Pot

open Real Verif.Coord MeasureTheory Filter Topology

theorem mul_cont_deriv {a b : ℝ → ℝ} {t β : ℝ} (ha : ContinuousAt a t) (hb : HasDerivAt b β t) (h0 : b t = 0) :
    HasDerivAt (fun s => a s * b s) (a t * β) t := by
  rw [hasDerivAt_iff_tendsto_slope] at hb ⊢
  have : Tendsto (fun s => a s * slope b t s) (𝓝[≠] t) (𝓝 (a t * β)) := (ha.tendsto.mono_left nhdsWithin_le_nhds).mul hb
  refine this.congr fun s => ?_
  simp only [slope_def_field, h0]; ring

theorem mul_bdd_deriv {a b : ℝ → ℝ} {t C : ℝ} (ha : ∀ᶠ s in 𝓝 t, |a s| ≤ C) (hb : HasDerivAt b 0 t) (h0 : b t = 0) :
    HasDerivAt (fun s => a s * b s) 0 t := by
  rw [hasDerivAt_iff_isLittleO] at hb ⊢
  simp only [h0, sub_zero, smul_zero, mul_zero] at hb ⊢
  have h1 : a =O[𝓝 t] fun _ => (1 : ℝ) := Asymptotics.IsBigO.of_bound C (by simpa using ha)
  simpa using h1.mul_isLittleO hb

/-- C97 (origin): if the radial function is continuous at the centre and has a bounded derivative near it, then the gradient and the Hessian reported at the origin are those of the potential -/
theorem C97_ansatz_origin (f H : ℝ → Radial) (phi0 C : ℝ) (hf : ContinuousWithinAt (fun r => (f r).pot) (Set.Ici 0) 0)
    (hb : ∀ᶠ r in 𝓝[≥] 0, |(f r).der| ≤ C) (hH : RadialOk H 0) (h0 : (H 0).pot = 0) (h1 : (H 0).der = 0) : OkCyl (ansatz f H) ⟨0, 0, phi0⟩ := by
  have hp0 : ∀ q, (ansatz f H q).pot = (f (√(q.R ^ 2 + q.z ^ 2))).pot * (4 * π) * (H q.z).pot := by
    intro q; simp only [ansatz]; split_ifs with h
    · rw [h]; simp
    · rfl
  have hpi := pi_pos
  have ratio : ∀ x R z : ℝ, x ^ 2 ≤ R ^ 2 + z ^ 2 → |x * (if √(R ^ 2 + z ^ 2) > 0 then 1 / √(R ^ 2 + z ^ 2) else 1)| ≤ 1 := by
    intro x R z hx
    split_ifs with h
    · rw [mul_one_div, abs_div, abs_of_pos h, div_le_one h]
      exact abs_le_sqrt hx
    · have : R ^ 2 + z ^ 2 = 0 := by
        have := sqrt_eq_zero'.mp (le_antisymm (not_lt.mp h) (sqrt_nonneg _)); nlinarith [sq_nonneg R, sq_nonneg z]
      have : x = 0 := by nlinarith
      simp [this]
  have aux : ∀ (R z : ℝ → ℝ) (R' z' t : ℝ), HasDerivAt R R' t → HasDerivAt z z' t → R t = 0 → z t = 0 →
      ContinuousAt (fun s => (f √(R s ^ 2 + z s ^ 2)).pot) t ∧ (∀ᶠ s in 𝓝 t, |(f √(R s ^ 2 + z s ^ 2)).der| ≤ C) ∧
      HasDerivAt (fun s => (H (z s)).pot) 0 t ∧ HasDerivAt (fun s => (H (z s)).der) ((H 0).der2 * z') t := by
    intro R z R' z' t hR hz hR0 hz0
    have hc : ContinuousAt (fun s => √(R s ^ 2 + z s ^ 2)) t := ((hR.continuousAt.pow 2).add (hz.continuousAt.pow 2)).sqrt
    have ht : Tendsto (fun s => √(R s ^ 2 + z s ^ 2)) (𝓝 t) (𝓝[≥] 0) := by
      refine tendsto_nhdsWithin_iff.mpr ⟨?_, Eventually.of_forall fun s => sqrt_nonneg _⟩
      have := hc.tendsto
      simpa [hR0, hz0] using this
    refine ⟨?_, ht.eventually hb, ?_, ?_⟩
    · have := hf.tendsto.comp ht
      rw [ContinuousAt]
      have e : √(R t ^ 2 + z t ^ 2) = 0 := by rw [hR0, hz0]; simp
      rw [e]
      exact this
    · have h2 := hH.1
      rw [h1] at h2
      rw [show (0:ℝ) = z t from hz0.symm] at h2
      exact (h2.comp t hz).congr_deriv (by rw [hz0]; simp)
    · have h2 := hH.2
      rw [← hz0] at h2 ⊢
      exact h2.comp t hz
  refine ⟨?_, ?_, ?_, ?_⟩
  · intro R z phi R' z' phi' t hR hz _ hpos
    have e1 : R t = 0 := congrArg PosCyl.R hpos
    have e2 : z t = 0 := congrArg PosCyl.z hpos
    obtain ⟨a1, a2, a3, a4⟩ := aux R z R' z' t hR hz e1 e2
    simp only [hp0]
    refine (mul_cont_deriv (a1.mul_const (4 * π)) a3 (by rw [e2, h0])).congr_deriv ?_
    simp [ansatz, h0, h1]
  · intro R z phi R' z' phi' t hR hz _ hpos
    have e1 : R t = 0 := congrArg PosCyl.R hpos
    have e2 : z t = 0 := congrArg PosCyl.z hpos
    obtain ⟨a1, a2, a3, a4⟩ := aux R z R' z' t hR hz e1 e2
    refine ((mul_bdd_deriv (C := C * (4 * π)) (a := fun s => R s * (if √(R s ^ 2 + z s ^ 2) > 0 then 1 / √(R s ^ 2 + z s ^ 2) else 1) *
      ((f √(R s ^ 2 + z s ^ 2)).der * (4 * π))) ?_ a3 (by rw [e2, h0])).congr_deriv ?_).congr_of_eventuallyEq (Eventually.of_forall fun s => ?_)
    · filter_upwards [a2] with s hs
      have r1 := ratio (R s) (R s) (z s) (by nlinarith [sq_nonneg (z s)])
      have r2 := abs_nonneg (f √(R s ^ 2 + z s ^ 2)).der
      rw [abs_mul, abs_mul (f √(R s ^ 2 + z s ^ 2)).der, abs_of_pos (by positivity : 0 < 4 * π)]
      calc _ ≤ 1 * (|(f √(R s ^ 2 + z s ^ 2)).der| * (4 * π)) := mul_le_mul_of_nonneg_right r1 (by positivity)
        _ ≤ C * (4 * π) := by rw [one_mul]; exact mul_le_mul_of_nonneg_right hs (by positivity)
    · simp [ansatz, h0, h1]
    · simp only [ansatz]; ring
  · intro R z phi R' z' phi' t hR hz _ hpos
    have e1 : R t = 0 := congrArg PosCyl.R hpos
    have e2 : z t = 0 := congrArg PosCyl.z hpos
    obtain ⟨a1, a2, a3, a4⟩ := aux R z R' z' t hR hz e1 e2
    have b1 := mul_bdd_deriv (C := C * (4 * π)) (a := fun s => z s * (if √(R s ^ 2 + z s ^ 2) > 0 then 1 / √(R s ^ 2 + z s ^ 2) else 1) *
      ((f √(R s ^ 2 + z s ^ 2)).der * (4 * π))) (by
      filter_upwards [a2] with s hs
      have r1 := ratio (z s) (R s) (z s) (by nlinarith [sq_nonneg (R s)])
      have r2 := abs_nonneg (f √(R s ^ 2 + z s ^ 2)).der
      rw [abs_mul, abs_mul (f √(R s ^ 2 + z s ^ 2)).der, abs_of_pos (by positivity : 0 < 4 * π)]
      calc _ ≤ 1 * (|(f √(R s ^ 2 + z s ^ 2)).der| * (4 * π)) := mul_le_mul_of_nonneg_right r1 (by positivity)
        _ ≤ C * (4 * π) := by rw [one_mul]; exact mul_le_mul_of_nonneg_right hs (by positivity)) a3 (by rw [e2, h0])
    have b2 := mul_cont_deriv (a1.mul_const (4 * π)) a4 (by rw [e2, h1])
    refine ((b1.add b2).congr_deriv ?_).congr_of_eventuallyEq (Eventually.of_forall fun s => ?_)
    · simp [ansatz, h0, h1, e1, e2]; ring
    · simp only [ansatz, Pi.add_apply]; ring
  · intro R z phi R' z' phi' t hR hz _ hpos
    refine ((hasDerivAt_const t (0 : ℝ)).congr_deriv ?_)
    simp [ansatz]

/-- in the plane of a disk of finite thickness: H vanishes together with its derivative, and the derivatives are exact -/
theorem C97_vertical_plane (P : DiskParam) (h : P.scaleHeight ≠ 0) :
    (createVertical P 0).pot = 0 ∧ (createVertical P 0).der = 0 ∧ RadialOk (createVertical P) 0 := by
  have hd := (C97_vertical P h 0).2.1
  rcases lt_or_gt_of_ne h with hn | hp
  · have hv : createVertical P = verticalIso (-P.scaleHeight) := by simp only [createVertical, if_neg (not_lt.mpr hn.le), if_pos hn]
    have e1 : (createVertical P 0).pot = 0 := by
      have : ¬((0:ℝ) > 1e-3) := by norm_num
      rw [hv]; simp only [verticalIso, zero_mul, abs_zero, if_neg this, mul_zero]
    have e2 : (createVertical P 0).der = 0 := by rw [hv]; simp [verticalIso, sgn]
    refine ⟨e1, e2, ?_, hd⟩
    rw [e2]
    set q := -P.scaleHeight with hq
    have hq0 : 0 < q := by linarith
    have hg : HasDerivAt (fun z : ℝ => q * ((z / q) ^ 2 * (1 / 8 - 1 / 192 * (z / q) ^ 2))) 0 0 := by
      have hu : HasDerivAt (fun s : ℝ => s / q) (1 / q) 0 := (hasDerivAt_id _).div_const _
      refine (((hu.pow 2).mul (((hu.pow 2).const_mul (1 / 192)).const_sub (1 / 8))).const_mul q).congr_deriv ?_
      simp
    refine hg.congr_of_eventuallyEq ?_
    have : ∀ᶠ z : ℝ in 𝓝 0, |z * (1 / q)| < 1e-3 := by
      have : ContinuousAt (fun z : ℝ => |z * (1 / q)|) 0 := by fun_prop
      exact this.eventually (gt_mem_nhds (by simp; norm_num))
    filter_upwards [this] with z hz
    rw [hv]
    simp only [verticalIso, if_neg (not_lt.mpr hz.le)]
    rw [mul_assoc (1 / 192), abs_mul_abs_self]
    field_simp
  · have hv : createVertical P = verticalExp P.scaleHeight := by simp only [createVertical, if_pos hp]
    have e1 : (createVertical P 0).pot = 0 := by
      have : ¬((0:ℝ) > 1e-5) := by norm_num
      rw [hv]; simp only [verticalExp, zero_mul, abs_zero, if_neg this, mul_zero]
    have e2 : (createVertical P 0).der = 0 := by rw [hv]; simp [verticalExp, sgn]
    refine ⟨e1, e2, ?_, hd⟩
    rw [e2]
    set q := P.scaleHeight with hq
    have hk : ∀ x : ℝ, HasDerivAt (fun x : ℝ => 0.5 / (1 / q) * (x / q * (x / q) * (0.5 - 1 / 6 * (x / q)))) (0.5 / (1 / q) * ((1 / q * (x / q) + x / q * (1 / q)) * (0.5 - 1 / 6 * (x / q)) + x / q * (x / q) * (-(1 / 6 * (1 / q))))) x := by
      intro x
      have hu : HasDerivAt (fun s : ℝ => s / q) (1 / q) x := (hasDerivAt_id _).div_const _
      exact ((hu.mul hu).mul ((hu.const_mul (1 / 6)).const_sub 0.5)).const_mul (0.5 / (1 / q))
    have hg := even_deriv hk (by simp) 0
    refine (hg.congr_deriv (by simp [sgn])).congr_of_eventuallyEq ?_
    have : ∀ᶠ z : ℝ in 𝓝 0, |z * (1 / q)| < 1e-5 := by
      have : ContinuousAt (fun z : ℝ => |z * (1 / q)|) 0 := by fun_prop
      exact this.eventually (gt_mem_nhds (by simp; norm_num))
    filter_upwards [this] with z hz
    have hx : |z * (1 / q)| = |z| / q := by rw [abs_mul, abs_of_pos (by positivity : 0 < 1 / q)]; ring
    rw [hv]
    simp only [verticalExp]
    rw [if_neg (not_lt.mpr hz.le), hx]

/-- C97 (outside the layer): the derivatives of the vertical function are exact -/
theorem C97_vertical_outside (P : DiskParam) (h : P.scaleHeight ≠ 0) (z : ℝ) (hz : |z / P.scaleHeight| > 1e-3) : RadialOk (createVertical P) z := by
  refine ⟨?_, (C97_vertical P h z).2.1⟩
  refine (C97_vertical P h z).2.2.congr_of_eventuallyEq ?_
  have hc : ContinuousAt (fun z : ℝ => |z / P.scaleHeight|) z := by fun_prop
  filter_upwards [hc.eventually (lt_mem_nhds hz)] with s hs
  obtain ⟨c1, c2, -⟩ := C97_vertical_value P s
  rcases lt_or_gt_of_ne h with hn | hp
  · exact (c2 hn).1 hs
  · exact (c1 hp).1 (by norm_num at hs ⊢; linarith)

/-- C97 (disk made from parameters): in the plane and outside a thin layer next to it, everywhere except at the origin, the forces and their derivatives reported are those of the potential -/
theorem C97_disk (P : DiskParam) (f : ℝ → ℝ × Option (ℝ × ℝ)) (hf : createRadial P = some f) (h : P.scaleHeight ≠ 0) (pos : PosCyl)
    (hr : 0 < √(pos.R ^ 2 + pos.z ^ 2)) (hz : pos.z = 0 ∨ |pos.z / P.scaleHeight| > 1e-3) :
    OkCyl (ansatz (asRadial f) (createVertical P)) pos := by
  refine C97_ansatz _ _ pos hr (C97_radial P f hf _ hr).2.2 ?_
  rcases hz with h0 | h0
  · rw [h0]; exact (C97_vertical_plane P h).2.2
  · exact C97_vertical_outside P h _ h0

/-- the same for a thin disk, off the plane -/
theorem C97_disk_thin (P : DiskParam) (f : ℝ → ℝ × Option (ℝ × ℝ)) (hf : createRadial P = some f) (h : P.scaleHeight = 0) (pos : PosCyl) (hz : pos.z ≠ 0) :
    OkCyl (ansatz (asRadial f) (createVertical P)) pos := by
  have hr : 0 < √(pos.R ^ 2 + pos.z ^ 2) := sqrt_pos.mpr (by positivity)
  exact C97_ansatz _ _ pos hr (C97_radial P f hf _ hr).2.2 ((C97_vertical_thin P h).1 _ hz).1

/-- the same at the origin for an exponential disk -/
theorem C97_disk_origin (P : DiskParam) (f : ℝ → ℝ × Option (ℝ × ℝ)) (hf : createRadial P = some f) (h : P.scaleHeight ≠ 0)
    (he : P.innerCutoffRadius = 0 ∧ P.modulationAmplitude = 0 ∧ P.sersicIndex = 1) (phi : ℝ) :
    OkCyl (ansatz (asRadial f) (createVertical P)) ⟨0, 0, phi⟩ := by
  have hv := createRadial_valid hf
  have e : f = fun R => ((radialExp P R).pot, some ((radialExp P R).der, (radialExp P R).der2)) := by
    simp only [createRadial, if_neg (not_le.mpr hv.radius), if_neg (not_lt.mpr hv.hole), if_neg (not_le.mpr hv.sersic), if_pos he, Option.some.injEq] at hf
    exact hf.symm
  obtain ⟨v1, v2, v3⟩ := C97_vertical_plane P h
  subst e
  refine C97_ansatz_origin _ _ phi (|(radialExp P 0).der| + 1) ?_ ?_ v3 v1 v2
  · simp only [asRadial, radialExp]
    exact (by fun_prop : Continuous fun r => P.surfaceDensity * exp (-r * (1 / P.scaleRadius))).continuousAt.continuousWithinAt
  · have hc : ContinuousAt (fun r => |(radialExp P r).der|) 0 := by
      simp only [radialExp]; fun_prop
    refine nhdsWithin_le_nhds ?_
    filter_upwards [hc.eventually (gt_mem_nhds (lt_add_one _))] with r hr
    exact hr.le

/-! ### examples -/

/-- a solar-neighbourhood-like disk with a hole and a wiggle -/
noncomputable def exDisk : DiskParam := ⟨5, 3, -1 / 4, 4, 1 / 10, 1⟩
theorem exDisk_ok : createRadial exDisk = some (radialRich exDisk) := by norm_num [createRadial, exDisk]
example : (radialRich exDisk 8).1 = surfDens exDisk 8 ∧ RadialOk (asRadial (radialRich exDisk)) 8 :=
  let h := C97_radial exDisk _ exDisk_ok 8 (by norm_num); ⟨h.1, h.2.2⟩
example : radialRich exDisk 0 = (0, some (0, 0)) := C97_radial_hole exDisk _ exDisk_ok (by norm_num [exDisk])
example : OkCyl (ansatz (asRadial (radialRich exDisk)) (createVertical exDisk)) ⟨8, 1, 2⟩ :=
  C97_disk exDisk _ exDisk_ok (by norm_num [exDisk]) _ (sqrt_pos.mpr (by norm_num)) (Or.inr (by norm_num [exDisk, abs_lt, abs_of_neg]))
example : OkCyl (ansatz (asRadial (radialRich exDisk)) (createVertical exDisk)) ⟨8, 0, 2⟩ :=
  C97_disk exDisk _ exDisk_ok (by norm_num [exDisk]) _ (sqrt_pos.mpr (by norm_num)) (Or.inl rfl)
example : |(createVertical exDisk (1 / 8000)).pot - exactH exDisk (1 / 8000)| ≤ 1 / 4 * (1 / 2000) ^ 6 / 2880 := by
  have := ((C97_vertical_value exDisk (1 / 8000)).2.1 (by norm_num [exDisk])).2 (by norm_num [exDisk, abs_of_neg])
  norm_num [exDisk, abs_of_neg] at this ⊢
  exact this
example : OkCyl (ansatz (asRadial fun R => ((radialExp ⟨1, 3, 1, 0, 0, 1⟩ R).pot, some ((radialExp ⟨1, 3, 1, 0, 0, 1⟩ R).der, (radialExp ⟨1, 3, 1, 0, 0, 1⟩ R).der2)))
    (createVertical ⟨1, 3, 1, 0, 0, 1⟩)) ⟨0, 0, 1⟩ :=
  C97_disk_origin ⟨1, 3, 1, 0, 0, 1⟩ _ (by norm_num [createRadial]) (by norm_num) (by norm_num) 1
example : OkCyl (ansatz (asRadial (radialRich ⟨1, 3, 0, 1, 0, 1⟩)) (createVertical ⟨1, 3, 0, 1, 0, 1⟩)) ⟨0, -1, 1⟩ :=
  C97_disk_thin _ _ (by norm_num [createRadial]) rfl _ (by norm_num)
example : ansatzDens (asRadial (radialRich exDisk)) (createVertical exDisk) ⟨8, 1, 0⟩ =
    ((ansatz (asRadial (radialRich exDisk)) (createVertical exDisk) ⟨8, 1, 0⟩).hess.dR2 + (ansatz (asRadial (radialRich exDisk)) (createVertical exDisk) ⟨8, 1, 0⟩).grad.dR / 8 +
      (ansatz (asRadial (radialRich exDisk)) (createVertical exDisk) ⟨8, 1, 0⟩).hess.dphi2 / 8 ^ 2 + (ansatz (asRadial (radialRich exDisk)) (createVertical exDisk) ⟨8, 1, 0⟩).hess.dz2) / (4 * π) :=
  C97_poisson _ _ ⟨8, 1, 0⟩ (by norm_num) (C97_vertical_plane exDisk (by norm_num [exDisk])).1

end Verif.Pot
