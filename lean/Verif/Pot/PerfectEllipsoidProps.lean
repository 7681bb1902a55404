import Verif.Pot.PerfectEllipsoid

set_option linter.unusedSimpArgs false

/-! # C100: perfect ellipsoid in cylindrical coordinates -/

namespace Verif.Pot

open Real Verif.Coord Verif.Coord.Axi Filter Topology

namespace PerfEll

variable {P : PerfEll} {D2 : ℝ}

theorem evalAxi_toNu (q : PosAxi) (hq : q.cotnu ≠ .nan) : P.evalAxi D2 q = P.evalNu D2 q.toNu := by
  obtain ⟨rho, c, phi⟩ := q
  cases c with
  | fin x =>
    simp only [evalAxi, evalNu, PosAxi.toNu, Cot.angle, Cot.sin, Cot.cos, Option.getD_some]
    rw [sin_pi_div_two_sub, cos_pi_div_two_sub, cos_arctan, sin_arctan, mul_one_div]
  | posInf => simp [evalAxi, evalNu, PosAxi.toNu, Cot.angle, Cot.sin, Cot.cos]
  | negInf => simp [evalAxi, evalNu, PosAxi.toNu, Cot.angle, Cot.sin, Cot.cos]
  | nan => exact absurd rfl hq

/-- off the symmetry axis the cotangent is finite -/
theorem cot_fin (D2 : ℝ) (p : PosCyl) (hR : 0 < p.R) : ∃ x, (cylToAxi D2 p).cotnu = .fin x ∧ (cylToAxi D2 p).cotnu.sin = some (getPosAxi D2 p).sinnu ∧
    (cylToAxi D2 p).cotnu.cos = some (getPosAxi D2 p).cosnu := by
  obtain ⟨e1, e2, e3, e4, hc, hp, hs, -⟩ := getPosAxi_spec D2 p hR.le (fun _ h => hR.ne' h.1)
  have hs' : 0 < (getPosAxi D2 p).sinnu := lt_of_le_of_ne hs (by rintro h; rw [← h, mul_zero] at e1; exact hR.ne' e1)
  refine ⟨(getPosAxi D2 p).cosnu / (getPosAxi D2 p).sinnu, ?_, Cot.div_sin_cos hs e3⟩
  simp only [cylToAxi, Cot.div]
  rw [if_pos hs'.ne']

/-- squared distance to the focal point or focal ring, potential_perfect_ellipsoid.cpp:150-154, 161 -/
noncomputable def focDist2 (P : PerfEll) (pos : PosCyl) : ℝ :=
  if P.A ^ 2 - P.B ^ 2 ≤ 0 then (pos.R - √|P.A ^ 2 - P.B ^ 2|) ^ 2 + pos.z ^ 2 else (|pos.z| - √|P.A ^ 2 - P.B ^ 2|) ^ 2 + pos.R ^ 2
/-- size of the region around focal points, potential_perfect_ellipsoid.cpp:160-161 -/
noncomputable def focRad2 (P : PerfEll) : ℝ := if P.A ^ 2 - P.B ^ 2 ≤ 0 then (max P.A P.B * 1e-4) ^ 2 else (max P.A P.B * 6e-4) ^ 2

theorem cond_iff (pos : PosCyl) :
    (((if P.A ^ 2 - P.B ^ 2 ≤ 0 then pos.R else |pos.z|) - √|P.A ^ 2 - P.B ^ 2|) ^ 2 + (if P.A ^ 2 - P.B ^ 2 ≤ 0 then pos.z else pos.R) ^ 2 <
      (max P.A P.B * (if P.A ^ 2 - P.B ^ 2 ≤ 0 then 1e-4 else 6e-4)) ^ 2) ↔ P.focDist2 pos < P.focRad2 := by
  rw [focDist2, focRad2]
  split_ifs <;> rfl

theorem focDist2_cont {R z phi : ℝ → ℝ} {t : ℝ} (hR : ContinuousAt R t) (hz : ContinuousAt z t) : ContinuousAt (fun s => P.focDist2 ⟨R s, z s, phi s⟩) t := by
  unfold focDist2
  by_cases h : P.A ^ 2 - P.B ^ 2 ≤ 0
  · simp only [if_pos h]
    exact ((hR.sub continuousAt_const).pow 2).add (hz.pow 2)
  · simp only [if_neg h]
    exact ((hz.abs.sub continuousAt_const).pow 2).add (hR.pow 2)

theorem evalCyl_generic (pos : PosCyl) (h : ¬ P.focDist2 pos < P.focRad2) : P.evalCyl pos =
    { pot := (P.evalAxi (P.A ^ 2 - P.B ^ 2) (cylToAxi (P.A ^ 2 - P.B ^ 2) pos)).pot
      grad := toGradAxiCyl (P.evalAxi (P.A ^ 2 - P.B ^ 2) (cylToAxi (P.A ^ 2 - P.B ^ 2) pos)).grad (derivCylAxi (P.A ^ 2 - P.B ^ 2) pos)
      hess := toHessAxiCyl (P.evalAxi (P.A ^ 2 - P.B ^ 2) (cylToAxi (P.A ^ 2 - P.B ^ 2) pos)).grad (P.evalAxi (P.A ^ 2 - P.B ^ 2) (cylToAxi (P.A ^ 2 - P.B ^ 2) pos)).hess
        (derivCylAxi (P.A ^ 2 - P.B ^ 2) pos) (deriv2CylAxi (P.A ^ 2 - P.B ^ 2) pos) } := by
  have := mt (cond_iff pos).mp h
  rw [evalCyl]
  simp only
  rw [if_neg]
  simpa only [ge_iff_le] using this

/-- perfect ellipsoid, at all points off the symmetry axis and off the focal disk, outside the small regions around focal points -/
theorem okCyl_generic (hA : 0 < P.A) (hB : 0 < P.B) (p : PosCyl) (hR : 0 < p.R) (hrho : (cylToAxi (P.A ^ 2 - P.B ^ 2) p).rho ≠ 0) (hf : P.focRad2 < P.focDist2 p) :
    OkCyl P.evalCyl p := by
  set D2 := P.A ^ 2 - P.B ^ 2 with hD
  obtain ⟨hc, hp, hs⟩ := loc_pos D2 p hR hrho
  have rho0 : 0 < (cylToAxi D2 p).toNu.rho := by
    simp only [PosAxi.toNu, cylToAxi]
    split_ifs
    · exact hc
    · exact hp
  obtain ⟨g, h⟩ := evalNu_ok hA hB hD (cylToAxi D2 p).toNu rho0
  have G := C59_grad_axi_cyl D2 _ p _ hR hrho g
  have H := C59_hess_axi_cyl D2 _ p _ hR hrho h
  have ev : ∀ q : PosCyl, 0 < q.R → P.focRad2 < P.focDist2 q → P.evalCyl q =
      { pot := (P.evalNu D2 (cylToAxi D2 q).toNu).pot, grad := toGradAxiCyl (P.evalNu D2 (cylToAxi D2 q).toNu).grad (derivCylAxi D2 q),
        hess := toHessAxiCyl (P.evalNu D2 (cylToAxi D2 q).toNu).grad (P.evalNu D2 (cylToAxi D2 q).toNu).hess (derivCylAxi D2 q) (deriv2CylAxi D2 q) } := by
    intro q hq hf
    obtain ⟨x, hx, -⟩ := cot_fin D2 q hq
    rw [evalCyl_generic q (not_lt.mpr hf.le), evalAxi_toNu _ (by rw [hx]; exact nofun)]
  have loc : ∀ (R z phi : ℝ → ℝ) (t : ℝ), ContinuousAt R t → ContinuousAt z t → (⟨R t, z t, phi t⟩ : PosCyl) = p →
      ∀ᶠ s in 𝓝 t, 0 < R s ∧ P.focRad2 < P.focDist2 ⟨R s, z s, phi s⟩ := by
    intro R z phi t h1 h2 e
    subst e
    exact (h1.eventually (lt_mem_nhds hR)).and ((focDist2_cont h1 h2).eventually (lt_mem_nhds hf))
  rw [OkCyl, ev p hR hf]
  refine ⟨?_, ?_, ?_, ?_⟩
  · intro R z phi R' z' phi' t h1 h2 h3 e
    refine (G R z phi R' z' phi' t h1 h2 h3 e).congr_of_eventuallyEq ?_
    filter_upwards [loc R z phi t h1.continuousAt h2.continuousAt e] with s hs
    rw [ev ⟨R s, z s, phi s⟩ hs.1 hs.2]
  · intro R z phi R' z' phi' t h1 h2 h3 e
    refine (H.1 R z phi R' z' phi' t h1 h2 h3 e).congr_of_eventuallyEq ?_
    filter_upwards [loc R z phi t h1.continuousAt h2.continuousAt e] with s hs
    simp only [ev ⟨R s, z s, phi s⟩ hs.1 hs.2]
  · intro R z phi R' z' phi' t h1 h2 h3 e
    refine (H.2.1 R z phi R' z' phi' t h1 h2 h3 e).congr_of_eventuallyEq ?_
    filter_upwards [loc R z phi t h1.continuousAt h2.continuousAt e] with s hs
    simp only [ev ⟨R s, z s, phi s⟩ hs.1 hs.2]
  · intro R z phi R' z' phi' t h1 h2 h3 e
    refine (H.2.2 R z phi R' z' phi' t h1 h2 h3 e).congr_of_eventuallyEq ?_
    filter_upwards [loc R z phi t h1.continuousAt h2.continuousAt e] with s hs
    simp only [ev ⟨R s, z s, phi s⟩ hs.1 hs.2]

/-! ## expansion around focal points -/

/-- the third-order expansion is differentiated correctly -/
theorem foc_curve (k : Foc) (norm : ℝ) {p q : ℝ → ℝ} {p' q' t : ℝ} (hp : HasDerivAt p p' t) (hq : HasDerivAt q q' t) :
    HasDerivAt (fun s => norm * (k.K0 + k.Kp * p s + 0.5 * k.Kpp * p s * p s + 0.5 * k.Kqq * q s * q s + 1 / 6 * k.Kppp * p s * p s * p s + 0.5 * k.Kpqq * p s * q s * q s))
      (norm * (k.Kp + k.Kpp * p t + 0.5 * k.Kppp * p t * p t + 0.5 * k.Kpqq * q t * q t) * p' + norm * (k.Kqq * q t + k.Kpqq * p t * q t) * q') t ∧
    HasDerivAt (fun s => norm * (k.Kp + k.Kpp * p s + 0.5 * k.Kppp * p s * p s + 0.5 * k.Kpqq * q s * q s)) (norm * (k.Kpp + k.Kppp * p t) * p' + norm * k.Kpqq * q t * q') t ∧
    HasDerivAt (fun s => norm * (k.Kqq * q s + k.Kpqq * p s * q s)) (norm * k.Kpqq * q t * p' + norm * (k.Kqq + k.Kpqq * p t) * q') t := by
  refine ⟨?_, ?_, ?_⟩
  · refine (((((((hp.const_mul k.Kp).const_add k.K0).add ((hp.const_mul (0.5 * k.Kpp)).mul hp)).add ((hq.const_mul (0.5 * k.Kqq)).mul hq)).add
      (((hp.const_mul (1 / 6 * k.Kppp)).mul hp).mul hp)).add (((hp.const_mul (0.5 * k.Kpqq)).mul hq).mul hq)).const_mul norm).congr_deriv ?_
    simp only [Pi.mul_apply]
    ring
  · refine (((((hp.const_mul k.Kpp).const_add k.Kp).add ((hp.const_mul (0.5 * k.Kppp)).mul hp)).add ((hq.const_mul (0.5 * k.Kpqq)).mul hq)).const_mul norm).congr_deriv ?_
    ring
  · refine (((hq.const_mul k.Kqq).add ((hp.const_mul k.Kpqq).mul hq)).const_mul norm).congr_deriv ?_
    ring

theorem evalCyl_focal (pos : PosCyl) (h : P.focDist2 pos < P.focRad2) : P.evalCyl pos =
    (let D2 := P.A ^ 2 - P.B ^ 2
     let D := √|D2|
     let p := (if D2 ≤ 0 then pos.R else |pos.z|) - D
     let signp : ℝ := if D ≤ 0 ∨ pos.z ≥ 0 then 1 else -1
     let q := if D2 ≤ 0 then pos.z else pos.R
     let k := P.foc
     let norm := -2 / π * P.mass
     let dp := norm * (k.Kp + k.Kpp * p + 0.5 * k.Kppp * p * p + 0.5 * k.Kpqq * q * q) * signp
     let dq := norm * (k.Kqq * q + k.Kpqq * p * q)
     let dp2 := norm * (k.Kpp + k.Kppp * p)
     let dq2 := norm * (k.Kqq + k.Kpqq * p)
     { pot := norm * (k.K0 + k.Kp * p + 0.5 * k.Kpp * p * p + 0.5 * k.Kqq * q * q + 1 / 6 * k.Kppp * p * p * p + 0.5 * k.Kpqq * p * q * q)
       grad := ⟨if D2 ≤ 0 then dp else dq, if D2 ≤ 0 then dq else dp, 0⟩
       hess :=
       { dR2 := if D2 ≤ 0 then dp2 else dq2
         dz2 := if D2 ≤ 0 then dq2 else dp2
         dRdz := norm * k.Kpqq * q * signp
         dphi2 := 0, dRdphi := 0, dzdphi := 0 } }) := by
  have := (cond_iff pos).mpr h
  rw [evalCyl]
  simp only
  rw [if_pos this]

/-- C100: oblate model (A > B), in the regions around the focal points on the z axis -/
theorem C100_perfect_ellipsoid_focal_oblate (hAB : P.B < P.A) (hB : 0 < P.B) (p : PosCyl) (hz : p.z ≠ 0) (hf : P.focDist2 p < P.focRad2) : OkCyl P.evalCyl p := by
  have d : ¬ P.A ^ 2 - P.B ^ 2 ≤ 0 := by nlinarith
  have D0 : ¬ √|P.A ^ 2 - P.B ^ 2| ≤ 0 := not_le.mpr (sqrt_pos.mpr (abs_pos.mpr (by linarith)))
  have loc : ∀ (R z phi : ℝ → ℝ) (z' t : ℝ), ContinuousAt R t → HasDerivAt z z' t → (⟨R t, z t, phi t⟩ : PosCyl) = p →
      ∃ sg : ℝ, sg = (if z t ≥ 0 then 1 else -1) ∧ sg * sg = 1 ∧ HasDerivAt (fun s => |z s| - √|P.A ^ 2 - P.B ^ 2|) (sg * z') t ∧
      ∀ᶠ s in 𝓝 t, P.focDist2 ⟨R s, z s, phi s⟩ < P.focRad2 ∧ (if z s ≥ 0 then (1 : ℝ) else -1) = sg := by
    intro R z phi z' t h1 h2 e
    subst e
    have ev := (focDist2_cont (P := P) (phi := phi) h1 h2.continuousAt).eventually (gt_mem_nhds hf)
    rcases lt_or_gt_of_ne (show z t ≠ 0 from hz) with n | n
    · refine ⟨-1, by rw [if_neg (not_le.mpr n)], by norm_num, ?_, ?_⟩
      · have : HasDerivAt (fun s => -z s - √|P.A ^ 2 - P.B ^ 2|) (-1 * z') t := (h2.neg.sub_const _).congr_deriv (by ring)
        refine this.congr_of_eventuallyEq ?_
        filter_upwards [h2.continuousAt.eventually (gt_mem_nhds n)] with s hs
        rw [abs_of_neg hs]
      · filter_upwards [ev, h2.continuousAt.eventually (gt_mem_nhds n)] with s hs hs'
        exact ⟨hs, by rw [if_neg (not_le.mpr hs')]⟩
    · refine ⟨1, by rw [if_pos n.le], by norm_num, ?_, ?_⟩
      · have : HasDerivAt (fun s => z s - √|P.A ^ 2 - P.B ^ 2|) (1 * z') t := (h2.sub_const _).congr_deriv (by ring)
        refine this.congr_of_eventuallyEq ?_
        filter_upwards [h2.continuousAt.eventually (lt_mem_nhds n)] with s hs
        rw [abs_of_pos hs]
      · filter_upwards [ev, h2.continuousAt.eventually (lt_mem_nhds n)] with s hs hs'
        exact ⟨hs, by rw [if_pos hs'.le]⟩
  have ev0 : ∀ q : PosCyl, P.focDist2 q < P.focRad2 → ∀ sg : ℝ, (if q.z ≥ 0 then (1 : ℝ) else -1) = sg → P.evalCyl q =
      { pot := -2 / π * P.mass * (P.foc.K0 + P.foc.Kp * (|q.z| - √|P.A ^ 2 - P.B ^ 2|) + 0.5 * P.foc.Kpp * (|q.z| - √|P.A ^ 2 - P.B ^ 2|) * (|q.z| - √|P.A ^ 2 - P.B ^ 2|) + 0.5 * P.foc.Kqq * q.R * q.R
          + 1 / 6 * P.foc.Kppp * (|q.z| - √|P.A ^ 2 - P.B ^ 2|) * (|q.z| - √|P.A ^ 2 - P.B ^ 2|) * (|q.z| - √|P.A ^ 2 - P.B ^ 2|) + 0.5 * P.foc.Kpqq * (|q.z| - √|P.A ^ 2 - P.B ^ 2|) * q.R * q.R)
        grad := ⟨-2 / π * P.mass * (P.foc.Kqq * q.R + P.foc.Kpqq * (|q.z| - √|P.A ^ 2 - P.B ^ 2|) * q.R),
          -2 / π * P.mass * (P.foc.Kp + P.foc.Kpp * (|q.z| - √|P.A ^ 2 - P.B ^ 2|) + 0.5 * P.foc.Kppp * (|q.z| - √|P.A ^ 2 - P.B ^ 2|) * (|q.z| - √|P.A ^ 2 - P.B ^ 2|) + 0.5 * P.foc.Kpqq * q.R * q.R) * sg, 0⟩
        hess :=
        { dR2 := -2 / π * P.mass * (P.foc.Kqq + P.foc.Kpqq * (|q.z| - √|P.A ^ 2 - P.B ^ 2|)), dz2 := -2 / π * P.mass * (P.foc.Kpp + P.foc.Kppp * (|q.z| - √|P.A ^ 2 - P.B ^ 2|))
          dRdz := -2 / π * P.mass * P.foc.Kpqq * q.R * sg, dphi2 := 0, dRdphi := 0, dzdphi := 0 } } := by
    intro q hq sg e
    rw [evalCyl_focal q hq]
    simp only [if_neg d, D0, false_or, e]
  refine ⟨?_, ?_, ?_, ?_⟩
  · intro R z phi R' z' phi' t h1 h2 h3 e
    obtain ⟨sg, es, s1, dp, ev⟩ := loc R z phi z' t h1.continuousAt h2 e
    subst e
    rw [ev0 _ hf sg es.symm]
    refine ((foc_curve P.foc (-2 / π * P.mass) dp h1).1.congr_deriv ?_).congr_of_eventuallyEq ?_
    · ring
    · filter_upwards [ev] with s hs
      rw [ev0 ⟨R s, z s, phi s⟩ hs.1 sg hs.2]
  · intro R z phi R' z' phi' t h1 h2 h3 e
    obtain ⟨sg, es, s1, dp, ev⟩ := loc R z phi z' t h1.continuousAt h2 e
    subst e
    rw [ev0 _ hf sg es.symm]
    refine ((foc_curve P.foc (-2 / π * P.mass) dp h1).2.2.congr_deriv ?_).congr_of_eventuallyEq ?_
    · ring
    · filter_upwards [ev] with s hs
      simp only [ev0 ⟨R s, z s, phi s⟩ hs.1 sg hs.2]
  · intro R z phi R' z' phi' t h1 h2 h3 e
    obtain ⟨sg, es, s1, dp, ev⟩ := loc R z phi z' t h1.continuousAt h2 e
    subst e
    rw [ev0 _ hf sg es.symm]
    refine (((foc_curve P.foc (-2 / π * P.mass) dp h1).2.1.mul_const sg).congr_deriv ?_).congr_of_eventuallyEq ?_
    · linear_combination (-2 / π * P.mass * (P.foc.Kpp + P.foc.Kppp * (|z t| - √|P.A ^ 2 - P.B ^ 2|))) * z' * s1
    · filter_upwards [ev] with s hs
      simp only [ev0 ⟨R s, z s, phi s⟩ hs.1 sg hs.2]
  · intro R z phi R' z' phi' t h1 h2 h3 e
    obtain ⟨sg, es, s1, dp, ev⟩ := loc R z phi z' t h1.continuousAt h2 e
    subst e
    rw [ev0 _ hf sg es.symm]
    refine ((hasDerivAt_const t (0 : ℝ)).congr_deriv ?_).congr_of_eventuallyEq ?_
    · ring
    · filter_upwards [ev] with s hs
      simp only [ev0 ⟨R s, z s, phi s⟩ hs.1 sg hs.2]

/-- C100: prolate or spherical model (A ≤ B): the same around the focal ring, if z > 0 (or A = B) -/
theorem C100_perfect_ellipsoid_focal_prolate (hAB : P.A ≤ P.B) (hA : 0 < P.A) (p : PosCyl) (hz : 0 < p.z ∨ P.A = P.B) (hf : P.focDist2 p < P.focRad2) : OkCyl P.evalCyl p := by
  have d : P.A ^ 2 - P.B ^ 2 ≤ 0 := by nlinarith
  have loc : ∀ (R z phi : ℝ → ℝ) (t : ℝ), ContinuousAt R t → ContinuousAt z t → (⟨R t, z t, phi t⟩ : PosCyl) = p →
      ∀ᶠ s in 𝓝 t, P.focDist2 ⟨R s, z s, phi s⟩ < P.focRad2 ∧ (√|P.A ^ 2 - P.B ^ 2| ≤ 0 ∨ z s ≥ 0) := by
    intro R z phi t h1 h2 e
    subst e
    have ev := (focDist2_cont (P := P) (phi := phi) h1 h2).eventually (gt_mem_nhds hf)
    rcases hz with n | n
    · filter_upwards [ev, h2.eventually (lt_mem_nhds n)] with s hs hs'
      exact ⟨hs, Or.inr hs'.le⟩
    · filter_upwards [ev] with s hs
      exact ⟨hs, Or.inl (by rw [n]; simp)⟩
  have ev0 : ∀ q : PosCyl, P.focDist2 q < P.focRad2 → (√|P.A ^ 2 - P.B ^ 2| ≤ 0 ∨ q.z ≥ 0) → P.evalCyl q =
      { pot := -2 / π * P.mass * (P.foc.K0 + P.foc.Kp * (q.R - √|P.A ^ 2 - P.B ^ 2|) + 0.5 * P.foc.Kpp * (q.R - √|P.A ^ 2 - P.B ^ 2|) * (q.R - √|P.A ^ 2 - P.B ^ 2|) + 0.5 * P.foc.Kqq * q.z * q.z
          + 1 / 6 * P.foc.Kppp * (q.R - √|P.A ^ 2 - P.B ^ 2|) * (q.R - √|P.A ^ 2 - P.B ^ 2|) * (q.R - √|P.A ^ 2 - P.B ^ 2|) + 0.5 * P.foc.Kpqq * (q.R - √|P.A ^ 2 - P.B ^ 2|) * q.z * q.z)
        grad := ⟨-2 / π * P.mass * (P.foc.Kp + P.foc.Kpp * (q.R - √|P.A ^ 2 - P.B ^ 2|) + 0.5 * P.foc.Kppp * (q.R - √|P.A ^ 2 - P.B ^ 2|) * (q.R - √|P.A ^ 2 - P.B ^ 2|) + 0.5 * P.foc.Kpqq * q.z * q.z),
          -2 / π * P.mass * (P.foc.Kqq * q.z + P.foc.Kpqq * (q.R - √|P.A ^ 2 - P.B ^ 2|) * q.z), 0⟩
        hess :=
        { dR2 := -2 / π * P.mass * (P.foc.Kpp + P.foc.Kppp * (q.R - √|P.A ^ 2 - P.B ^ 2|)), dz2 := -2 / π * P.mass * (P.foc.Kqq + P.foc.Kpqq * (q.R - √|P.A ^ 2 - P.B ^ 2|))
          dRdz := -2 / π * P.mass * P.foc.Kpqq * q.z, dphi2 := 0, dRdphi := 0, dzdphi := 0 } } := by
    intro q hq e
    rw [evalCyl_focal q hq]
    simp only [if_pos d, if_pos e, mul_one]
  have self : √|P.A ^ 2 - P.B ^ 2| ≤ 0 ∨ p.z ≥ 0 := by
    rcases hz with n | n
    · exact Or.inr n.le
    · exact Or.inl (by rw [n]; simp)
  have dp : ∀ (R : ℝ → ℝ) (R' t : ℝ), HasDerivAt R R' t → HasDerivAt (fun s => R s - √|P.A ^ 2 - P.B ^ 2|) R' t := fun R R' t h => h.sub_const _
  rw [OkCyl, ev0 p hf self]
  refine ⟨?_, ?_, ?_, ?_⟩
  · intro R z phi R' z' phi' t h1 h2 h3 e
    have ev := loc R z phi t h1.continuousAt h2.continuousAt e
    subst e
    refine ((foc_curve P.foc (-2 / π * P.mass) (dp R R' t h1) h2).1.congr_deriv (by ring)).congr_of_eventuallyEq ?_
    filter_upwards [ev] with s hs
    rw [ev0 ⟨R s, z s, phi s⟩ hs.1 hs.2]
  · intro R z phi R' z' phi' t h1 h2 h3 e
    have ev := loc R z phi t h1.continuousAt h2.continuousAt e
    subst e
    refine ((foc_curve P.foc (-2 / π * P.mass) (dp R R' t h1) h2).2.1.congr_deriv (by ring)).congr_of_eventuallyEq ?_
    filter_upwards [ev] with s hs
    simp only [ev0 ⟨R s, z s, phi s⟩ hs.1 hs.2]
  · intro R z phi R' z' phi' t h1 h2 h3 e
    have ev := loc R z phi t h1.continuousAt h2.continuousAt e
    subst e
    refine ((foc_curve P.foc (-2 / π * P.mass) (dp R R' t h1) h2).2.2.congr_deriv (by ring)).congr_of_eventuallyEq ?_
    filter_upwards [ev] with s hs
    simp only [ev0 ⟨R s, z s, phi s⟩ hs.1 hs.2]
  · intro R z phi R' z' phi' t h1 h2 h3 e
    have ev := loc R z phi t h1.continuousAt h2.continuousAt e
    subst e
    refine ((hasDerivAt_const t (0 : ℝ)).congr_deriv (by ring)).congr_of_eventuallyEq ?_
    filter_upwards [ev] with s hs
    simp only [ev0 ⟨R s, z s, phi s⟩ hs.1 hs.2]

/-- C100: refutation: in a prolate model, at a point below the equatorial plane in the vicinity of the focal ring the reported gradient is not the derivative of the reported potential: the sign of the radial component is flipped,
because the condition at potential_perfect_ellipsoid.cpp:155 tests D instead of D2 -/
theorem C100_perfect_ellipsoid_sign : let P : PerfEll := ⟨1, 3, 5⟩
    P.focDist2 ⟨4, -1e-4, 0⟩ < P.focRad2 ∧ ¬ IsGradCyl (fun q => (P.evalCyl q).pot) ⟨4, -1e-4, 0⟩ (P.evalCyl ⟨4, -1e-4, 0⟩).grad ∧
    (P.evalCyl ⟨4, -1e-4, 0⟩).grad.dR = -(P.evalCyl ⟨4, 1e-4, 0⟩).grad.dR ∧ (P.evalCyl ⟨4, 1e-4, 0⟩).grad.dR ≠ 0 := by
  intro P
  have hD : √|P.A ^ 2 - P.B ^ 2| = 4 := by
    have : |P.A ^ 2 - P.B ^ 2| = 4 ^ 2 := by simp only [P]; norm_num
    rw [this, sqrt_sq (by norm_num)]
  have d : P.A ^ 2 - P.B ^ 2 ≤ 0 := by simp only [P]; norm_num
  have mx : max P.A P.B = 5 := by simp only [P]; norm_num
  have f : ∀ (R z : ℝ), (R - 4) ^ 2 + z ^ 2 < 1e-7 → P.focDist2 ⟨R, z, 0⟩ < P.focRad2 := by
    intro R z h
    rw [focDist2, focRad2, if_pos d, if_pos d, hD, mx]
    simp only
    refine h.trans_le ?_
    norm_num
  have kpos : ∀ q2 : ℝ, 0 ≤ q2 → q2 ≤ 1 → P.foc.Kp + 0.5 * P.foc.Kpqq * q2 < 0 := by
    intro q2 h0 h1
    simp only [foc, if_pos d, hD]
    simp only [P]
    norm_num
    nlinarith
  have npos : -2 / π * P.mass < 0 := by
    simp only [P]
    have := pi_pos
    rw [mul_one]
    exact div_neg_of_neg_of_pos (by norm_num) this
  have gm : (P.evalCyl ⟨4, -1e-4, 0⟩).grad.dR = -(-2 / π * P.mass * (P.foc.Kp + 0.5 * P.foc.Kpqq * 1e-8)) := by
    rw [evalCyl_focal _ (f 4 (-1e-4) (by norm_num))]
    simp only [if_pos d, hD]
    rw [if_neg (by norm_num)]
    norm_num
    ring
  have gp : (P.evalCyl ⟨4, 1e-4, 0⟩).grad.dR = -2 / π * P.mass * (P.foc.Kp + 0.5 * P.foc.Kpqq * 1e-8) := by
    rw [evalCyl_focal _ (f 4 1e-4 (by norm_num))]
    simp only [if_pos d, hD]
    rw [if_pos (by norm_num)]
    norm_num
    ring
  have pos : 0 < -2 / π * P.mass * (P.foc.Kp + 0.5 * P.foc.Kpqq * 1e-8) := mul_pos_of_neg_of_neg npos (kpos 1e-8 (by norm_num) (by norm_num))
  refine ⟨f _ _ (by norm_num), ?_, by rw [gm, gp], by rw [gp]; exact pos.ne'⟩
  intro h
  have h1 := h (fun s => s) (fun _ => -1e-4) (fun _ => 0) 1 0 0 4 (hasDerivAt_id 4) (hasDerivAt_const _ _) (hasDerivAt_const _ _) rfl
  have h2 := (foc_curve P.foc (-2 / π * P.mass) ((hasDerivAt_id (4 : ℝ)).sub_const 4) (hasDerivAt_const (4 : ℝ) (-1e-4 : ℝ))).1
  have h3 := h1.unique (h2.congr_of_eventuallyEq (by
    filter_upwards [gt_mem_nhds (show (4 : ℝ) < 4.0001 by norm_num), lt_mem_nhds (show (3.9999 : ℝ) < 4 by norm_num)] with s s1 s2
    rw [evalCyl_focal ⟨s, -1e-4, 0⟩ (f s (-1e-4) (by nlinarith))]
    simp only [if_pos d, hD, id]))
  rw [gm] at h3
  simp only [id] at h3
  norm_num at h3 pos
  linarith

end PerfEll
end Verif.Pot
