import Verif.Pot.Analytic
import Verif.Coord.AxiDeriv
import Mathlib.Analysis.SpecialFunctions.Artanh

/-! # C100: perfect ellipsoid

Model of the class PerfectEllipsoid, /repo/src/potential_perfect_ellipsoid.cpp:86-232, in exact real arithmetic (infinite coordinates and NaN are not modelled). -/

set_option linter.unusedSimpArgs false

namespace Verif.Pot

open Real Verif.Coord Verif.Coord.Axi Filter Topology

/-- parameters of the model; the constructor (potential_perfect_ellipsoid.h:74-76) performs no checks -/
structure PerfEll where (mass A B : ℝ)

/-- outputs of evalAxi -/
structure OutSpheroidal where (pot : ℝ) (grad : GradAxi) (hess : HessAxi)

namespace PerfEll

/-- intermediate quantities, potential_perfect_ellipsoid.cpp:89-108 -/
structure Aux where (psi M Fv Fu Phi : ℝ)

open Classical in
/-- potential_perfect_ellipsoid.cpp:89-108, as functions of rho, sinnu, cosnu -/
noncomputable def aux (P : PerfEll) (D2 rho sinnu cosnu : ℝ) : Aux :=
  let norm := -2 / π * P.mass
  let B := P.B
  let D := √|D2|
  let psi := if D2 ≥ 0 then √(rho ^ 2 + D2) else rho
  let M := if D2 ≥ 0 then 1 / (rho ^ 2 + D2 * sinnu ^ 2) else 1 / (rho ^ 2 - D2 * cosnu ^ 2)
  let Fv := if D2 ≥ 0 then -D * arctan (D / B * cosnu) else D * artanh (D / B * cosnu)
  let Fu := arctan (psi / B)
  { psi := psi, M := M, Fv := Fv, Fu := Fu, Phi := norm * M * (psi * Fu + cosnu * Fv) }

open Classical in
/-- potential_perfect_ellipsoid.cpp:108-143, as functions of rho, sinnu, cosnu -/
noncomputable def evalSC (P : PerfEll) (D2 rho sinnu cosnu : ℝ) : OutSpheroidal :=
  let norm := -2 / π * P.mass
  let B := P.B
  let a := P.aux D2 rho sinnu cosnu
  let dpsidrho := if D2 ≤ 0 then 1 else rho / a.psi
  let dcosnudnu := -sinnu
  let dFudpsi := B / (B ^ 2 + a.psi ^ 2)
  let dFvdcosnu := -B / (B ^ 2 + cosnu ^ 2 * D2)
  let dGrhodpsi := a.Fu + dFudpsi * a.psi
  let dGnudcosnu := a.Fv + dFvdcosnu * cosnu * D2
  let dGrho := dGrhodpsi * dpsidrho
  let dGnu := dGnudcosnu * dcosnudnu
  let dlnMdrho := -2 * a.M * rho
  let dlnMdnu := 2 * a.M * cosnu * D2 * dcosnudnu
  let d2psidrho2 := if D2 ≤ 0 then 0 else D2 / a.psi ^ 3
  let d2cosnudnu2 := -cosnu
  let d2Grho := dGrhodpsi * d2psidrho2 + 2 * B * (dFudpsi * dpsidrho) ^ 2
  let d2Gnu := dGnudcosnu * d2cosnudnu2 - 2 * B * (dFvdcosnu * dcosnudnu) ^ 2 * D2
  let d2Mdrho2_over_M := 2 * dlnMdrho ^ 2 - 2 * a.M
  let d2Mdnu2_over_M := 2 * dlnMdnu ^ 2 + 2 * a.M * D2 * (dcosnudnu ^ 2 + cosnu * d2cosnudnu2)
  let d2Mdrhodnu_over_M := 2 * dlnMdrho * dlnMdnu
  { pot := a.Phi
    grad := ⟨a.Phi * dlnMdrho + norm * a.M * dGrho, a.Phi * dlnMdnu + norm * a.M * dGnu, 0⟩
    hess :=
    { drho2 := a.Phi * d2Mdrho2_over_M + norm * a.M * (2 * dlnMdrho * dGrho + d2Grho)
      dnu2 := a.Phi * d2Mdnu2_over_M + norm * a.M * (2 * dlnMdnu * dGnu + d2Gnu)
      drhodnu := a.Phi * d2Mdrhodnu_over_M + norm * a.M * (dlnMdrho * dGnu + dlnMdnu * dGrho)
      dphi2 := 0, drhodphi := 0, dnudphi := 0 } }

/-- potential_perfect_ellipsoid.cpp:86-144; the derivatives of HessAxi over phi, left at their initial values, are taken to be zero -/
noncomputable def evalAxi (P : PerfEll) (D2 : ℝ) (pos : PosAxi) : OutSpheroidal :=
  P.evalSC D2 pos.rho (pos.cotnu.sin.getD 0) (pos.cotnu.cos.getD 0)

/-- coefficients of the expansion around focal points, potential_perfect_ellipsoid.cpp:169-187 -/
structure Foc where (K0 Kp Kpp Kqq Kppp Kpqq : ℝ)

open Classical in
/-- potential_perfect_ellipsoid.cpp:169-187 -/
noncomputable def foc (P : PerfEll) : Foc :=
  let D2 := P.A ^ 2 - P.B ^ 2
  let D := √|D2|
  let A := P.A
  let B := P.B
  let K0 := if D2 ≤ 0 then 1 / B else 0.5 * (arctan (D / B) / D + B / A ^ 2)
  let K1 := if D2 ≤ 0 then -1 / 3 * K0 / B ^ 2 else (-1 / 4 * K0 + 1 / 4 * B ^ 3 / (A ^ 2) ^ 2) / D2
  let K2 := if D2 ≤ 0 then -3 / 5 * K1 / B ^ 2 else (-3 / 6 * K1 - 1 / 6 * (B / A ^ 2) ^ 3) / D2
  let K3 := if D2 ≤ 0 then -5 / 7 * K2 / B ^ 2 else (-5 / 8 * K2 + 1 / 8 * (B / A ^ 2) ^ 3 / A ^ 2) / D2
  { K0 := K0
    Kp := 2 * K1 * D
    Kpp := 2 * K1 + 8 * K2 * D * D
    Kqq := 2 * K1 + 2 * K2 * D * D
    Kppp := 24 * K2 * D + 48 * K3 * D * D * D
    Kpqq := 8 * K2 * D + 8 * K3 * D * D * D }

open Classical in
/-- potential_perfect_ellipsoid.cpp:147-226, evalCyl -/
noncomputable def evalCyl (P : PerfEll) (pos : PosCyl) : OutCyl :=
  let D2 := P.A ^ 2 - P.B ^ 2
  let D := √|D2|
  let p := (if D2 ≤ 0 then pos.R else |pos.z|) - D
  let signp : ℝ := if D ≤ 0 ∨ pos.z ≥ 0 then 1 else -1
  let q := if D2 ≤ 0 then pos.z else pos.R
  let eps : ℝ := if D2 ≤ 0 then 1e-4 else 6e-4
  if p ^ 2 + q ^ 2 < (max P.A P.B * eps) ^ 2 then
    let k := P.foc
    let norm := -2 / π * P.mass
    let dp := norm * (k.Kp + k.Kpp * p + 0.5 * k.Kppp * p * p + 0.5 * k.Kpqq * q * q) * signp
    let dq := norm * (k.Kqq * q + k.Kpqq * p * q)
    let dp2 := norm * (k.Kpp + k.Kppp * p)
    let dq2 := norm * (k.Kqq + k.Kpqq * p)
    { pot := norm * (k.K0 + k.Kp * p + 0.5 * k.Kpp * p * p + 0.5 * k.Kqq * q * q + 1 / 6 * k.Kppp * p * p * p + 0.5 * k.Kpqq * p * q * q)
      grad := ⟨if D2 ≤ 0 then dp else dq, if D2 ≤ 0 then dq else dp, 0⟩
      hess :=
      { dR2 := if D2 ≤ 0 then dp2 else dq2
        dz2 := if D2 ≤ 0 then dq2 else dp2
        dRdz := norm * k.Kpqq * q * signp
        dphi2 := 0, dRdphi := 0, dzdphi := 0 } }
  else
    let evalPos := cylToAxi D2 pos
    let coordDeriv := derivCylAxi D2 pos
    let coordDeriv2 := deriv2CylAxi D2 pos
    let e := P.evalAxi D2 evalPos
    { pot := e.pot
      grad := toGradAxiCyl e.grad coordDeriv
      hess := toHessAxiCyl e.grad e.hess coordDeriv coordDeriv2 }

/-- potential_perfect_ellipsoid.cpp:228-232 -/
noncomputable def density (P : PerfEll) (pos : PosCyl) : ℝ :=
  1 / π / π * P.mass / (P.B * P.A ^ 2 * ((pos.R / P.A) ^ 2 + (pos.z / P.B) ^ 2 + 1) ^ 2)

/-! ## derivatives in the spheroidal coordinates -/

theorem hasDerivAt_artanh {x : ℝ} (hx : x ^ 2 < 1) : HasDerivAt artanh (1 / (1 - x ^ 2)) x := by
  have h1 : -1 < x := by nlinarith
  have h2 : x < 1 := by nlinarith
  have a : (0 : ℝ) < 1 + x := by linarith
  have b : (0 : ℝ) < 1 - x := by linarith
  have d : HasDerivAt (fun x : ℝ => 1 / 2 * log ((1 + x) / (1 - x))) (1 / (1 - x ^ 2)) x := by
    refine ((((((hasDerivAt_id x).const_add 1).div ((hasDerivAt_id x).const_sub 1) b.ne').log (by simp only [id, Pi.div_apply]; exact (div_pos a b).ne'))).const_mul (1 / 2)).congr_deriv ?_
    simp only [id, Pi.div_apply]
    have : (1 : ℝ) - x ^ 2 ≠ 0 := by nlinarith
    field_simp
    ring
  refine d.congr_of_eventuallyEq ?_
  filter_upwards [lt_mem_nhds h1, gt_mem_nhds h2] with y y1 y2
  exact artanh_eq_half_log ⟨y1.le, y2.le⟩

variable {P : PerfEll} {D2 : ℝ}

/-- condition on the parameters: D2 = A² - B², A, B > 0 -/
theorem B_pos_of {P : PerfEll} {c : ℝ} (hA : 0 < P.A) (hB : 0 < P.B) (hD : D2 = P.A ^ 2 - P.B ^ 2) (hc : c ^ 2 ≤ 1) : 0 < P.B ^ 2 + c ^ 2 * D2 := by
  rcases le_total 0 D2 with h | h
  · positivity
  · have : 0 < P.A ^ 2 := by positivity
    nlinarith

section curve

variable {rho nu : ℝ → ℝ} {rho' nu' t : ℝ}

theorem d_psi (hr : HasDerivAt rho rho' t) (h0 : 0 < rho t) :
    HasDerivAt (fun u => (P.aux D2 (rho u) (sin (nu u)) (cos (nu u))).psi) ((if D2 ≤ 0 then 1 else rho t / (P.aux D2 (rho t) (sin (nu t)) (cos (nu t))).psi) * rho') t ∧
      0 < (P.aux D2 (rho t) (sin (nu t)) (cos (nu t))).psi ∧ ((P.aux D2 (rho t) (sin (nu t)) (cos (nu t))).psi ^ 2 = if D2 ≤ 0 then rho t ^ 2 else rho t ^ 2 + D2) := by
  simp only [aux]
  rcases lt_trichotomy D2 0 with h | h | h
  · simp only [if_neg (not_le.mpr h : ¬ D2 ≥ 0), if_pos h.le]
    exact ⟨hr.congr_deriv (by ring), h0, trivial⟩
  · subst h
    simp only [ge_iff_le, le_refl, if_true, add_zero]
    refine ⟨(hr.congr_deriv (by ring)).congr_of_eventuallyEq ?_, by rw [sqrt_sq h0.le]; exact h0, by rw [sqrt_sq h0.le]⟩
    filter_upwards [hr.continuousAt.eventually (lt_mem_nhds h0)] with s hs
    exact sqrt_sq hs.le
  · simp only [if_pos (h.le : D2 ≥ 0), if_neg (not_le.mpr h)]
    have p : 0 < rho t ^ 2 + D2 := by positivity
    refine ⟨(((hr.pow 2).add_const D2).sqrt p.ne').congr_deriv ?_, sqrt_pos.mpr p, sq_sqrt p.le⟩
    have := sqrt_pos.mpr p
    simp only [Pi.pow_apply]
    field_simp
    push_cast
    ring

theorem d_M (hr : HasDerivAt rho rho' t) (hn : HasDerivAt nu nu' t) (h0 : 0 < rho t) :
    HasDerivAt (fun u => (P.aux D2 (rho u) (sin (nu u)) (cos (nu u))).M)
      (-2 * (P.aux D2 (rho t) (sin (nu t)) (cos (nu t))).M ^ 2 * (rho t * rho' + cos (nu t) * D2 * sin (nu t) * nu')) t := by
  simp only [aux]
  by_cases h : D2 ≥ 0
  · simp only [if_pos h]
    have p : 0 < rho t ^ 2 + D2 * sin (nu t) ^ 2 := by positivity
    refine ((hasDerivAt_const t (1 : ℝ)).div ((hr.pow 2).add ((hn.sin.pow 2).const_mul D2)) p.ne').congr_deriv ?_
    simp only [Pi.add_apply, Pi.pow_apply]
    field_simp
    push_cast
    ring
  · simp only [if_neg h]
    have h' : D2 < 0 := not_le.mp h
    have p : 0 < rho t ^ 2 - D2 * cos (nu t) ^ 2 := by nlinarith [sq_nonneg (cos (nu t)), sq_pos_of_pos h0]
    refine ((hasDerivAt_const t (1 : ℝ)).div ((hr.pow 2).sub ((hn.cos.pow 2).const_mul D2)) p.ne').congr_deriv ?_
    simp only [Pi.sub_apply, Pi.pow_apply]
    field_simp
    push_cast
    ring

theorem d_Fu (hB : 0 < P.B) {w : ℝ}
    (hw : HasDerivAt (fun u => (P.aux D2 (rho u) (sin (nu u)) (cos (nu u))).psi) w t) :
    HasDerivAt (fun u => (P.aux D2 (rho u) (sin (nu u)) (cos (nu u))).Fu) (P.B / (P.B ^ 2 + (P.aux D2 (rho t) (sin (nu t)) (cos (nu t))).psi ^ 2) * w) t := by
  have := (hw.div_const P.B).arctan
  refine this.congr_deriv ?_
  field_simp

theorem d_Fv (hA : 0 < P.A) (hB : 0 < P.B) (hD : D2 = P.A ^ 2 - P.B ^ 2) (hn : HasDerivAt nu nu' t) :
    HasDerivAt (fun u => (P.aux D2 (rho u) (sin (nu u)) (cos (nu u))).Fv) (-P.B / (P.B ^ 2 + cos (nu t) ^ 2 * D2) * D2 * (-sin (nu t) * nu')) t := by
  have bp := B_pos_of hA hB hD (cos_sq_le_one (nu t))
  simp only [aux]
  by_cases h : D2 ≥ 0
  · simp only [if_pos h]
    have e : √|D2| ^ 2 = D2 := by rw [sq_sqrt (abs_nonneg _), abs_of_nonneg h]
    refine (((hn.cos.const_mul (√|D2| / P.B)).arctan).const_mul (-√|D2|)).congr_deriv ?_
    generalize √|D2| = D at *
    subst e
    have : P.B ^ 2 + D ^ 2 * cos (nu t) ^ 2 ≠ 0 := by nlinarith
    have : P.B ^ 2 + cos (nu t) ^ 2 * D ^ 2 ≠ 0 := by nlinarith
    have h3 : 1 + (D / P.B * cos (nu t)) ^ 2 = (P.B ^ 2 + cos (nu t) ^ 2 * D ^ 2) / P.B ^ 2 := by field_simp
    rw [h3]
    field_simp
  · simp only [if_neg h]
    have e : √|D2| ^ 2 = -D2 := by rw [sq_sqrt (abs_nonneg _), abs_of_neg (not_le.mp h)]
    have lt : (√|D2| / P.B * cos (nu t)) ^ 2 < 1 := by
      rw [mul_pow, div_pow, e, div_mul_eq_mul_div, div_lt_one (by positivity)]
      linarith
    refine (((hasDerivAt_artanh lt).comp t (hn.cos.const_mul (√|D2| / P.B))).const_mul √|D2|).congr_deriv ?_
    generalize √|D2| = D at *
    have e' : D2 = -D ^ 2 := by linarith
    subst e'
    have h2 : P.B ^ 2 + cos (nu t) ^ 2 * -D ^ 2 ≠ 0 := bp.ne'
    have h3 : 1 - (D / P.B * cos (nu t)) ^ 2 = (P.B ^ 2 + cos (nu t) ^ 2 * -D ^ 2) / P.B ^ 2 := by field_simp; ring
    rw [h3]
    field_simp

end curve

/-- the outputs in terms of the angle nu -/
noncomputable def evalNu (P : PerfEll) (D2 : ℝ) (q : PosNu) : OutSpheroidal := P.evalSC D2 q.rho (sin q.nu) (cos q.nu)

/-- C100: derivatives in the spheroidal coordinates -/
theorem evalNu_ok (hA : 0 < P.A) (hB : 0 < P.B) (hD : D2 = P.A ^ 2 - P.B ^ 2) (q : PosNu) (h0 : 0 < q.rho) :
    IsGradNu (fun q => (P.evalNu D2 q).pot) q (P.evalNu D2 q).grad ∧ IsHessNu (fun q => (P.evalNu D2 q).grad) q (P.evalNu D2 q).hess := by
  have key : ∀ (rho nu : ℝ → ℝ) (rho' nu' t : ℝ), HasDerivAt rho rho' t → HasDerivAt nu nu' t → rho t = q.rho → nu t = q.nu →
      HasDerivAt (fun s => (P.evalSC D2 (rho s) (sin (nu s)) (cos (nu s))).pot) ((P.evalNu D2 q).grad.drho * rho' + (P.evalNu D2 q).grad.dnu * nu') t ∧
      HasDerivAt (fun s => (P.evalSC D2 (rho s) (sin (nu s)) (cos (nu s))).grad.drho) ((P.evalNu D2 q).hess.drho2 * rho' + (P.evalNu D2 q).hess.drhodnu * nu') t ∧
      HasDerivAt (fun s => (P.evalSC D2 (rho s) (sin (nu s)) (cos (nu s))).grad.dnu) ((P.evalNu D2 q).hess.drhodnu * rho' + (P.evalNu D2 q).hess.dnu2 * nu') t := by
    intro rho nu rho' nu' t hr hn er en
    have r0 : 0 < rho t := by rw [er]; exact h0
    obtain ⟨dpsi, psi0, psi2⟩ := d_psi (P := P) (D2 := D2) (nu := nu) hr r0
    have dM := d_M (P := P) (D2 := D2) hr hn r0
    have dFu := d_Fu hB dpsi
    have dFv := d_Fv (P := P) (D2 := D2) (rho := rho) hA hB hD hn
    have dc := hn.cos
    have ds := hn.sin
    have bp := B_pos_of hA hB hD (cos_sq_le_one (nu t))
    have sc := sin_sq_add_cos_sq (nu t)
    -- the factor dpsi/drho
    have ddp : HasDerivAt (fun u => if D2 ≤ 0 then (1 : ℝ) else rho u / (P.aux D2 (rho u) (sin (nu u)) (cos (nu u))).psi)
        ((if D2 ≤ 0 then 0 else D2 / (P.aux D2 (rho t) (sin (nu t)) (cos (nu t))).psi ^ 3) * rho') t := by
      by_cases h : D2 ≤ 0
      · simp only [if_pos h, zero_mul]; exact hasDerivAt_const _ _
      · simp only [if_neg h] at dpsi psi2 ⊢
        refine (hr.div dpsi psi0.ne').congr_deriv ?_
        generalize (P.aux D2 (rho t) (sin (nu t)) (cos (nu t))).psi = psi at *
        have : D2 = psi ^ 2 - rho t ^ 2 := by linarith
        rw [this]
        field_simp
    -- dG/dpsi and dG/dcosnu
    have dG1 : HasDerivAt (fun u => (P.aux D2 (rho u) (sin (nu u)) (cos (nu u))).Fu +
        P.B / (P.B ^ 2 + (P.aux D2 (rho u) (sin (nu u)) (cos (nu u))).psi ^ 2) * (P.aux D2 (rho u) (sin (nu u)) (cos (nu u))).psi)
        (2 * P.B * (P.B / (P.B ^ 2 + (P.aux D2 (rho t) (sin (nu t)) (cos (nu t))).psi ^ 2)) ^ 2 *
          ((if D2 ≤ 0 then 1 else rho t / (P.aux D2 (rho t) (sin (nu t)) (cos (nu t))).psi) * rho')) t := by
      have := (hasDerivAt_const t P.B).div ((dpsi.pow 2).const_add (P.B ^ 2)) (by simp only [Pi.pow_apply]; positivity)
      refine (dFu.add (this.mul dpsi)).congr_deriv ?_
      simp only [Pi.pow_apply, Pi.div_apply]
      generalize ((if D2 ≤ 0 then 1 else rho t / (P.aux D2 (rho t) (sin (nu t)) (cos (nu t))).psi) * rho') = w
      generalize (P.aux D2 (rho t) (sin (nu t)) (cos (nu t))).psi = psi at *
      field_simp
      push_cast
      ring
    have dG2 : HasDerivAt (fun u => (P.aux D2 (rho u) (sin (nu u)) (cos (nu u))).Fv +
        -P.B / (P.B ^ 2 + cos (nu u) ^ 2 * D2) * cos (nu u) * D2)
        (-2 * P.B * (-P.B / (P.B ^ 2 + cos (nu t) ^ 2 * D2)) ^ 2 * D2 * (-sin (nu t) * nu')) t := by
      have := (hasDerivAt_const t (-P.B)).div (((dc.pow 2).mul_const D2).const_add (P.B ^ 2)) bp.ne'
      refine (dFv.add ((this.mul dc).mul_const D2)).congr_deriv ?_
      simp only [Pi.pow_apply, Pi.div_apply]
      have h1 : P.B ^ 2 + D2 * cos (nu t) ^ 2 ≠ 0 := by rw [mul_comm D2]; exact bp.ne'
      have h2 := bp.ne'
      field_simp
      push_cast
      ring
    have dPhi : HasDerivAt (fun s => (P.aux D2 (rho s) (sin (nu s)) (cos (nu s))).Phi) ((P.evalNu D2 q).grad.drho * rho' + (P.evalNu D2 q).grad.dnu * nu') t := by
      have := (dM.const_mul (-2 / π * P.mass)).mul ((dpsi.mul dFu).add (dc.mul dFv))
      refine this.congr_deriv ?_
      simp only [evalNu, evalSC, ← er, ← en, Pi.add_apply, Pi.mul_apply]
      have hPhi : (P.aux D2 (rho t) (sin (nu t)) (cos (nu t))).Phi = -2 / π * P.mass * (P.aux D2 (rho t) (sin (nu t)) (cos (nu t))).M *
        ((P.aux D2 (rho t) (sin (nu t)) (cos (nu t))).psi * (P.aux D2 (rho t) (sin (nu t)) (cos (nu t))).Fu + cos (nu t) * (P.aux D2 (rho t) (sin (nu t)) (cos (nu t))).Fv) := rfl
      rw [hPhi]
      ring
    refine ⟨dPhi, ?_, ?_⟩
    · have := (dPhi.mul ((dM.const_mul (-2)).mul hr)).add ((dM.const_mul (-2 / π * P.mass)).mul (dG1.mul ddp))
      refine this.congr_deriv ?_
      simp only [evalNu, evalSC, ← er, ← en, Pi.add_apply, Pi.mul_apply]
      ring
    · have := (dPhi.mul ((((dM.const_mul 2).mul dc).mul_const D2).mul ds.neg)).add ((dM.const_mul (-2 / π * P.mass)).mul (dG2.mul ds.neg))
      refine this.congr_deriv ?_
      simp only [evalNu, evalSC, ← er, ← en, Pi.add_apply, Pi.mul_apply, Pi.neg_apply]
      ring
  refine ⟨?_, ?_, ?_, ?_⟩
  all_goals
    intro rho nu phi rho' nu' phi' t h1 h2 h3 e
    rw [PosNu.mk.injEq] at e
    obtain ⟨e1, e2, e3⟩ := e
    obtain ⟨k1, k2, k3⟩ := key rho nu rho' nu' t h1 h2 e1 e2
  · exact k1.congr_deriv (by simp only [evalNu, evalSC]; ring)
  · exact k2.congr_deriv (by simp only [evalNu, evalSC]; ring)
  · exact k3.congr_deriv (by simp only [evalNu, evalSC]; ring)
  · simp only [evalNu, evalSC]
    simpa using hasDerivAt_const t (0 : ℝ)

end PerfEll
end Verif.Pot
