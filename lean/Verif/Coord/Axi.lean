import Verif.Coord.DerivSpec

/-!
# C59: universal axisymmetric spheroidal coordinates

Models `/repo/src/coord.cpp:27-29, 38-42, 341-450, 534-603, 679-695, 877-919`.  Number model (E), except that the cotangent of the
angle ν, which the code deliberately lets be ±∞ on the symmetry axis (division by zero), is a value of the extended type `Cot`.
Infinite positions are not modelled.
-/

namespace Verif.Coord.Axi

open Real

/-! ## model -/

/-- the `double` holding cot ν -/
inductive Cot where
  | fin (x : ℝ)
  | posInf
  | negInf
  | nan
  deriving Inhabited

open Classical in
/-- the quotient `cosnu / sinnu` for `sinnu ≥ 0` in IEEE arithmetic -/
noncomputable def Cot.div (c s : ℝ) : Cot :=
  if s ≠ 0 then .fin (c / s) else if c > 0 then .posInf else if c < 0 then .negInf else .nan

/-- coord.h:237-271 (the parameter Δ² is a separate argument) -/
structure PosAxi where (rho : ℝ) (cotnu : Cot) (phi : ℝ)
/-- coord.h:439-449 -/
structure PosVelAxi where (rho : ℝ) (cotnu : Cot) (phi vrho vnu vphi : ℝ)

/-- `sinnu = 1 / sqrt(1 + pow_2(cotnu))`, coord.cpp:349, 575; `none` is NaN -/
noncomputable def Cot.sin : Cot → Option ℝ
  | .fin x => some (1 / √(1 + x ^ 2))
  | .posInf => some 0
  | .negInf => some 0
  | .nan => none
/-- `cosnu = sinnu!=0 ? cotnu * sinnu : (cotnu>0 ? 1 : -1)`, coord.cpp:350, 576 -/
noncomputable def Cot.cos : Cot → Option ℝ
  | .fin x => some (x * (1 / √(1 + x ^ 2)))
  | .posInf => some 1
  | .negInf => some (-1)
  | .nan => none

/-- coord.cpp:346-356: chi and psi -/
noncomputable def chiOf (D2 rho : ℝ) : ℝ := open Classical in if D2 ≥ 0 then rho else √(rho ^ 2 + |D2|)
/-- coord.cpp:346-356: chi and psi -/
noncomputable def psiOf (D2 rho : ℝ) : ℝ := open Classical in if D2 ≥ 0 then √(rho ^ 2 + |D2|) else rho
/-- coord.cpp:353 -/
noncomputable def dchi (D2 rho : ℝ) : ℝ := open Classical in if D2 ≥ 0 then 1 else rho / chiOf D2 rho
/-- coord.cpp:354 -/
noncomputable def dpsi (D2 rho : ℝ) : ℝ := open Classical in if D2 ≤ 0 then 1 else rho / psiOf D2 rho

/-- coord.cpp:341-370, 447-450: position; `none` is NaN -/
noncomputable def axiToCyl (D2 : ℝ) (p : PosAxi) : Option PosCyl := do
  let sinnu ← p.cotnu.sin
  let cosnu ← p.cotnu.cos
  return ⟨chiOf D2 p.rho * sinnu, psiOf D2 p.rho * cosnu, p.phi⟩

/-- coord.cpp:356-361 -/
noncomputable def derivAxiCyl (D2 : ℝ) (p : PosAxi) : Option DerivAxiCyl := do
  let sinnu ← p.cotnu.sin
  let cosnu ← p.cotnu.cos
  return { dRdrho := dchi D2 p.rho * sinnu
           dRdnu := chiOf D2 p.rho * cosnu
           dzdrho := dpsi D2 p.rho * cosnu
           dzdnu := -psiOf D2 p.rho * sinnu }

open Classical in
/-- coord.cpp:362-369 -/
noncomputable def deriv2AxiCyl (D2 : ℝ) (p : PosAxi) : Option Deriv2AxiCyl := do
  let sinnu ← p.cotnu.sin
  let cosnu ← p.cotnu.cos
  let chi := chiOf D2 p.rho
  let psi := psiOf D2 p.rho
  return { d2Rdrho2 := if D2 ≥ 0 then 0 else -D2 / chi ^ 3 * sinnu
           d2Rdrhodnu := dchi D2 p.rho * cosnu
           d2Rdnu2 := -(chi * sinnu)
           d2zdrho2 := if D2 ≤ 0 then 0 else D2 / psi ^ 3 * cosnu
           d2zdrhodnu := -dpsi D2 p.rho * sinnu
           d2zdnu2 := -(psi * cosnu) }

/-- the outputs of coord.cpp:373-405 -/
structure Loc where (chi psi cosnu sinnu : ℝ)

open Classical in
/-- coord.cpp:373-405 (the branch for infinite arguments is not modelled) -/
noncomputable def getPosAxi (D2 : ℝ) (p : PosCyl) : Loc :=
  let r2 := p.R ^ 2 + p.z ^ 2
  let sum := 0.5 * (r2 + D2)
  let dif := 0.5 * (r2 - D2)
  let det := if D2 ≥ 0 then √(dif ^ 2 + p.R ^ 2 * D2) else √(sum ^ 2 - p.z ^ 2 * D2)
  let (psi, cosnu) :=
    if sum ≥ 0 then
      let psi := √(det + sum)
      (psi, if p.z ≠ 0 then p.z / psi else 0)
    else
      let cosnu := √((det - sum) / -D2) * (if p.z ≥ 0 then 1 else -1)
      (p.z / cosnu, cosnu)
  let (chi, sinnu) :=
    if dif ≥ 0 then
      let chi := √(det + dif)
      (chi, if p.R ≠ 0 then p.R / chi else 0)
    else
      let sinnu := √((det - dif) / D2)
      (p.R / sinnu, sinnu)
  ⟨chi, psi, cosnu, sinnu⟩

open Classical in
/-- coord.cpp:407-421, 444: position -/
noncomputable def cylToAxi (D2 : ℝ) (p : PosCyl) : PosAxi :=
  let l := getPosAxi D2 p
  ⟨if D2 ≥ 0 then l.chi else l.psi, Cot.div l.cosnu l.sinnu, p.phi⟩

open Classical in
/-- coord.cpp:413-428 -/
noncomputable def derivCylAxi (D2 : ℝ) (p : PosCyl) : DerivCylAxi :=
  let l := getPosAxi D2 p
  let eta := if D2 ≥ 0 then l.psi else l.chi
  let M := 1 / ((l.chi * l.cosnu) ^ 2 + (l.psi * l.sinnu) ^ 2)
  { drhodR := M * l.psi * l.sinnu * eta
    drhodz := M * l.chi * l.cosnu * eta
    dnudR := M * l.chi * l.cosnu
    dnudz := -M * l.psi * l.sinnu }

open Classical in
/-- coord.cpp:429-443 -/
noncomputable def deriv2CylAxi (D2 : ℝ) (p : PosCyl) : Deriv2CylAxi :=
  let l := getPosAxi D2 p
  let rho := if D2 ≥ 0 then l.chi else l.psi
  let eta := if D2 ≥ 0 then l.psi else l.chi
  let M := 1 / ((l.chi * l.cosnu) ^ 2 + (l.psi * l.sinnu) ^ 2)
  let common := (l.chi * l.chi * l.cosnu) ^ 2 + (l.psi * l.psi * l.sinnu) ^ 2 - 3 * (l.chi * l.psi) ^ 2
  let d2nudR2 := M ^ 3 * l.cosnu * l.sinnu * common
  { d2rhodR2 := M ^ 2 * l.psi * (l.chi * eta * l.cosnu ^ 2 * (1 - 4 * M * D2 * l.sinnu ^ 2) +
      (if D2 ≥ 0 then 0 else D2 * l.sinnu ^ 2))
    d2rhodz2 := M ^ 2 * l.chi * (l.psi * eta * l.sinnu ^ 2 * (1 + 4 * M * D2 * l.cosnu ^ 2) -
      (if D2 ≤ 0 then 0 else D2 * l.cosnu ^ 2))
    d2rhodRdz := M ^ 2 * l.cosnu * l.sinnu * eta * (rho ^ 2 + M * common)
    d2nudR2 := d2nudR2
    d2nudz2 := -d2nudR2
    d2nudRdz := M ^ 3 * l.psi * l.chi * ((l.psi * l.sinnu) ^ 2 * (3 - 2 * l.sinnu ^ 2) -
      (l.chi * l.cosnu) ^ 2 * (3 - 2 * l.cosnu ^ 2)) }

open Classical in
/-- coord.cpp:534-559 -/
noncomputable def vCylToAxi (D2 : ℝ) (pc : PosVelCyl) : PosVelAxi :=
  if D2 = 0 then
    if pc.R = 0 ∧ pc.z = 0 then
      let vel := √(pc.vR ^ 2 + pc.vz ^ 2)
      let cotnu := if vel > 0 then Cot.div pc.vz pc.vR else .fin 0
      ⟨0, cotnu, pc.phi, vel, 0, pc.vphi⟩
    else
      let rho := √(pc.R ^ 2 + pc.z ^ 2)
      let cosnu := pc.z / rho
      let sinnu := pc.R / rho
      ⟨rho, Cot.div cosnu sinnu, pc.phi, sinnu * pc.vR + cosnu * pc.vz, cosnu * pc.vR - sinnu * pc.vz, pc.vphi⟩
  else
    let l := getPosAxi D2 pc.pos
    let rho := if D2 ≥ 0 then l.chi else l.psi
    let d := √((l.chi * l.cosnu) ^ 2 + (l.psi * l.sinnu) ^ 2)
    let sinxi := if d ≠ 0 then 1 / d * l.psi * l.sinnu else 1
    let cosxi := if d ≠ 0 then 1 / d * l.chi * l.cosnu else 0
    ⟨rho, Cot.div l.cosnu l.sinnu, pc.phi, sinxi * pc.vR + cosxi * pc.vz, cosxi * pc.vR - sinxi * pc.vz, pc.vphi⟩

open Classical in
/-- coord.cpp:561-584; `none` is NaN -/
noncomputable def vAxiToCyl (D2 : ℝ) (ps : PosVelAxi) : Option PosVelCyl := do
  let sinnu ← ps.cotnu.sin
  let cosnu ← ps.cotnu.cos
  if D2 = 0 then
    if ps.rho = 0 then return ⟨0, 0, ps.phi, ps.vrho * sinnu, ps.vrho * cosnu, ps.vphi⟩
    else return ⟨ps.rho * sinnu, ps.rho * cosnu, ps.phi, ps.vrho * sinnu + ps.vnu * cosnu,
      ps.vrho * cosnu - ps.vnu * sinnu, ps.vphi⟩
  else
    let chi := chiOf D2 ps.rho
    let psi := psiOf D2 ps.rho
    let d := √((chi * cosnu) ^ 2 + (psi * sinnu) ^ 2)
    let sinxi := if d ≠ 0 then 1 / d * psi * sinnu else 1
    let cosxi := if d ≠ 0 then 1 / d * chi * cosnu else 0
    return ⟨chi * sinnu, psi * cosnu, ps.phi, sinxi * ps.vrho + cosxi * ps.vnu, cosxi * ps.vrho - sinxi * ps.vnu, ps.vphi⟩

/-- coord.cpp:38-42 -/
noncomputable def LzAxi (D2 : ℝ) (p : PosVelAxi) : Option ℝ := do
  let sinnu ← p.cotnu.sin
  let chi := open Classical in if D2 ≥ 0 then p.rho else √(p.rho ^ 2 - D2)
  return p.vphi * chi * sinnu

/-- coord.cpp:27-29 -/
noncomputable def LtotalAxi (D2 : ℝ) (p : PosVelAxi) : Option ℝ := (vAxiToCyl D2 p).map LtotalCyl

open Classical in
/-- coord.cpp:593-603: canonical momenta (prho, pnu, pphi) -/
noncomputable def momentaAxi (D2 : ℝ) (p : PosVelAxi) : Option (ℝ × ℝ × ℝ) := do
  let sinnu ← p.cotnu.sin
  let eta := √(p.rho ^ 2 + |D2|)
  let chi := if D2 ≥ 0 then p.rho else eta
  let mul := √(chi ^ 2 + D2 * sinnu ^ 2)
  return ((if D2 = 0 then 1 else mul / eta) * p.vrho, mul * p.vnu, chi * sinnu * p.vphi)

/-! ## the auxiliary quantities -/

theorem det_spec (D2 R z : ℝ) :
    let r2 := R ^ 2 + z ^ 2
    let det := open Classical in if D2 ≥ 0 then √((0.5 * (r2 - D2)) ^ 2 + R ^ 2 * D2) else √((0.5 * (r2 + D2)) ^ 2 - z ^ 2 * D2)
    0 ≤ det ∧ det ^ 2 = (0.5 * (r2 - D2)) ^ 2 + R ^ 2 * D2 := by
  intro r2 det
  have e : (0.5 * (r2 - D2)) ^ 2 + R ^ 2 * D2 = (0.5 * (r2 + D2)) ^ 2 - z ^ 2 * D2 := by simp only [r2]; ring
  simp only [det]
  split_ifs with h
  · exact ⟨sqrt_nonneg _, sq_sqrt (by positivity)⟩
  · refine ⟨sqrt_nonneg _, ?_⟩
    rw [sq_sqrt, e]
    push Not at h
    nlinarith [sq_nonneg (0.5 * (r2 + D2)), mul_nonneg (sq_nonneg z) (neg_nonneg.mpr h.le)]

/-- everything there is to know about the computed chi, psi, cos ν, sin ν -/
theorem getPosAxi_spec (D2 : ℝ) (p : PosCyl) (hR : 0 ≤ p.R) (h0 : D2 = 0 → ¬ (p.R = 0 ∧ p.z = 0)) :
    let l := getPosAxi D2 p
    p.R = l.chi * l.sinnu ∧ p.z = l.psi * l.cosnu ∧ l.sinnu ^ 2 + l.cosnu ^ 2 = 1 ∧ l.psi ^ 2 = l.chi ^ 2 + D2 ∧
    0 ≤ l.chi ∧ 0 ≤ l.psi ∧ 0 ≤ l.sinnu ∧
    (p.z = 0 → l.psi = 0 → 0 ≤ l.cosnu) := by
  obtain ⟨R, z, phi⟩ := p
  have hd := det_spec D2 R z
  simp only [getPosAxi] at *
  generalize (open Classical in if D2 ≥ 0 then √((0.5 * (R ^ 2 + z ^ 2 - D2)) ^ 2 + R ^ 2 * D2)
    else √((0.5 * (R ^ 2 + z ^ 2 + D2)) ^ 2 - z ^ 2 * D2)) = det at *
  obtain ⟨d0, d2⟩ := hd
  obtain ⟨sum, hsum⟩ : ∃ sum, sum = 0.5 * (R ^ 2 + z ^ 2 + D2) := ⟨_, rfl⟩
  obtain ⟨dif, hdif⟩ : ∃ dif, dif = 0.5 * (R ^ 2 + z ^ 2 - D2) := ⟨_, rfl⟩
  rw [← hdif] at d2
  rw [← hdif, ← hsum]
  have k1 : sum - dif = D2 := by rw [hsum, hdif]; ring
  have k2 : sum + dif = R ^ 2 + z ^ 2 := by rw [hsum, hdif]; ring
  have d2' : det ^ 2 = sum ^ 2 - z ^ 2 * D2 := by rw [d2, hsum, hdif]; ring
  have m1 : (det + dif) * (det - dif) = R ^ 2 * D2 := by linear_combination d2
  have m2 : (det + sum) * (sum - det) = z ^ 2 * D2 := by linear_combination -d2'
  have hR2 := sq_nonneg R
  have hz2 := sq_nonneg z
  by_cases hs : sum ≥ 0
  · by_cases hf : dif ≥ 0
    · simp only [hs, hf, if_true]
      have a1 : 0 ≤ det + dif := by linarith
      have a2 : 0 ≤ det + sum := by linarith
      have hc := sq_sqrt a1
      have hp := sq_sqrt a2
      have p1 : R ≠ 0 → 0 < det + dif := by
        intro hR0
        rcases a1.lt_or_eq with h | h
        · exact h
        · exfalso
          have : R ^ 2 * D2 = 0 := by rw [← m1, ← h, zero_mul]
          have : D2 = 0 := by rcases mul_eq_zero.mp this with h | h; exact absurd (pow_eq_zero_iff two_ne_zero |>.mp h) hR0; exact h
          have : 0 < R ^ 2 := by positivity
          linarith
      have p2 : z ≠ 0 → 0 < det + sum := by
        intro hz0
        rcases a2.lt_or_eq with h | h
        · exact h
        · exfalso
          have : z ^ 2 * D2 = 0 := by rw [← m2, ← h, zero_mul]
          have : D2 = 0 := by rcases mul_eq_zero.mp this with h | h; exact absurd (pow_eq_zero_iff two_ne_zero |>.mp h) hz0; exact h
          have : 0 < z ^ 2 := by positivity
          linarith
      by_cases hR0 : R = 0
      · subst hR0
        have hdd : det = dif := by
          have : det ^ 2 = dif ^ 2 := by rw [d2]; ring
          exact (sq_eq_sq₀ d0 hf).mp this
        have hz0 : z ≠ 0 := by
          rintro rfl
          have : sum = 0 := by nlinarith
          have : dif = 0 := by nlinarith
          exact h0 (by linarith) ⟨rfl, rfl⟩
        have q := sqrt_pos.mpr (p2 hz0)
        simp only [hz0, if_true, if_false, ne_eq, not_true_eq_false, not_false_eq_true]
        refine ⟨by ring, by field_simp, ?_, by rw [hc, hp]; linarith, sqrt_nonneg _, sqrt_nonneg _, le_rfl, fun h => h.elim⟩
        rw [div_pow, hp, hdd]
        have : dif + sum = z ^ 2 := by linarith
        rw [this]
        field_simp; ring
      · have q1 := sqrt_pos.mpr (p1 hR0)
        by_cases hz0 : z = 0
        · subst hz0
          have hdd : det = sum := by
            have : det ^ 2 = sum ^ 2 := by rw [d2']; ring
            exact (sq_eq_sq₀ d0 hs).mp this
          simp only [hR0, if_true, if_false, ne_eq, not_true_eq_false, not_false_eq_true]
          refine ⟨by field_simp, by ring, ?_, by rw [hc, hp]; linarith, sqrt_nonneg _, sqrt_nonneg _, div_nonneg hR (sqrt_nonneg _),
            fun _ _ => le_rfl⟩
          rw [div_pow, hc, hdd]
          have : sum + dif = R ^ 2 := by linarith
          rw [this]
          field_simp; ring
        · have q2 := sqrt_pos.mpr (p2 hz0)
          simp only [hR0, hz0, if_true, ne_eq, not_false_eq_true]
          refine ⟨by field_simp, by field_simp, ?_, by rw [hc, hp]; linarith, sqrt_nonneg _, sqrt_nonneg _,
            div_nonneg hR (sqrt_nonneg _), fun h => h.elim⟩
          rw [div_pow, div_pow, hc, hp]
          have g1 := (p1 hR0).ne'
          have g2 := (p2 hz0).ne'
          field_simp
          have hDD : D2 = sum - dif := k1.symm
          have hz2' : z ^ 2 = sum + dif - R ^ 2 := by linarith
          rw [hz2']
          rw [hDD] at d2
          linear_combination -d2
    · push Not at hf
      have hD : 0 < D2 := by linarith
      have b1 : 0 < (det - dif) / D2 := div_pos (by linarith) hD
      have hsn := sqrt_pos.mpr b1
      have hss := sq_sqrt b1.le
      have a2 : 0 < det + sum := by nlinarith
      have q2 := sqrt_pos.mpr a2
      have hp := sq_sqrt a2.le
      simp only [hs, not_le.mpr hf, if_true, if_false, ge_iff_le]
      have hchi : (R / √((det - dif) / D2)) ^ 2 = det + dif := by
        rw [div_pow, hss]
        have : det - dif ≠ 0 := by linarith
        field_simp; linear_combination -m1
      have hcos : (if z ≠ 0 then z / √(det + sum) else 0) = z / √(det + sum) := by
        split_ifs with h
        · rfl
        · push Not at h; rw [h, zero_div]
      rw [hcos]
      refine ⟨by field_simp, by field_simp, ?_, by rw [hchi, hp]; linarith, div_nonneg hR hsn.le, q2.le, hsn.le, fun _ h => absurd h q2.ne'⟩
      rw [hss, div_pow, hp]
      have : det + sum ≠ 0 := a2.ne'
      field_simp
      linear_combination (det + sum) * k1 - m2
  · push Not at hs
    have hD : D2 < 0 := by nlinarith
    have hf : 0 < dif := by linarith
    have b1 : 0 < (det - sum) / -D2 := div_pos (by linarith) (by linarith)
    have hcn := sqrt_pos.mpr b1
    have hcc := sq_sqrt b1.le
    have a1 : 0 < det + dif := by linarith
    have q1 := sqrt_pos.mpr a1
    have hc := sq_sqrt a1.le
    simp only [not_le.mpr hs, hf.le, if_true, if_false, ge_iff_le]
    have hsin : (if R ≠ 0 then R / √(det + dif) else 0) = R / √(det + dif) := by
      split_ifs with h
      · rfl
      · push Not at h; rw [h, zero_div]
    rw [hsin]
    obtain ⟨sg, hsg⟩ : ∃ sg : ℝ, sg = if 0 ≤ z then 1 else -1 := ⟨_, rfl⟩
    rw [← hsg]
    have sg2 : sg ^ 2 = 1 := by rw [hsg]; split_ifs <;> norm_num
    have sg0 : sg ≠ 0 := by rw [hsg]; split_ifs <;> norm_num
    have hzs : 0 ≤ z / sg := by rw [hsg]; split_ifs with h; simpa using h; push Not at h; rw [div_neg, div_one]; linarith
    have hpsi : (z / (√((det - sum) / -D2) * sg)) ^ 2 = det + sum := by
      rw [div_pow, mul_pow, hcc, sg2]
      have : det - sum ≠ 0 := by linarith
      field_simp; linear_combination m2
    refine ⟨by field_simp, by rw [div_mul_cancel₀ _ (mul_ne_zero hcn.ne' sg0)], ?_, by rw [hpsi, hc]; linarith, q1.le, ?_, div_nonneg hR q1.le, ?_⟩
    · rw [mul_pow, hcc, sg2, div_pow, hc]
      have : det + dif ≠ 0 := a1.ne'
      rw [div_add' _ _ _ this, div_eq_one_iff_eq this, div_neg, mul_one, neg_mul, div_mul_eq_mul_div, ← sub_eq_add_neg, sub_eq_iff_eq_add,
        eq_comm, add_div' _ _ _ hD.ne, div_eq_iff hD.ne]
      linear_combination m1 - (det + dif) * k1
    · rw [mul_comm, ← div_div]; exact div_nonneg hzs hcn.le
    · intro hz _; rw [hsg, if_pos hz.ge, mul_one]; exact hcn.le

end Verif.Coord.Axi
