import Verif.Coord.DerivSpec

/-!
# C58: prolate spheroidal coordinates

Models `/repo/src/coord.cpp:76-88, 265-339, 525-532, 661-677, 857-875`.  Number model (E).
-/

namespace Verif.Coord.Prol

open Real

/-! ## model -/

/-- coord.h:220-232 (the parameter Δ² of the coordinate system is kept as a separate argument) -/
@[ext] structure PosProl where (lambda nu phi : ℝ)
/-- coord.h:426-436 -/
@[ext] structure PosVelProl where (lambda nu phi lambdadot nudot phidot : ℝ)

/-- coord.cpp:76-82; `none` is the exception; also coord.cpp:266-275 (same checks and values) -/
noncomputable def prolToCyl (D2 : ℝ) (p : PosProl) : Option PosCyl :=
  open Classical in
  if |p.nu| > D2 ∨ p.lambda < D2 then none
  else some ⟨√((p.lambda - D2) * (1 - |p.nu| / D2)), √(p.lambda * |p.nu| / D2) * (if p.nu ≥ 0 then 1 else -1), p.phi⟩

/-- coord.cpp:276-281 -/
noncomputable def derivProlCyl (D2 : ℝ) (p : PosProl) : DerivProlSphCyl :=
  let absnu := |p.nu|
  let sign : ℝ := open Classical in if p.nu ≥ 0 then 1 else -1
  let lminusd := p.lambda - D2
  let nminusd := absnu - D2
  let R := √(lminusd * (1 - absnu / D2))
  let z := √(p.lambda * absnu / D2) * sign
  { dRdlambda := 0.5 * R / lminusd
    dRdnu := 0.5 * R / nminusd * sign
    dzdlambda := 0.5 * z / p.lambda
    dzdnu := 0.5 * z / p.nu }

/-- coord.cpp:282-289 -/
noncomputable def deriv2ProlCyl (D2 : ℝ) (p : PosProl) : Deriv2ProlSphCyl :=
  let absnu := |p.nu|
  let sign : ℝ := open Classical in if p.nu ≥ 0 then 1 else -1
  let lminusd := p.lambda - D2
  let nminusd := absnu - D2
  let R := √(lminusd * (1 - absnu / D2))
  let z := √(p.lambda * absnu / D2) * sign
  { d2Rdlambda2 := -0.25 * R / lminusd ^ 2
    d2Rdnu2 := -0.25 * R / nminusd ^ 2
    d2Rdlambdadnu := -0.25 * R / (lminusd * nminusd * sign)
    d2zdlambda2 := -0.25 * z / p.lambda ^ 2
    d2zdnu2 := -0.25 * z / p.nu ^ 2
    d2zdlambdadnu := -0.25 * z / (p.lambda * p.nu) }

/-- the local variables of coord.cpp:294-318 -/
structure Loc where (signz sum dif sqD lmd dmn lambda absnu : ℝ)

/-- coord.cpp:294-318 -/
noncomputable def locals (D2 : ℝ) (p : PosCyl) : Loc :=
  open Classical in
  let R2 := p.R ^ 2
  let z2 := p.z ^ 2
  let signz : ℝ := if p.z ≥ 0 then 1 else -1
  let sum := R2 + z2 + D2
  let dif := R2 + z2 - D2
  let sqD := √(dif ^ 2 + 4 * R2 * D2)
  let sqD := if z2 = 0 then sum else sqD
  let sqD := if R2 = 0 then |dif| else sqD
  let (lmd, dmn) :=
    if dif ≥ 0 then
      let lmd := 0.5 * (sqD + dif)
      (lmd, if R2 > 0 then D2 * R2 / lmd else 0)
    else
      let dmn := 0.5 * (sqD - dif)
      (D2 * R2 / dmn, dmn)
  let lambda := D2 + lmd
  let absnu := 2 * D2 / (sum + sqD) * z2
  let (absnu, dmn) := if absnu * 2 > D2 then (D2 - dmn, dmn) else (absnu, D2 - absnu)
  ⟨signz, sum, dif, sqD, lmd, dmn, lambda, absnu⟩

/-- coord.cpp:85-90 and 294-338, the returned position -/
noncomputable def cylToProl (D2 : ℝ) (p : PosCyl) : PosProl :=
  let l := locals D2 p
  ⟨l.lambda, l.absnu * l.signz, p.phi⟩

/-- coord.cpp:319-328; `none` is the exception raised at the focal points -/
noncomputable def derivCylProl (D2 : ℝ) (p : PosCyl) : Option DerivCylProlSph :=
  open Classical in
  let l := locals D2 p
  if l.sqD = 0 then none else some
  { dlambdadR := p.R * 2 * l.lambda / l.sqD
    dlambdadz := p.z * 2 * l.lmd / l.sqD
    dnudR := p.R * 2 * -l.absnu / l.sqD * l.signz
    dnudz := p.z * 2 * l.dmn / l.sqD * l.signz }

/-- coord.cpp:329-337 -/
noncomputable def deriv2CylProl (D2 : ℝ) (p : PosCyl) : Option Deriv2CylProlSph :=
  open Classical in
  let l := locals D2 p
  if l.sqD = 0 then none else
  let common := 8 * D2 * p.R ^ 2 * p.z ^ 2 / l.sqD ^ 3
  let d2lambdadRdz := 2 * p.R * p.z * (1 - l.sum * l.dif / l.sqD ^ 2) / l.sqD
  some
  { d2lambdadR2 := 1 + l.sum / l.sqD - common
    d2lambdadz2 := 1 + l.dif / l.sqD + common
    d2nudR2 := (1 - l.sum / l.sqD + common) * l.signz
    d2nudz2 := (1 - l.dif / l.sqD - common) * l.signz
    d2lambdadRdz := d2lambdadRdz
    d2nudRdz := -d2lambdadRdz * l.signz }

/-- coord.cpp:525-532 -/
noncomputable def vCylToProl (D2 : ℝ) (p : PosVelCyl) : Option PosVelProl :=
  open Classical in
  (derivCylProl D2 p.pos).map fun d =>
    let q := cylToProl D2 p.pos
    ⟨q.lambda, q.nu, q.phi, d.dlambdadR * p.vR + d.dlambdadz * p.vz, d.dnudR * p.vR + d.dnudz * p.vz,
      if p.vphi ≠ 0 then p.vphi / p.R else 0⟩

/-! ## the branches and special cases compute one formula -/

/-- the determinant -/
noncomputable def sq (D2 R z : ℝ) : ℝ := √((R ^ 2 + z ^ 2 - D2) ^ 2 + 4 * R ^ 2 * D2)

theorem sq_sq {D2 : ℝ} (hD : 0 < D2) (R z : ℝ) :
    sq D2 R z ^ 2 = (R ^ 2 + z ^ 2 - D2) ^ 2 + 4 * R ^ 2 * D2 ∧
    sq D2 R z ^ 2 = (R ^ 2 + z ^ 2 + D2) ^ 2 - 4 * z ^ 2 * D2 ∧ 0 ≤ sq D2 R z := by
  have h : sq D2 R z ^ 2 = (R ^ 2 + z ^ 2 - D2) ^ 2 + 4 * R ^ 2 * D2 := sq_sqrt (by positivity)
  exact ⟨h, by rw [h]; ring, sqrt_nonneg _⟩

theorem sq_ge {D2 : ℝ} (hD : 0 < D2) (R z : ℝ) :
    |R ^ 2 + z ^ 2 - D2| ≤ sq D2 R z ∧ sq D2 R z ≤ R ^ 2 + z ^ 2 + D2 := by
  obtain ⟨h1, h2, h3⟩ := sq_sq hD R z
  constructor
  · refine abs_le_of_sq_le_sq ?_ h3
    rw [h1]; nlinarith [mul_nonneg (sq_nonneg R) hD.le]
  · apply le_of_sq_le_sq _ (by positivity)
    rw [h2]; nlinarith [mul_nonneg (sq_nonneg z) hD.le]

theorem locals_eq {D2 : ℝ} (hD : 0 < D2) (p : PosCyl) :
    locals D2 p = ⟨if p.z ≥ 0 then 1 else -1, p.R ^ 2 + p.z ^ 2 + D2, p.R ^ 2 + p.z ^ 2 - D2, sq D2 p.R p.z,
      (sq D2 p.R p.z + (p.R ^ 2 + p.z ^ 2 - D2)) / 2, (sq D2 p.R p.z - (p.R ^ 2 + p.z ^ 2 - D2)) / 2,
      (p.R ^ 2 + p.z ^ 2 + D2 + sq D2 p.R p.z) / 2, (p.R ^ 2 + p.z ^ 2 + D2 - sq D2 p.R p.z) / 2⟩ := by
  obtain ⟨h1, h2, h3⟩ := sq_sq hD p.R p.z
  obtain ⟨h4, h5⟩ := sq_ge hD p.R p.z
  have h6 := abs_le.mp h4
  have hsq : (if p.R ^ 2 = 0 then |p.R ^ 2 + p.z ^ 2 - D2| else if p.z ^ 2 = 0 then p.R ^ 2 + p.z ^ 2 + D2
      else √((p.R ^ 2 + p.z ^ 2 - D2) ^ 2 + 4 * p.R ^ 2 * D2)) = sq D2 p.R p.z := by
    split_ifs with hR hz
    · rw [sq, hR]; simp [sqrt_sq_eq_abs]
    · rw [sq, hz]
      rw [show (p.R ^ 2 + 0 - D2) ^ 2 + 4 * p.R ^ 2 * D2 = (p.R ^ 2 + 0 + D2) ^ 2 by ring]
      exact (sqrt_sq (by positivity)).symm
    · rfl
  have hsum : 0 < p.R ^ 2 + p.z ^ 2 + D2 := by positivity
  have habs : 2 * D2 / (p.R ^ 2 + p.z ^ 2 + D2 + sq D2 p.R p.z) * p.z ^ 2
      = (p.R ^ 2 + p.z ^ 2 + D2 - sq D2 p.R p.z) / 2 := by
    rw [div_mul_eq_mul_div, div_eq_div_iff (by linarith) two_ne_zero]
    linear_combination h2
  unfold locals
  simp only [hsq, habs]
  by_cases hdif : p.R ^ 2 + p.z ^ 2 - D2 ≥ 0
  · have hd : (if p.R ^ 2 > 0 then D2 * p.R ^ 2 / (0.5 * (sq D2 p.R p.z + (p.R ^ 2 + p.z ^ 2 - D2))) else 0) =
        (sq D2 p.R p.z - (p.R ^ 2 + p.z ^ 2 - D2)) / 2 := by
      split_ifs with hR
      · have : 0 < sq D2 p.R p.z := by
          rcases h3.lt_or_eq with h | h
          · exact h
          · rw [← h] at h2; nlinarith [mul_pos hR hD, sq_nonneg (p.R ^ 2 + p.z ^ 2 - D2), h1]
        rw [div_eq_div_iff (by linarith) two_ne_zero]
        linear_combination -(1/2) * h1
      · have hR0 : p.R ^ 2 = 0 := le_antisymm (not_lt.mp hR) (sq_nonneg _)
        have : sq D2 p.R p.z = |p.R ^ 2 + p.z ^ 2 - D2| := by
          rw [← hsq, if_pos hR0]
        rw [this, abs_of_nonneg hdif]; ring
    simp only [hdif, if_true, hd]
    split_ifs <;> · rw [Loc.mk.injEq]; refine ⟨rfl, rfl, rfl, rfl, by ring, by ring, by ring, by ring⟩
  · have hdif' := not_le.mp hdif
    have hd : D2 * p.R ^ 2 / (0.5 * (sq D2 p.R p.z - (p.R ^ 2 + p.z ^ 2 - D2))) =
        (sq D2 p.R p.z + (p.R ^ 2 + p.z ^ 2 - D2)) / 2 := by
      rw [div_eq_div_iff (by linarith) two_ne_zero]
      linear_combination -(1/2) * h1
    simp only [hdif, if_false, hd]
    split_ifs <;> · rw [Loc.mk.injEq]; refine ⟨rfl, rfl, rfl, rfl, by ring, by ring, by ring, by ring⟩

/-- λ and |ν| in closed form -/
theorem cylToProl_eq {D2 : ℝ} (hD : 0 < D2) (p : PosCyl) :
    cylToProl D2 p = ⟨(p.R ^ 2 + p.z ^ 2 + D2 + sq D2 p.R p.z) / 2,
      (p.R ^ 2 + p.z ^ 2 + D2 - sq D2 p.R p.z) / 2 * (if p.z ≥ 0 then 1 else -1), p.phi⟩ := by
  simp only [cylToProl, locals_eq hD]

theorem abs_nu {D2 : ℝ} (hD : 0 < D2) (p : PosCyl) :
    |(cylToProl D2 p).nu| = (p.R ^ 2 + p.z ^ 2 + D2 - sq D2 p.R p.z) / 2 := by
  have := (sq_ge hD p.R p.z).2
  rw [cylToProl_eq hD]; simp only []
  rw [abs_mul, abs_of_nonneg (by linarith)]
  split_ifs <;> simp

/-! ## C58: meaning of the coordinates -/

/-- λ and |ν| are in the documented ranges; they are exactly the two roots of the defining equation
R²/(t−Δ²) + z²/t = 1 (stated also without denominators, so that it covers the axis and the plane); ν has the sign of z
and the azimuth is unchanged -/
theorem C58_equation {D2 : ℝ} (hD : 0 < D2) (p : PosCyl) :
    let q := cylToProl D2 p
    D2 ≤ q.lambda ∧ |q.nu| ≤ D2 ∧
    (∀ t, p.R ^ 2 * t + p.z ^ 2 * (t - D2) - t * (t - D2) = -(t - q.lambda) * (t - |q.nu|)) ∧
    (∀ t, t ≠ 0 → t ≠ D2 → (p.R ^ 2 / (t - D2) + p.z ^ 2 / t = 1 ↔ t = q.lambda ∨ t = |q.nu|)) ∧
    (0 < p.z → 0 < q.nu) ∧ (p.z < 0 → q.nu < 0) ∧ (p.z = 0 → q.nu = 0) ∧ q.phi = p.phi := by
  obtain ⟨h1, h2, h3⟩ := sq_sq hD p.R p.z
  obtain ⟨h4, h5⟩ := sq_ge hD p.R p.z
  have h6 := abs_le.mp h4
  have hpos : p.z ≠ 0 → 0 < (p.R ^ 2 + p.z ^ 2 + D2 - sq D2 p.R p.z) / 2 := by
    intro hz
    have : sq D2 p.R p.z < p.R ^ 2 + p.z ^ 2 + D2 := by
      apply lt_of_pow_lt_pow_left₀ 2 (by positivity)
      rw [h2]; have := mul_pos (pow_pos (abs_pos.mpr hz) 2) hD
      rw [sq_abs] at this; linarith
    linarith
  have key : ∀ t, p.R ^ 2 * t + p.z ^ 2 * (t - D2) - t * (t - D2) =
      -(t - (cylToProl D2 p).lambda) * (t - |(cylToProl D2 p).nu|) := by
    intro t
    rw [abs_nu hD, cylToProl_eq hD]
    linear_combination (-1/4 : ℝ) * h2
  refine ⟨?_, ?_, key, ?_, ?_, ?_, ?_, rfl⟩
  · rw [cylToProl_eq hD]; simp only []; linarith
  · rw [abs_nu hD]; linarith
  · intro t ht0 htD
    have htD' : t - D2 ≠ 0 := sub_ne_zero.mpr htD
    rw [div_add_div _ _ htD' ht0, div_eq_one_iff_eq (mul_ne_zero htD' ht0), ← sub_eq_zero]
    have k := key t
    have : p.R ^ 2 * t + (t - D2) * p.z ^ 2 - (t - D2) * t = -(t - (cylToProl D2 p).lambda) * (t - |(cylToProl D2 p).nu|) := by
      rw [← k]; ring
    rw [this, mul_eq_zero, neg_eq_zero, sub_eq_zero, sub_eq_zero]
  · intro hz; rw [cylToProl_eq hD]; simp only [ge_iff_le, hz.le, if_true, mul_one]; exact hpos hz.ne'
  · intro hz; rw [cylToProl_eq hD]; simp only [ge_iff_le, not_le.mpr hz, if_false]
    have := hpos hz.ne; linarith
  · intro hz; rw [cylToProl_eq hD]
    simp only [mul_eq_zero]; left
    have : sq D2 p.R p.z = p.R ^ 2 + p.z ^ 2 + D2 := by
      rw [sq, hz, show (p.R ^ 2 + 0 ^ 2 - D2) ^ 2 + 4 * p.R ^ 2 * D2 = (p.R ^ 2 + 0 ^ 2 + D2) ^ 2 by ring]
      exact sqrt_sq (by positivity)
    rw [this]; ring

/-- products used below -/
theorem prods {D2 : ℝ} (hD : 0 < D2) (p : PosCyl) :
    ((cylToProl D2 p).lambda - D2) * (D2 - |(cylToProl D2 p).nu|) = D2 * p.R ^ 2 ∧
    (cylToProl D2 p).lambda * |(cylToProl D2 p).nu| = D2 * p.z ^ 2 := by
  have k := (C58_equation hD p).2.2.1
  constructor
  · have := k D2; linarith
  · have := k 0; linarith

/-- conversion to prolate spheroidal coordinates and back recovers every point -/
theorem C58_cyl_prol_cyl {D2 : ℝ} (hD : 0 < D2) (p : PosCyl) (hR : 0 ≤ p.R) :
    prolToCyl D2 (cylToProl D2 p) = some p := by
  obtain ⟨hl, hn, -, -, hp, hm, h0, hphi⟩ := C58_equation hD p
  obtain ⟨e1, e2⟩ := prods hD p
  unfold prolToCyl
  rw [if_neg (by push Not; exact ⟨hn, hl⟩)]
  congr 1
  have a1 : ((cylToProl D2 p).lambda - D2) * (1 - |(cylToProl D2 p).nu| / D2) = p.R ^ 2 := by
    field_simp; linarith
  have a2 : (cylToProl D2 p).lambda * |(cylToProl D2 p).nu| / D2 = p.z ^ 2 := by
    rw [e2]; field_simp
  ext
  · simp only [a1]; exact sqrt_sq hR
  · simp only [a2, sqrt_sq_eq_abs]
    rcases lt_trichotomy p.z 0 with hz | hz | hz
    · rw [if_neg (not_le.mpr (hm hz)), abs_of_neg hz]; ring
    · rw [hz]; simp
    · rw [if_pos (hp hz).le, abs_of_pos hz]; ring
  · exact hphi

/-- and in the opposite order, for every valid pair of coordinates -/
theorem C58_prol_cyl_prol {D2 : ℝ} (hD : 0 < D2) (q : PosProl) (h1 : D2 ≤ q.lambda) (h2 : |q.nu| ≤ D2) :
    ∃ p, prolToCyl D2 q = some p ∧ 0 ≤ p.R ∧ cylToProl D2 p = q := by
  have hl : 0 < q.lambda := by linarith
  have hn := abs_nonneg q.nu
  refine ⟨_, by unfold prolToCyl; rw [if_neg (by push Not; exact ⟨h2, h1⟩)], sqrt_nonneg _, ?_⟩
  rw [cylToProl_eq hD]
  set s : ℝ := if q.nu ≥ 0 then 1 else -1 with hs
  have hs2 : s ^ 2 = 1 := by rw [hs]; split_ifs <;> norm_num
  have hnn : 0 ≤ 1 - |q.nu| / D2 := by rw [sub_nonneg, div_le_one hD]; exact h2
  have eR : √((q.lambda - D2) * (1 - |q.nu| / D2)) ^ 2 = (q.lambda - D2) * (1 - |q.nu| / D2) :=
    sq_sqrt (mul_nonneg (by linarith) hnn)
  have ez : (√(q.lambda * |q.nu| / D2) * s) ^ 2 = q.lambda * |q.nu| / D2 := by
    rw [mul_pow, hs2, mul_one]; exact sq_sqrt (by positivity)
  have esum : √((q.lambda - D2) * (1 - |q.nu| / D2)) ^ 2 + (√(q.lambda * |q.nu| / D2) * s) ^ 2 = q.lambda + |q.nu| - D2 := by
    rw [eR, ez]; field_simp; ring
  have esq : sq D2 (√((q.lambda - D2) * (1 - |q.nu| / D2))) (√(q.lambda * |q.nu| / D2) * s) = q.lambda - |q.nu| := by
    rw [sq, esum, eR]
    rw [show (q.lambda + |q.nu| - D2 - D2) ^ 2 + 4 * ((q.lambda - D2) * (1 - |q.nu| / D2)) * D2 = (q.lambda - |q.nu|) ^ 2 by
      field_simp; ring]
    exact sqrt_sq (by linarith)
  ext
  · simp only [esum, esq]; ring
  · simp only [esum, esq]
    rw [show (q.lambda + |q.nu| - D2 + D2 - (q.lambda - |q.nu|)) / 2 = |q.nu| by ring]
    rcases lt_or_ge q.nu 0 with hq | hq
    · have hsn : s = -1 := by rw [hs, if_neg (not_le.mpr hq)]
      have : ¬ (√(q.lambda * |q.nu| / D2) * s ≥ 0) := by
        rw [hsn]; have : 0 < √(q.lambda * |q.nu| / D2) := sqrt_pos.mpr (by have := abs_pos.mpr hq.ne; positivity)
        push Not; linarith
      rw [if_neg this, abs_of_neg hq]; ring
    · have hsn : s = 1 := by rw [hs, if_pos hq]
      have : √(q.lambda * |q.nu| / D2) * s ≥ 0 := by rw [hsn, mul_one]; exact sqrt_nonneg _
      rw [if_pos this, abs_of_nonneg hq]; ring
  · rfl

/-- coordinates outside the allowed range are rejected, and only those -/
theorem C58_rejects (D2 : ℝ) (q : PosProl) : prolToCyl D2 q = none ↔ |q.nu| > D2 ∨ q.lambda < D2 := by
  unfold prolToCyl; split_ifs with h <;> simp [h]

/-! ## C58: derivatives, cylindrical → prolate spheroidal -/

theorem hasDerivAt_sq {D2 : ℝ} {R z : ℝ → ℝ} {R' z' t : ℝ} (hR : HasDerivAt R R' t) (hz : HasDerivAt z z' t)
    (h : sq D2 (R t) (z t) ≠ 0) :
    HasDerivAt (fun s => sq D2 (R s) (z s))
      ((2 * R t * (R t ^ 2 + z t ^ 2 + D2) * R' + 2 * z t * (R t ^ 2 + z t ^ 2 - D2) * z') / sq D2 (R t) (z t)) t := by
  have hn : (R t ^ 2 + z t ^ 2 - D2) ^ 2 + 4 * R t ^ 2 * D2 ≠ 0 := by
    intro h0; rw [sq, h0] at h; simp at h
  have := ((((((hR.pow 2).add (hz.pow 2)).sub_const D2)).pow 2).add (((hR.pow 2).const_mul 4).mul_const D2)).sqrt hn
  refine this.congr_deriv ?_
  simp only [Pi.add_apply, Pi.pow_apply]
  have e : √((R t ^ 2 + z t ^ 2 - D2) ^ 2 + 4 * R t ^ 2 * D2) = sq D2 (R t) (z t) := rfl
  rw [e]
  field_simp
  push_cast
  ring

theorem derivCylProl_eq {D2 : ℝ} (hD : 0 < D2) (p : PosCyl) (h : sq D2 p.R p.z ≠ 0) :
    derivCylProl D2 p = some
      ⟨p.R * 2 * ((p.R ^ 2 + p.z ^ 2 + D2 + sq D2 p.R p.z) / 2) / sq D2 p.R p.z,
       p.z * 2 * ((sq D2 p.R p.z + (p.R ^ 2 + p.z ^ 2 - D2)) / 2) / sq D2 p.R p.z,
       p.R * 2 * -((p.R ^ 2 + p.z ^ 2 + D2 - sq D2 p.R p.z) / 2) / sq D2 p.R p.z * (if p.z ≥ 0 then 1 else -1),
       p.z * 2 * ((sq D2 p.R p.z - (p.R ^ 2 + p.z ^ 2 - D2)) / 2) / sq D2 p.R p.z * (if p.z ≥ 0 then 1 else -1)⟩ := by
  simp only [derivCylProl, locals_eq hD, h, if_false]

/-- the exception is raised exactly at the two focal points R=0, |z|=Δ -/
theorem C58_focal {D2 : ℝ} (hD : 0 < D2) (p : PosCyl) :
    (derivCylProl D2 p = none ↔ p.R = 0 ∧ p.z ^ 2 = D2) ∧ (deriv2CylProl D2 p = none ↔ p.R = 0 ∧ p.z ^ 2 = D2) := by
  have e : sq D2 p.R p.z = 0 ↔ p.R = 0 ∧ p.z ^ 2 = D2 := by
    obtain ⟨h1, -, -⟩ := sq_sq hD p.R p.z
    constructor
    · intro h; rw [h] at h1
      have hR : p.R ^ 2 = 0 := by nlinarith [sq_nonneg (p.R ^ 2 + p.z ^ 2 - D2), mul_nonneg (sq_nonneg p.R) hD.le, sq_nonneg p.R]
      have hR0 : p.R = 0 := pow_eq_zero_iff two_ne_zero |>.mp hR
      refine ⟨hR0, ?_⟩
      rw [hR0] at h1
      have : (p.z ^ 2 - D2) ^ 2 = 0 := by nlinarith
      have := pow_eq_zero_iff two_ne_zero |>.mp this
      linarith
    · rintro ⟨a, b⟩; rw [sq, a, b]; simp
  constructor
  · rw [← e]; unfold derivCylProl; simp only [locals_eq hD]; split_ifs with h <;> simp [h]
  · rw [← e]; unfold deriv2CylProl; simp only [locals_eq hD]; split_ifs with h <;> simp [h]

theorem ev_sq {D2 : ℝ} {R z : ℝ → ℝ} {R' z' t : ℝ} (hR : HasDerivAt R R' t) (hz : HasDerivAt z z' t)
    (h : sq D2 (R t) (z t) ≠ 0) : ∀ᶠ s in nhds t, sq D2 (R s) (z s) ≠ 0 :=
  (hasDerivAt_sq hR hz h).continuousAt.eventually_ne h

theorem ev_sign {z : ℝ → ℝ} {z' t : ℝ} (hz : HasDerivAt z z' t) (h : z t ≠ 0) :
    ∀ᶠ s in nhds t, ((if z s ≥ 0 then (1:ℝ) else -1) = if z t ≥ 0 then 1 else -1) := by
  rcases lt_or_gt_of_ne h with h | h
  · filter_upwards [hz.continuousAt.eventually_lt_const h] with s hs
    rw [if_neg (not_le.mpr hs), if_neg (not_le.mpr h)]
  · filter_upwards [hz.continuousAt.eventually_const_lt h] with s hs
    rw [if_pos hs.le, if_pos h.le]

/-- first derivatives of λ and ν with respect to R and z, at every point other than the focal points (including the
plane z=0, where ν changes sign) -/
theorem C58_deriv_cyl_prol {D2 : ℝ} (hD : 0 < D2) (p : PosCyl) (hp : ¬ (p.R = 0 ∧ p.z ^ 2 = D2)) :
    ∃ d, derivCylProl D2 p = some d ∧
      IsGradCyl (fun q => (cylToProl D2 q).lambda) p ⟨d.dlambdadR, d.dlambdadz, 0⟩ ∧
      IsGradCyl (fun q => (cylToProl D2 q).nu) p ⟨d.dnudR, d.dnudz, 0⟩ := by
  have h : sq D2 p.R p.z ≠ 0 := by
    intro h; apply hp; apply (C58_focal hD p).1.mp
    unfold derivCylProl; simp only [locals_eq hD, h, if_true]
  refine ⟨_, derivCylProl_eq hD p h, ?_, ?_⟩
  · intro R z phi R' z' phi' t hR hz hphi e
    subst e
    have := ((((hR.pow 2).add (hz.pow 2)).add_const D2).add (hasDerivAt_sq hR hz h)).div_const 2
    refine (this.congr_of_eventuallyEq (Filter.Eventually.of_forall fun s => ?_)).congr_deriv ?_
    · simp only [cylToProl_eq hD, Pi.add_apply, Pi.pow_apply]
    · simp only [] at h ⊢
      field_simp; push_cast; ring
  · intro R z phi R' z' phi' t hR hz hphi e
    subst e
    simp only [] at h
    have hbase := ((((hR.pow 2).add (hz.pow 2)).add_const D2).sub (hasDerivAt_sq hR hz h)).div_const 2
    by_cases hz0 : z t = 0
    · -- nu = z|z| * g
      have hsum : 0 < R t ^ 2 + z t ^ 2 + D2 := by positivity
      have hsq := (sq_sq hD (R t) (z t)).2.2
      have hden := (((hR.pow 2).add (hz.pow 2)).add_const D2).add (hasDerivAt_sq hR hz h)
      have hg := (hasDerivAt_const t (2 * D2)).div hden (by
        simp only [Pi.add_apply, Pi.pow_apply]; linarith)
      have hzz : HasDerivAt (fun s => z s * |z s|) 0 t := by
        rw [hasDerivAt_iff_isLittleO]
        simp only [hz0, zero_mul, smul_eq_mul, mul_zero, sub_zero]
        have b := hz.isBigO_sub
        simp only [hz0, sub_zero] at b
        have c : (fun s => |z s|) =o[nhds t] (fun _ => (1:ℝ)) := by
          rw [Asymptotics.isLittleO_one_iff]
          have := hz.continuousAt.abs.tendsto
          simpa [hz0] using this
        simpa using b.mul_isLittleO c
      refine ((hzz.mul hg).congr_of_eventuallyEq (Filter.Eventually.of_forall fun s => ?_)).congr_deriv ?_
      · simp only [cylToProl_eq hD, Pi.mul_apply, Pi.div_apply, Pi.add_apply, Pi.pow_apply]
        obtain ⟨-, h2, h3⟩ := sq_sq hD (R s) (z s)
        have hsum' : 0 < R s ^ 2 + z s ^ 2 + D2 := by positivity
        have e1 : (R s ^ 2 + z s ^ 2 + D2 - sq D2 (R s) (z s)) / 2 =
            z s ^ 2 * (2 * D2 / (R s ^ 2 + z s ^ 2 + D2 + sq D2 (R s) (z s))) := by
          rw [← mul_div_assoc, div_eq_div_iff two_ne_zero (by linarith)]
          linear_combination -h2
        rw [e1]
        split_ifs with hs
        · rw [abs_of_nonneg hs]; ring
        · rw [abs_of_neg (not_le.mp hs)]; ring
      · have : sq D2 (R t) (z t) = R t ^ 2 + z t ^ 2 + D2 := by
          rw [sq, hz0, show (R t ^ 2 + 0 ^ 2 - D2) ^ 2 + 4 * R t ^ 2 * D2 = (R t ^ 2 + 0 ^ 2 + D2) ^ 2 by ring]
          exact sqrt_sq (by positivity)
        rw [this, hz0]; simp
    · have hev := ev_sign hz hz0
      refine ((hbase.mul_const (if z t ≥ 0 then 1 else -1)).congr_of_eventuallyEq ?_).congr_deriv ?_
      · filter_upwards [hev] with s hs
        simp only [cylToProl_eq hD, hs, Pi.sub_apply, Pi.add_apply, Pi.pow_apply]
      · simp only []
        field_simp; push_cast; ring

theorem hasDerivAt_A {D2 : ℝ} (hD : 0 < D2) {R z : ℝ → ℝ} {R' z' t : ℝ} (hR : HasDerivAt R R' t) (hz : HasDerivAt z z' t)
    (h : sq D2 (R t) (z t) ≠ 0) :
    HasDerivAt (fun s => R s * (R s ^ 2 + z s ^ 2 + D2) / sq D2 (R s) (z s))
      (((R t ^ 2 + z t ^ 2 + D2) / sq D2 (R t) (z t) - 8 * D2 * R t ^ 2 * z t ^ 2 / sq D2 (R t) (z t) ^ 3) * R' +
       2 * R t * z t * (1 - (R t ^ 2 + z t ^ 2 + D2) * (R t ^ 2 + z t ^ 2 - D2) / sq D2 (R t) (z t) ^ 2) / sq D2 (R t) (z t) * z') t := by
  have h2 := (sq_sq hD (R t) (z t)).2.1
  have := (hR.mul (((hR.pow 2).add (hz.pow 2)).add_const D2)).div (hasDerivAt_sq hR hz h) h
  refine this.congr_deriv ?_
  simp only [Pi.mul_apply, Pi.add_apply, Pi.pow_apply]
  generalize sq D2 (R t) (z t) = w at *
  generalize R t = r at *
  generalize z t = y at *
  push_cast
  field_simp
  linear_combination (2 * r ^ 2 * R') * h2

theorem hasDerivAt_B {D2 : ℝ} (hD : 0 < D2) {R z : ℝ → ℝ} {R' z' t : ℝ} (hR : HasDerivAt R R' t) (hz : HasDerivAt z z' t)
    (h : sq D2 (R t) (z t) ≠ 0) :
    HasDerivAt (fun s => z s * (R s ^ 2 + z s ^ 2 - D2) / sq D2 (R s) (z s))
      (2 * R t * z t * (1 - (R t ^ 2 + z t ^ 2 + D2) * (R t ^ 2 + z t ^ 2 - D2) / sq D2 (R t) (z t) ^ 2) / sq D2 (R t) (z t) * R' +
       ((R t ^ 2 + z t ^ 2 - D2) / sq D2 (R t) (z t) + 8 * D2 * R t ^ 2 * z t ^ 2 / sq D2 (R t) (z t) ^ 3) * z') t := by
  have h1 := (sq_sq hD (R t) (z t)).1
  have := (hz.mul (((hR.pow 2).add (hz.pow 2)).sub_const D2)).div (hasDerivAt_sq hR hz h) h
  refine this.congr_deriv ?_
  simp only [Pi.mul_apply, Pi.add_apply, Pi.pow_apply]
  generalize sq D2 (R t) (z t) = w at *
  generalize R t = r at *
  generalize z t = y at *
  push_cast
  field_simp
  linear_combination (2 * y ^ 2 * z') * h1

/-- the gradient of λ as returned by the code -/
noncomputable def gradLambda (D2 : ℝ) (q : PosCyl) : GradCyl :=
  match derivCylProl D2 q with | some d => ⟨d.dlambdadR, d.dlambdadz, 0⟩ | none => ⟨0, 0, 0⟩
/-- the gradient of ν as returned by the code -/
noncomputable def gradNu (D2 : ℝ) (q : PosCyl) : GradCyl :=
  match derivCylProl D2 q with | some d => ⟨d.dnudR, d.dnudz, 0⟩ | none => ⟨0, 0, 0⟩

theorem gradLambda_eq {D2 : ℝ} (hD : 0 < D2) (R z phi : ℝ) (h : sq D2 R z ≠ 0) :
    gradLambda D2 ⟨R, z, phi⟩ = ⟨R + R * (R ^ 2 + z ^ 2 + D2) / sq D2 R z, z + z * (R ^ 2 + z ^ 2 - D2) / sq D2 R z, 0⟩ := by
  simp only [gradLambda, derivCylProl_eq hD ⟨R, z, phi⟩ h, GradCyl.mk.injEq]
  refine ⟨?_, ?_, trivial⟩ <;> field_simp <;> ring_nf

theorem gradNu_eq {D2 : ℝ} (hD : 0 < D2) (R z phi : ℝ) (h : sq D2 R z ≠ 0) :
    gradNu D2 ⟨R, z, phi⟩ = ⟨(R - R * (R ^ 2 + z ^ 2 + D2) / sq D2 R z) * (if z ≥ 0 then 1 else -1),
      (z - z * (R ^ 2 + z ^ 2 - D2) / sq D2 R z) * (if z ≥ 0 then 1 else -1), 0⟩ := by
  simp only [gradNu, derivCylProl_eq hD ⟨R, z, phi⟩ h, GradCyl.mk.injEq]
  refine ⟨?_, ?_, trivial⟩ <;> field_simp <;> ring_nf

theorem deriv2CylProl_eq {D2 : ℝ} (hD : 0 < D2) (R z phi : ℝ) (h : sq D2 R z ≠ 0) :
    deriv2CylProl D2 ⟨R, z, phi⟩ = some
      (let w := sq D2 R z
       let sg : ℝ := if z ≥ 0 then 1 else -1
       let c := 8 * D2 * R ^ 2 * z ^ 2 / w ^ 3
       let x := 2 * R * z * (1 - (R ^ 2 + z ^ 2 + D2) * (R ^ 2 + z ^ 2 - D2) / w ^ 2) / w
       { d2lambdadR2 := 1 + (R ^ 2 + z ^ 2 + D2) / w - c
         d2lambdadz2 := 1 + (R ^ 2 + z ^ 2 - D2) / w + c
         d2nudR2 := (1 - (R ^ 2 + z ^ 2 + D2) / w + c) * sg
         d2nudz2 := (1 - (R ^ 2 + z ^ 2 - D2) / w - c) * sg
         d2lambdadRdz := x
         d2nudRdz := -x * sg }) := by
  simp only [deriv2CylProl, locals_eq hD, h, if_false]

/-- second derivatives of λ (everywhere but at the focal points) and ν (also off the plane z=0, where it is not twice
differentiable) -/
theorem C58_deriv2_cyl_prol {D2 : ℝ} (hD : 0 < D2) (p : PosCyl) (hp : ¬ (p.R = 0 ∧ p.z ^ 2 = D2)) :
    ∃ d, deriv2CylProl D2 p = some d ∧
      IsHessCyl (gradLambda D2) p ⟨d.d2lambdadR2, d.d2lambdadz2, 0, d.d2lambdadRdz, 0, 0⟩ ∧
      (p.z ≠ 0 → IsHessCyl (gradNu D2) p ⟨d.d2nudR2, d.d2nudz2, 0, d.d2nudRdz, 0, 0⟩) := by
  have h : sq D2 p.R p.z ≠ 0 := by
    intro h; apply hp; apply (C58_focal hD p).1.mp
    unfold derivCylProl; simp only [locals_eq hD, h, if_true]
  obtain ⟨R0, z0, phi0⟩ := p
  refine ⟨_, deriv2CylProl_eq hD R0 z0 phi0 h, ?_, ?_⟩
  · refine ⟨?_, ?_, ?_⟩
    · intro R z phi R' z' phi' t hR hz hphi e
      obtain ⟨rfl, rfl, rfl⟩ := PosCyl.mk.inj e
      refine ((hR.add (hasDerivAt_A hD hR hz h)).congr_of_eventuallyEq ?_).congr_deriv ?_
      · filter_upwards [ev_sq hR hz h] with s hs
        rw [gradLambda_eq hD _ _ _ hs]; rfl
      · simp only []; ring
    · intro R z phi R' z' phi' t hR hz hphi e
      obtain ⟨rfl, rfl, rfl⟩ := PosCyl.mk.inj e
      refine ((hz.add (hasDerivAt_B hD hR hz h)).congr_of_eventuallyEq ?_).congr_deriv ?_
      · filter_upwards [ev_sq hR hz h] with s hs
        rw [gradLambda_eq hD _ _ _ hs]; rfl
      · simp only []; ring
    · intro R z phi R' z' phi' t hR hz hphi e
      obtain ⟨rfl, rfl, rfl⟩ := PosCyl.mk.inj e
      refine ((hasDerivAt_const t (0:ℝ)).congr_of_eventuallyEq ?_).congr_deriv ?_
      · filter_upwards [ev_sq hR hz h] with s hs
        rw [gradLambda_eq hD _ _ _ hs]
      · simp
  · intro hz0
    refine ⟨?_, ?_, ?_⟩
    · intro R z phi R' z' phi' t hR hz hphi e
      obtain ⟨rfl, rfl, rfl⟩ := PosCyl.mk.inj e
      refine (((hR.sub (hasDerivAt_A hD hR hz h)).mul_const (if z t ≥ 0 then 1 else -1)).congr_of_eventuallyEq ?_).congr_deriv ?_
      · filter_upwards [ev_sq hR hz h, ev_sign hz hz0] with s hs hsg
        rw [gradNu_eq hD _ _ _ hs, hsg]; rfl
      · simp only []; ring
    · intro R z phi R' z' phi' t hR hz hphi e
      obtain ⟨rfl, rfl, rfl⟩ := PosCyl.mk.inj e
      refine (((hz.sub (hasDerivAt_B hD hR hz h)).mul_const (if z t ≥ 0 then 1 else -1)).congr_of_eventuallyEq ?_).congr_deriv ?_
      · filter_upwards [ev_sq hR hz h, ev_sign hz hz0] with s hs hsg
        rw [gradNu_eq hD _ _ _ hs, hsg]; rfl
      · simp only []; ring
    · intro R z phi R' z' phi' t hR hz hphi e
      obtain ⟨rfl, rfl, rfl⟩ := PosCyl.mk.inj e
      refine ((hasDerivAt_const t (0:ℝ)).congr_of_eventuallyEq ?_).congr_deriv ?_
      · filter_upwards [ev_sq hR hz h] with s hs
        rw [gradNu_eq hD _ _ _ hs]
      · simp

/-- velocities: the returned rates are the time derivatives of the returned coordinates along any motion with the given
cylindrical velocity (off the axis; the azimuthal velocity is R times the rate of the azimuth) -/
theorem C58_velocity {D2 : ℝ} (hD : 0 < D2) (R z phi : ℝ → ℝ) (t vR vz vphi : ℝ) (hR : HasDerivAt R vR t)
    (hz : HasDerivAt z vz t) (hphi : HasDerivAt phi (vphi / R t) t) (h0 : R t ≠ 0) :
    ∃ q, vCylToProl D2 ⟨R t, z t, phi t, vR, vz, vphi⟩ = some q ∧
      (⟨q.lambda, q.nu, q.phi⟩ : PosProl) = cylToProl D2 ⟨R t, z t, phi t⟩ ∧
      HasDerivAt (fun s => (cylToProl D2 ⟨R s, z s, phi s⟩).lambda) q.lambdadot t ∧
      HasDerivAt (fun s => (cylToProl D2 ⟨R s, z s, phi s⟩).nu) q.nudot t ∧
      HasDerivAt (fun s => (cylToProl D2 ⟨R s, z s, phi s⟩).phi) q.phidot t := by
  obtain ⟨d, hd, h1, h2⟩ := C58_deriv_cyl_prol hD ⟨R t, z t, phi t⟩ (fun h => h0 h.1)
  refine ⟨_, by simp only [vCylToProl, PosVelCyl.pos, hd, Option.map_some]; rfl, rfl, ?_, ?_, ?_⟩
  · refine (h1 R z phi vR vz (vphi / R t) t hR hz hphi rfl).congr_deriv ?_
    simp
  · refine (h2 R z phi vR vz (vphi / R t) t hR hz hphi rfl).congr_deriv ?_
    simp
  · refine hphi.congr_deriv ?_
    simp only []
    split_ifs with hv
    · rfl
    · simp only [ne_eq, not_not] at hv; rw [hv, zero_div]

/-! ## C58: derivatives, prolate spheroidal → cylindrical -/

/-- the curve version of a partial derivative in the (λ,ν) plane -/
def IsGradProl (F : PosProl → ℝ) (p : PosProl) (g : GradProlSph) : Prop :=
  ∀ (l n phi : ℝ → ℝ) (l' n' phi' t : ℝ), HasDerivAt l l' t → HasDerivAt n n' t → HasDerivAt phi phi' t →
    (⟨l t, n t, phi t⟩ : PosProl) = p →
    HasDerivAt (fun s => F ⟨l s, n s, phi s⟩) (g.dlambda * l' + g.dnu * n' + g.dphi * phi') t

/-- R(λ,ν) as computed by the code (0 if the arguments are rejected) -/
noncomputable def Rof (D2 : ℝ) (q : PosProl) : ℝ := match prolToCyl D2 q with | some p => p.R | none => 0
/-- z(λ,ν) as computed by the code (0 if the arguments are rejected) -/
noncomputable def zof (D2 : ℝ) (q : PosProl) : ℝ := match prolToCyl D2 q with | some p => p.z | none => 0

theorem hasDerivAt_abs_of {n : ℝ → ℝ} {n' t : ℝ} (hn : HasDerivAt n n' t) (h : n t ≠ 0) :
    HasDerivAt (fun s => |n s|) ((if n t ≥ 0 then 1 else -1) * n') t := by
  have e : (fun s => |n s|) =ᶠ[nhds t] fun s => (if n t ≥ 0 then 1 else -1) * n s := by
    filter_upwards [ev_sign hn h] with s hs
    rw [← hs]
    split_ifs with h0
    · rw [abs_of_nonneg h0, one_mul]
    · rw [abs_of_neg (not_le.mp h0)]; ring
  exact (hn.const_mul _).congr_of_eventuallyEq e

/-- nearby points of a strictly valid point are valid -/
theorem ev_valid {D2 : ℝ} {l n : ℝ → ℝ} {l' n' t : ℝ} (hl : HasDerivAt l l' t) (hn : HasDerivAt n n' t)
    (h1 : D2 < l t) (h2 : |n t| < D2) : ∀ᶠ s in nhds t, ¬ (|n s| > D2 ∨ l s < D2) := by
  filter_upwards [hl.continuousAt.eventually_const_lt h1, hn.continuousAt.abs.eventually_lt_const h2] with s a b
  push Not; exact ⟨b.le, a.le⟩

/-- first derivatives of R and z over λ and ν -/
theorem C58_deriv_prol_cyl {D2 : ℝ} (hD : 0 < D2) (q : PosProl) (h1 : D2 < q.lambda) (h2 : |q.nu| < D2) (h3 : q.nu ≠ 0) :
    IsGradProl (Rof D2) q ⟨(derivProlCyl D2 q).dRdlambda, (derivProlCyl D2 q).dRdnu, 0⟩ ∧
    IsGradProl (zof D2) q ⟨(derivProlCyl D2 q).dzdlambda, (derivProlCyl D2 q).dzdnu, 0⟩ := by
  have hl0 : 0 < q.lambda - D2 := by linarith
  have hn0 : 0 < 1 - |q.nu| / D2 := by rw [sub_pos, div_lt_one hD]; exact h2
  have hna : 0 < |q.nu| := abs_pos.mpr h3
  have hnd : |q.nu| - D2 ≠ 0 := by linarith
  constructor
  · intro l n phi l' n' phi' t hl hn hphi e
    subst e
    simp only [] at *
    have hr := ((hl.sub_const D2).mul (((hasDerivAt_abs_of hn h3).div_const D2).const_sub 1)).sqrt (mul_pos hl0 hn0).ne'
    refine (hr.congr_of_eventuallyEq ?_).congr_deriv ?_
    · filter_upwards [ev_valid hl hn h1 h2] with s hs
      simp only [Rof, prolToCyl, hs, if_false, Pi.mul_apply]
    · simp only [derivProlCyl]
      have hsq : √((l t - D2) * (1 - |n t| / D2)) ^ 2 = (l t - D2) * (1 - |n t| / D2) := sq_sqrt (mul_pos hl0 hn0).le
      have hne : √((l t - D2) * (1 - |n t| / D2)) ≠ 0 := (sqrt_pos.mpr (mul_pos hl0 hn0)).ne'
      generalize √((l t - D2) * (1 - |n t| / D2)) = w at *
      generalize (if n t ≥ 0 then (1:ℝ) else -1) = sg at *
      generalize |n t| = a at *
      have e1 : 1 - a / D2 = -(a - D2) / D2 := by field_simp; ring
      rw [e1] at hsq ⊢
      have hl1 : l t - D2 ≠ 0 := hl0.ne'
      generalize l t - D2 = u at *
      generalize a - D2 = v at *
      field_simp
      field_simp at hsq
      norm_num
      linear_combination (- (l' * v + sg * n' * u)) * hsq
  · intro l n phi l' n' phi' t hl hn hphi e
    subst e
    simp only [] at *
    have hl2 : 0 < l t := by linarith
    have hpos : 0 < l t * |n t| / D2 := by positivity
    have hr := (((hl.mul (hasDerivAt_abs_of hn h3)).div_const D2).sqrt hpos.ne').mul_const (if n t ≥ 0 then 1 else -1)
    refine (hr.congr_of_eventuallyEq ?_).congr_deriv ?_
    · filter_upwards [ev_valid hl hn h1 h2, ev_sign hn h3] with s hs hsg
      simp only [zof, prolToCyl, hs, if_false, Pi.mul_apply, hsg]
    · simp only [derivProlCyl, Pi.mul_apply]
      have hsq : √(l t * |n t| / D2) ^ 2 = l t * |n t| / D2 := sq_sqrt hpos.le
      have hne : √(l t * |n t| / D2) ≠ 0 := (sqrt_pos.mpr hpos).ne'
      have hab : |n t| = (if n t ≥ 0 then 1 else -1) * n t := by
        split_ifs with h0
        · rw [abs_of_nonneg h0, one_mul]
        · rw [abs_of_neg (not_le.mp h0)]; ring
      have hsg2 : (if n t ≥ 0 then (1:ℝ) else -1) ^ 2 = 1 := by split_ifs <;> norm_num
      generalize √(l t * |n t| / D2) = w at *
      generalize (if n t ≥ 0 then (1:ℝ) else -1) = sg at *
      rw [hab] at hsq ⊢
      generalize n t = a at *
      generalize l t = u at *
      field_simp
      field_simp at hsq
      norm_num
      linear_combination (-sg * (l' * a + n' * u)) * hsq

/-- gradients of R and z as returned by the code -/
noncomputable def gradR (D2 : ℝ) (q : PosProl) : GradProlSph := ⟨(derivProlCyl D2 q).dRdlambda, (derivProlCyl D2 q).dRdnu, 0⟩
/-- gradients of R and z as returned by the code -/
noncomputable def gradZ (D2 : ℝ) (q : PosProl) : GradProlSph := ⟨(derivProlCyl D2 q).dzdlambda, (derivProlCyl D2 q).dzdnu, 0⟩

/-- second derivatives of R and z over λ and ν: the diagonal ones are as returned, but the mixed ones have the OPPOSITE
sign of the returned ones -/
theorem C58_deriv2_prol_cyl_partial {D2 : ℝ} (hD : 0 < D2) (q : PosProl) (h1 : D2 < q.lambda) (h2 : |q.nu| < D2) (h3 : q.nu ≠ 0) :
    let d := deriv2ProlCyl D2 q
    IsGradProl (fun q => (gradR D2 q).dlambda) q ⟨d.d2Rdlambda2, -d.d2Rdlambdadnu, 0⟩ ∧
    IsGradProl (fun q => (gradR D2 q).dnu) q ⟨-d.d2Rdlambdadnu, d.d2Rdnu2, 0⟩ ∧
    IsGradProl (fun q => (gradZ D2 q).dlambda) q ⟨d.d2zdlambda2, -d.d2zdlambdadnu, 0⟩ ∧
    IsGradProl (fun q => (gradZ D2 q).dnu) q ⟨-d.d2zdlambdadnu, d.d2zdnu2, 0⟩ := by
  obtain ⟨gR, gz⟩ := C58_deriv_prol_cyl hD q h1 h2 h3
  have hl0 : q.lambda - D2 ≠ 0 := by linarith
  have hl2 : q.lambda ≠ 0 := by linarith
  have hnd : |q.nu| - D2 ≠ 0 := by linarith
  have eR : ∀ q : PosProl, D2 < q.lambda → |q.nu| < D2 → Rof D2 q = √((q.lambda - D2) * (1 - |q.nu| / D2)) := by
    intro q a b; simp only [Rof, prolToCyl]; rw [if_neg (by push Not; exact ⟨b.le, a.le⟩)]
  have ez : ∀ q : PosProl, D2 < q.lambda → |q.nu| < D2 → zof D2 q = √(q.lambda * |q.nu| / D2) * (if q.nu ≥ 0 then 1 else -1) := by
    intro q a b; simp only [zof, prolToCyl]; rw [if_neg (by push Not; exact ⟨b.le, a.le⟩)]
  have evs : ∀ {l n : ℝ → ℝ} {l' n' t : ℝ}, HasDerivAt l l' t → HasDerivAt n n' t → D2 < l t → |n t| < D2 →
      ∀ᶠ s in nhds t, D2 < l s ∧ |n s| < D2 := by
    intro l n l' n' t hl hn a b
    filter_upwards [hl.continuousAt.eventually_const_lt a, hn.continuousAt.abs.eventually_lt_const b] with s c d
    exact ⟨c, d⟩
  have hsg : ∀ x : ℝ, (if x ≥ 0 then (1:ℝ) else -1) ≠ 0 := by intro x; split_ifs <;> norm_num
  have hsg2 : ∀ x : ℝ, (if x ≥ 0 then (1:ℝ) else -1) ^ 2 = 1 := by intro x; split_ifs <;> norm_num
  refine ⟨?_, ?_, ?_, ?_⟩
  · intro l n phi l' n' phi' t hl hn hphi e
    have g := gR l n phi l' n' phi' t hl hn hphi e
    subst e
    refine (((g.const_mul 0.5).div (hl.sub_const D2) hl0).congr_of_eventuallyEq ?_).congr_deriv ?_
    · filter_upwards [evs hl hn h1 h2] with s hs
      simp only [gradR, derivProlCyl, Pi.div_apply, eR ⟨l s, n s, phi s⟩ hs.1 hs.2]
    · simp only [derivProlCyl, deriv2ProlCyl, eR ⟨l t, n t, phi t⟩ h1 h2] at *
      have := hsg2 (n t); have := hsg (n t)
      generalize √((l t - D2) * (1 - |n t| / D2)) = w at *
      generalize (if n t ≥ 0 then (1:ℝ) else -1) = sg at *
      have k : sg⁻¹ = sg := by rw [inv_eq_of_mul_eq_one_left]; linarith
      rw [show (l t - D2) * (|n t| - D2) * sg = (l t - D2) * (|n t| - D2) * sg⁻¹ by rw [k]]
      field_simp; ring
  · intro l n phi l' n' phi' t hl hn hphi e
    have g := gR l n phi l' n' phi' t hl hn hphi e
    subst e
    refine ((((g.const_mul 0.5).div ((hasDerivAt_abs_of hn h3).sub_const D2) hnd).mul_const (if n t ≥ 0 then 1 else -1)).congr_of_eventuallyEq ?_).congr_deriv ?_
    · filter_upwards [evs hl hn h1 h2, ev_sign hn h3] with s hs hsgn
      simp only [gradR, derivProlCyl, Pi.div_apply, eR ⟨l s, n s, phi s⟩ hs.1 hs.2, hsgn]
    · simp only [derivProlCyl, deriv2ProlCyl, eR ⟨l t, n t, phi t⟩ h1 h2] at *
      have h2' := hsg2 (n t); have := hsg (n t)
      generalize √((l t - D2) * (1 - |n t| / D2)) = w at *
      generalize (if n t ≥ 0 then (1:ℝ) else -1) = sg at *
      have k : sg⁻¹ = sg := by rw [inv_eq_of_mul_eq_one_left]; linarith
      rw [show (l t - D2) * (|n t| - D2) * sg = (l t - D2) * (|n t| - D2) * sg⁻¹ by rw [k]]
      generalize |n t| - D2 = u at *
      generalize l t - D2 = v at *
      field_simp
      linear_combination (-(0.25:ℝ) * n' * v * w) * h2'
  · intro l n phi l' n' phi' t hl hn hphi e
    have g := gz l n phi l' n' phi' t hl hn hphi e
    subst e
    refine (((g.const_mul 0.5).div hl hl2).congr_of_eventuallyEq ?_).congr_deriv ?_
    · filter_upwards [evs hl hn h1 h2] with s hs
      simp only [gradZ, derivProlCyl, Pi.div_apply, ez ⟨l s, n s, phi s⟩ hs.1 hs.2]
    · simp only [derivProlCyl, deriv2ProlCyl, ez ⟨l t, n t, phi t⟩ h1 h2] at *
      generalize √(l t * |n t| / D2) * (if n t ≥ 0 then (1:ℝ) else -1) = w at *
      field_simp; ring
  · intro l n phi l' n' phi' t hl hn hphi e
    have g := gz l n phi l' n' phi' t hl hn hphi e
    subst e
    refine (((g.const_mul 0.5).div hn h3).congr_of_eventuallyEq ?_).congr_deriv ?_
    · filter_upwards [evs hl hn h1 h2] with s hs
      simp only [gradZ, derivProlCyl, Pi.div_apply, ez ⟨l s, n s, phi s⟩ hs.1 hs.2]
    · simp only [derivProlCyl, deriv2ProlCyl, ez ⟨l t, n t, phi t⟩ h1 h2] at *
      generalize √(l t * |n t| / D2) * (if n t ≥ 0 then (1:ℝ) else -1) = w at *
      field_simp; ring

/-- refutation: at every valid point off the axis and the plane the returned mixed second derivatives of R and of z are NOT
the mixed second derivatives -/
theorem C58_refuted_mixed {D2 : ℝ} (hD : 0 < D2) (q : PosProl) (h1 : D2 < q.lambda) (h2 : |q.nu| < D2) (h3 : q.nu ≠ 0) :
    let d := deriv2ProlCyl D2 q
    ¬ IsGradProl (fun q => (gradR D2 q).dlambda) q ⟨d.d2Rdlambda2, d.d2Rdlambdadnu, 0⟩ ∧
    ¬ IsGradProl (fun q => (gradZ D2 q).dlambda) q ⟨d.d2zdlambda2, d.d2zdlambdadnu, 0⟩ := by
  obtain ⟨a, -, b, -⟩ := C58_deriv2_prol_cyl_partial hD q h1 h2 h3
  have hl0 : 0 < q.lambda - D2 := by linarith
  have hn0 : 0 < 1 - |q.nu| / D2 := by rw [sub_pos, div_lt_one hD]; exact h2
  have hna : 0 < |q.nu| := abs_pos.mpr h3
  have hnd : |q.nu| - D2 ≠ 0 := by linarith
  have hl2 : 0 < q.lambda := by linarith
  have hsg : (if q.nu ≥ 0 then (1:ℝ) else -1) ≠ 0 := by split_ifs <;> norm_num
  have uniq : ∀ (F : PosProl → ℝ) (g g' : GradProlSph), IsGradProl F q g → IsGradProl F q g' → g.dnu = g'.dnu := by
    intro F g g' hg hg'
    have e1 := hg (fun _ => q.lambda) id (fun _ => q.phi) 0 1 0 q.nu (hasDerivAt_const _ _) (hasDerivAt_id _) (hasDerivAt_const _ _) rfl
    have e2 := hg' (fun _ => q.lambda) id (fun _ => q.phi) 0 1 0 q.nu (hasDerivAt_const _ _) (hasDerivAt_id _) (hasDerivAt_const _ _) rfl
    have := e1.unique e2
    simpa using this
  constructor
  · intro h
    have e := uniq _ _ _ a h
    simp only [deriv2ProlCyl] at e
    have hp : √((q.lambda - D2) * (1 - |q.nu| / D2)) ≠ 0 := (sqrt_pos.mpr (mul_pos hl0 hn0)).ne'
    have : -0.25 * √((q.lambda - D2) * (1 - |q.nu| / D2)) / ((q.lambda - D2) * (|q.nu| - D2) * (if q.nu ≥ 0 then (1:ℝ) else -1)) ≠ 0 :=
      div_ne_zero (mul_ne_zero (by norm_num) hp) (mul_ne_zero (mul_ne_zero hl0.ne' hnd) hsg)
    apply this; linarith
  · intro h
    have e := uniq _ _ _ b h
    simp only [deriv2ProlCyl] at e
    have hp : √(q.lambda * |q.nu| / D2) ≠ 0 := (sqrt_pos.mpr (by positivity)).ne'
    have : -0.25 * (√(q.lambda * |q.nu| / D2) * (if q.nu ≥ 0 then (1:ℝ) else -1)) / (q.lambda * q.nu) ≠ 0 :=
      div_ne_zero (mul_ne_zero (by norm_num) (mul_ne_zero hp hsg)) (mul_ne_zero hl2.ne' h3)
    apply this; linarith

/-! ## C58: gradients and Hessians of functions -/

/-- gradient of a function given in prolate spheroidal coordinates, converted to cylindrical ones -/
theorem C58_grad_prol_cyl {D2 : ℝ} (hD : 0 < D2) (F : PosProl → ℝ) (p : PosCyl) (g : GradProlSph)
    (hp : ¬ (p.R = 0 ∧ p.z ^ 2 = D2)) (hF : IsGradProl F (cylToProl D2 p) g) :
    ∃ d, derivCylProl D2 p = some d ∧ IsGradCyl (fun q => F (cylToProl D2 q)) p (toGradProlSphCyl g d) := by
  obtain ⟨d, hd, k1, k2⟩ := C58_deriv_cyl_prol hD p hp
  refine ⟨d, hd, ?_⟩
  intro R z phi R' z' phi' t hR hz hphi e
  have a := k1 R z phi R' z' phi' t hR hz hphi e
  have b := k2 R z phi R' z' phi' t hR hz hphi e
  subst e
  refine (hF _ _ _ _ _ _ t a b hphi rfl).congr_deriv ?_
  simp only [toGradProlSphCyl]; ring

/-- gradient of a function given in cylindrical coordinates, converted to prolate spheroidal ones -/
theorem C58_grad_cyl_prol {D2 : ℝ} (hD : 0 < D2) (F : PosCyl → ℝ) (q : PosProl) (p : PosCyl) (g : GradCyl)
    (h1 : D2 < q.lambda) (h2 : |q.nu| < D2) (h3 : q.nu ≠ 0) (hpq : prolToCyl D2 q = some p) (hF : IsGradCyl F p g) :
    IsGradProl (fun q => F ⟨Rof D2 q, zof D2 q, q.phi⟩) q (toGradCylProlSph g (derivProlCyl D2 q)) := by
  obtain ⟨k1, k2⟩ := C58_deriv_prol_cyl hD q h1 h2 h3
  intro l n phi l' n' phi' t hl hn hphi e
  have a := k1 l n phi l' n' phi' t hl hn hphi e
  have b := k2 l n phi l' n' phi' t hl hn hphi e
  subst e
  refine (hF _ _ _ _ _ _ t a b hphi ?_).congr_deriv ?_
  · have hphi' : p.phi = phi t := by
      unfold prolToCyl at hpq; split_ifs at hpq <;>
      exact (congrArg PosCyl.phi (Option.some.inj hpq)).symm
    simp only [Rof, zof, hpq]
    ext <;> simp [hphi']
  · simp only [toGradCylProlSph]; ring

/-- Hessian of an axisymmetric function given in prolate spheroidal coordinates, converted to cylindrical ones (off the
plane z=0) -/
theorem C58_hess_prol_cyl {D2 : ℝ} (hD : 0 < D2) (G : PosProl → GradProlSph) (p : PosCyl) (H : HessProlSph)
    (hp : p.R ≠ 0) (hz0 : p.z ≠ 0) (h1 : IsGradProl (fun q => (G q).dlambda) (cylToProl D2 p) ⟨H.dlambda2, H.dlambdadnu, 0⟩)
    (h2 : IsGradProl (fun q => (G q).dnu) (cylToProl D2 p) ⟨H.dlambdadnu, H.dnu2, 0⟩) (h3 : ∀ q, (G q).dphi = 0) :
    ∃ d d2, derivCylProl D2 p = some d ∧ deriv2CylProl D2 p = some d2 ∧
      IsHessCyl (fun q => match derivCylProl D2 q with
        | some d => toGradProlSphCyl (G (cylToProl D2 q)) d | none => ⟨0, 0, 0⟩) p
        (toHessProlSphCyl (G (cylToProl D2 p)) H d d2) := by
  have hp' : ¬ (p.R = 0 ∧ p.z ^ 2 = D2) := fun h => hp h.1
  obtain ⟨d2, hd2, ⟨a1, a2, -⟩, hnu⟩ := C58_deriv2_cyl_prol hD p hp'
  obtain ⟨b1, b2, -⟩ := hnu hz0
  obtain ⟨d, hd, c1⟩ := C58_grad_prol_cyl hD _ p _ hp' h1
  obtain ⟨d', hd', c2⟩ := C58_grad_prol_cyl hD _ p _ hp' h2
  obtain rfl : d' = d := by rw [hd] at hd'; exact (Option.some.inj hd').symm
  refine ⟨d', d2, hd, hd2, ?_⟩
  have hgL : gradLambda D2 p = ⟨d'.dlambdadR, d'.dlambdadz, 0⟩ := by simp only [gradLambda, hd]
  have hgN : gradNu D2 p = ⟨d'.dnudR, d'.dnudz, 0⟩ := by simp only [gradNu, hd]
  have form : ∀ q, (match derivCylProl D2 q with
        | some d => toGradProlSphCyl (G (cylToProl D2 q)) d | none => ⟨0, 0, 0⟩) =
      (⟨(G (cylToProl D2 q)).dlambda * (gradLambda D2 q).dR + (G (cylToProl D2 q)).dnu * (gradNu D2 q).dR,
        (G (cylToProl D2 q)).dlambda * (gradLambda D2 q).dz + (G (cylToProl D2 q)).dnu * (gradNu D2 q).dz, 0⟩ : GradCyl) := by
    intro q
    cases h : derivCylProl D2 q with
    | none => simp [gradLambda, gradNu, h]
    | some d => simp [gradLambda, gradNu, h, toGradProlSphCyl, h3]
  simp only [form]
  refine ⟨?_, ?_, ?_⟩
  · intro R z phi R' z' phi' t hR hz hphi e
    have e1 := c1 R z phi R' z' phi' t hR hz hphi e
    have e2 := c2 R z phi R' z' phi' t hR hz hphi e
    have e3 := a1 R z phi R' z' phi' t hR hz hphi e
    have e4 := b1 R z phi R' z' phi' t hR hz hphi e
    refine ((e1.mul e3).add (e2.mul e4)).congr_deriv ?_
    rw [← e] at hgL hgN ⊢
    simp only [hgL, hgN, toGradProlSphCyl, toHessProlSphCyl]; ring
  · intro R z phi R' z' phi' t hR hz hphi e
    have e1 := c1 R z phi R' z' phi' t hR hz hphi e
    have e2 := c2 R z phi R' z' phi' t hR hz hphi e
    have e3 := a2 R z phi R' z' phi' t hR hz hphi e
    have e4 := b2 R z phi R' z' phi' t hR hz hphi e
    refine ((e1.mul e3).add (e2.mul e4)).congr_deriv ?_
    rw [← e] at hgL hgN ⊢
    simp only [hgL, hgN, toGradProlSphCyl, toHessProlSphCyl]; ring
  · intro R z phi R' z' phi' t hR hz hphi e
    refine (hasDerivAt_const t (0:ℝ)).congr_deriv ?_
    simp [toHessProlSphCyl]

/-- non-triviality: Δ²=5, the point R=2, z=−2 has λ=(13+√89)/2 and negative ν; the hypotheses above hold there -/
example : let q := cylToProl 5 ⟨2, -2, 1⟩
    q.lambda = (13 + √89) / 2 ∧ q.nu < 0 ∧ prolToCyl 5 q = some ⟨2, -2, 1⟩ ∧ 5 < q.lambda ∧ |q.nu| < 5 := by
  have h5 : (0:ℝ) < 5 := by norm_num
  have hs : sq 5 2 (-2) = √89 := by rw [sq]; norm_num
  have h9 : 9 < √89 := by rw [lt_sqrt (by norm_num)]; norm_num
  refine ⟨?_, (C58_equation h5 ⟨2, -2, 1⟩).2.2.2.2.2.1 (by norm_num), C58_cyl_prol_cyl h5 _ (by norm_num), ?_, ?_⟩
  · rw [cylToProl_eq h5]; simp only [hs]; norm_num
  · rw [cylToProl_eq h5]; simp only [hs]; linarith
  · rw [abs_nu h5]; simp only [hs]; norm_num; linarith

end Verif.Coord.Prol
