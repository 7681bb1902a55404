import Verif.Pot.Analytic
import Mathlib.Analysis.SpecialFunctions.Trigonometric.InverseDeriv
import Mathlib.MeasureTheory.Integral.IntervalIntegral.FundThmCalculus
import Mathlib.MeasureTheory.Integral.IntervalIntegral.Basic

/-! # C100: Ferrers potential

Model of /repo/src/potential_ferrers.cpp in exact real arithmetic. The incomplete elliptic integrals are computed by the GSL library; here they are represented by their definitions. The root-finder that determines the ellipsoidal coordinate of a point outside the density distribution is represented by a function `lam`, about which the theorems assume that it returns the exact root (which is shown to exist and be unique). -/

namespace Verif.Pot

open Real Verif.Coord intervalIntegral

/-- math_specfunc.cpp:309-311 (GSL): incomplete elliptic integral of the first kind -/
noncomputable def ellintF (phi k : ℝ) : ℝ := ∫ t in (0)..phi, 1 / √(1 - k ^ 2 * sin t ^ 2)
/-- math_specfunc.cpp:313-315 (GSL): incomplete elliptic integral of the second kind -/
noncomputable def ellintE (phi k : ℝ) : ℝ := ∫ t in (0)..phi, √(1 - k ^ 2 * sin t ^ 2)

/-- parameters of the potential: the semiaxes and the mass -/
structure FerrersP where (a b c mass : ℝ)

/-- potential_ferrers.cpp:17-25: constructor -/
noncomputable def ferrersCreate (mass R p q : ℝ) : Option FerrersP :=
  if R > 0 ∧ (1 > p ∧ p > q ∧ q > 0) then some ⟨R, R * p, R * q, mass⟩ else none

namespace FerrersP

variable (P : FerrersP)

/-- potential_ferrers.cpp:18 -/
noncomputable def rho0 : ℝ := P.mass * 105 / (32 * π * P.a * P.b * P.c)

/-- potential_ferrers.cpp:27-31 -/
noncomputable def density (pos : PosCar) : ℝ :=
  let m2 := (pos.x / P.a) ^ 2 + (pos.y / P.b) ^ 2 + (pos.z / P.c) ^ 2
  if m2 > 1 then 0 else P.rho0 * (1 - m2) ^ 2

/-- potential_ferrers.cpp:139 -/
noncomputable def denom (l : ℝ) : ℝ := √((l + P.a * P.a) * (l + P.b * P.b) * (l + P.c * P.c))
/-- potential_ferrers.cpp:140 -/
noncomputable def argphi (l : ℝ) : ℝ := arcsin √((P.a * P.a - P.c * P.c) / (P.a * P.a + l))
/-- potential_ferrers.cpp:136,137,141,142: second argument of the elliptic integrals -/
noncomputable def modk : ℝ := √(P.a * P.a - P.b * P.b) / √(P.a * P.a - P.c * P.c)

/-- potential_ferrers.cpp:134-164, computeW: the element number i of the array -/
noncomputable def W0 (l : ℝ) : ℝ := 2 * ellintF (P.argphi l) P.modk / √(P.a * P.a - P.c * P.c)
/-- potential_ferrers.cpp:144 -/
noncomputable def W1 (l : ℝ) : ℝ := 2 * (ellintF (P.argphi l) P.modk - ellintE (P.argphi l) P.modk) / ((P.a * P.a - P.b * P.b) * √(P.a * P.a - P.c * P.c))
/-- potential_ferrers.cpp:145 -/
noncomputable def W3 (l : ℝ) : ℝ := 2 / (P.b * P.b - P.c * P.c) * (P.b * P.b + l) / P.denom l - 2 * ellintE (P.argphi l) P.modk / (P.b * P.b - P.c * P.c) / √(P.a * P.a - P.c * P.c)
/-- potential_ferrers.cpp:146 -/
noncomputable def W2 (l : ℝ) : ℝ := 2 / P.denom l - P.W1 l - P.W3 l
/-- potential_ferrers.cpp:147 -/
noncomputable def W4 (l : ℝ) : ℝ := (P.W2 l - P.W1 l) / (P.a * P.a - P.b * P.b)
/-- potential_ferrers.cpp:148 -/
noncomputable def W5 (l : ℝ) : ℝ := (P.W3 l - P.W2 l) / (P.b * P.b - P.c * P.c)
/-- potential_ferrers.cpp:149 -/
noncomputable def W6 (l : ℝ) : ℝ := -(P.W1 l - P.W3 l) / (P.a * P.a - P.c * P.c)
/-- potential_ferrers.cpp:150 -/
noncomputable def W7 (l : ℝ) : ℝ := (2 / P.denom l / (P.a * P.a + l) - P.W4 l - P.W6 l) / 3
/-- potential_ferrers.cpp:151 -/
noncomputable def W8 (l : ℝ) : ℝ := (2 / P.denom l / (P.b * P.b + l) - P.W5 l - P.W4 l) / 3
/-- potential_ferrers.cpp:152 -/
noncomputable def W9 (l : ℝ) : ℝ := (2 / P.denom l / (P.c * P.c + l) - P.W6 l - P.W5 l) / 3
/-- potential_ferrers.cpp:153 -/
noncomputable def W10 (l : ℝ) : ℝ := -(P.W4 l - P.W5 l) / (P.a * P.a - P.c * P.c)
/-- potential_ferrers.cpp:154 -/
noncomputable def W11 (l : ℝ) : ℝ := (P.W8 l - P.W4 l) / (P.a * P.a - P.b * P.b)
/-- potential_ferrers.cpp:155 -/
noncomputable def W12 (l : ℝ) : ℝ := (P.W9 l - P.W5 l) / (P.b * P.b - P.c * P.c)
/-- potential_ferrers.cpp:156 -/
noncomputable def W13 (l : ℝ) : ℝ := -(P.W7 l - P.W6 l) / (P.a * P.a - P.c * P.c)
/-- potential_ferrers.cpp:157 -/
noncomputable def W14 (l : ℝ) : ℝ := (P.W4 l - P.W7 l) / (P.a * P.a - P.b * P.b)
/-- potential_ferrers.cpp:158 -/
noncomputable def W15 (l : ℝ) : ℝ := (P.W5 l - P.W8 l) / (P.b * P.b - P.c * P.c)
/-- potential_ferrers.cpp:159 -/
noncomputable def W16 (l : ℝ) : ℝ := -(P.W6 l - P.W9 l) / (P.a * P.a - P.c * P.c)
/-- potential_ferrers.cpp:160 -/
noncomputable def W17 (l : ℝ) : ℝ := (2 / P.denom l / (P.a * P.a + l) ^ 2 - P.W14 l - P.W13 l) / 5
/-- potential_ferrers.cpp:161 -/
noncomputable def W18 (l : ℝ) : ℝ := (2 / P.denom l / (P.b * P.b + l) ^ 2 - P.W15 l - P.W11 l) / 5
/-- potential_ferrers.cpp:162 -/
noncomputable def W19 (l : ℝ) : ℝ := (2 / P.denom l / (P.c * P.c + l) ^ 2 - P.W16 l - P.W12 l) / 5

/-- potential_ferrers.cpp:97-131: potential and its derivatives for the array W computed at the given value of lambda -/
noncomputable def evalW (pos : PosCar) (l : ℝ) : OutCar :=
  let X2 := pos.x ^ 2
  let Y2 := pos.y ^ 2
  let Z2 := pos.z ^ 2
  let mult := 2 * π * P.rho0 * P.a * P.b * P.c
  { pot := -π / 3 * P.rho0 * P.a * P.b * P.c * (P.W0 l - 6 * P.W10 l * X2 * Y2 * Z2
      + X2 * (X2 * (3 * P.W7 l - X2 * P.W17 l) + 3 * Y2 * (2 * P.W4 l - Y2 * P.W11 l - X2 * P.W14 l) - 3 * P.W1 l)
      + Y2 * (Y2 * (3 * P.W8 l - Y2 * P.W18 l) + 3 * Z2 * (2 * P.W5 l - Z2 * P.W12 l - Y2 * P.W15 l) - 3 * P.W2 l)
      + Z2 * (Z2 * (3 * P.W9 l - Z2 * P.W19 l) + 3 * X2 * (2 * P.W6 l - X2 * P.W13 l - Z2 * P.W16 l) - 3 * P.W3 l))
    grad :=
    { dx := pos.x * mult * (P.W1 l + X2 * (X2 * P.W17 l + 2 * Y2 * P.W14 l - 2 * P.W7 l) +
        Y2 * (Y2 * P.W11 l + 2 * Z2 * P.W10 l - 2 * P.W4 l) + Z2 * (Z2 * P.W16 l + 2 * X2 * P.W13 l - 2 * P.W6 l))
      dy := pos.y * mult * (P.W2 l + X2 * (X2 * P.W14 l + 2 * Y2 * P.W11 l - 2 * P.W4 l) +
        Y2 * (Y2 * P.W18 l + 2 * Z2 * P.W15 l - 2 * P.W8 l) + Z2 * (Z2 * P.W12 l + 2 * X2 * P.W10 l - 2 * P.W5 l))
      dz := pos.z * mult * (P.W3 l + X2 * (X2 * P.W13 l + 2 * Y2 * P.W10 l - 2 * P.W6 l) +
        Y2 * (Y2 * P.W15 l + 2 * Z2 * P.W12 l - 2 * P.W5 l) + Z2 * (Z2 * P.W19 l + 2 * X2 * P.W16 l - 2 * P.W9 l)) }
    hess :=
    { dx2 := mult * (P.W1 l + X2 * (5 * X2 * P.W17 l + 6 * Y2 * P.W14 l - 6 * P.W7 l) +
        Y2 * (Y2 * P.W11 l + 2 * Z2 * P.W10 l - 2 * P.W4 l) + Z2 * (Z2 * P.W16 l + 6 * X2 * P.W13 l - 2 * P.W6 l))
      dy2 := mult * (P.W2 l + X2 * (X2 * P.W14 l + 6 * Y2 * P.W11 l - 2 * P.W4 l) +
        Y2 * (5 * Y2 * P.W18 l + 6 * Z2 * P.W15 l - 6 * P.W8 l) + Z2 * (Z2 * P.W12 l + 2 * X2 * P.W10 l - 2 * P.W5 l))
      dz2 := mult * (P.W3 l + X2 * (X2 * P.W13 l + 2 * Y2 * P.W10 l - 2 * P.W6 l) +
        Y2 * (Y2 * P.W15 l + 6 * Z2 * P.W12 l - 2 * P.W5 l) + Z2 * (5 * Z2 * P.W19 l + 6 * X2 * P.W16 l - 6 * P.W9 l))
      dxdy := mult * 4 * pos.x * pos.y * (X2 * P.W14 l + Y2 * P.W11 l + Z2 * P.W10 l - P.W4 l)
      dydz := mult * 4 * pos.y * pos.z * (X2 * P.W10 l + Y2 * P.W15 l + Z2 * P.W12 l - P.W5 l)
      dxdz := mult * 4 * pos.z * pos.x * (X2 * P.W13 l + Y2 * P.W10 l + Z2 * P.W16 l - P.W6 l) } }

/-- potential_ferrers.cpp:64-86: expansion at large radii -/
noncomputable def evalFar (pos : PosCar) : OutCar :=
  let X2 := pos.x ^ 2
  let Y2 := pos.y ^ 2
  let Z2 := pos.z ^ 2
  let r2 := X2 + Y2 + Z2
  let Moverr := (32 * π / 105) * P.rho0 * P.a * P.b * P.c / √r2
  let Moverr3 := Moverr / r2
  let C20 := 1 / 36 * (2 * P.c * P.c - P.a * P.a - P.b * P.b)
  let C22 := 1 / 12 * (P.b * P.b - P.a * P.a)
  let add := 5 * (C20 * (2 * Z2 - X2 - Y2) + C22 * (Y2 - X2)) / (r2 * r2)
  { pot := -Moverr * (1 + (1 / 36 * (2 * P.c * P.c - P.a * P.a - P.b * P.b) * (2 * Z2 - X2 - Y2) + 1 / 12 * (P.b * P.b - P.a * P.a) * (Y2 - X2)) / (r2 * r2))
    grad := ⟨pos.x * Moverr3 * (1 + add + 2 * (C20 + C22) / r2), pos.y * Moverr3 * (1 + add + 2 * (C20 - C22) / r2), pos.z * Moverr3 * (1 + add - 4 * C20 / r2)⟩
    hess :=
    { dx2 := Moverr3 * (1 - 3 * X2 / r2 + add * (1 - 7 * X2 / r2) + 2 * (C20 + C22) / r2 * (1 - 10 * X2 / r2))
      dy2 := Moverr3 * (1 - 3 * Y2 / r2 + add * (1 - 7 * Y2 / r2) + 2 * (C20 - C22) / r2 * (1 - 10 * Y2 / r2))
      dz2 := Moverr3 * (1 - 3 * Z2 / r2 + add * (1 - 7 * Z2 / r2) - 4 * C20 / r2 * (1 - 10 * Z2 / r2))
      dxdy := Moverr3 * pos.x * pos.y / r2 * (-3 - add * 7 - 20 * C20 / r2)
      dydz := Moverr3 * pos.y * pos.z / r2 * (-3 - add * 7 + 10 * (C20 + C22) / r2)
      dxdz := Moverr3 * pos.z * pos.x / r2 * (-3 - add * 7 + 10 * (C20 - C22) / r2) } }

/-- potential_ferrers.cpp:33-48: the function whose root is lambda, plus one -/
noncomputable def ellip (pos : PosCar) (l : ℝ) : ℝ := pos.x ^ 2 / (l + P.a * P.a) + pos.y ^ 2 / (l + P.b * P.b) + pos.z ^ 2 / (l + P.c * P.c)

/-- potential_ferrers.cpp:50-132, evalCar at a finite position; `lam` is the result of the root-finder -/
noncomputable def eval (lam : PosCar → ℝ) (pos : PosCar) : OutCar :=
  let m2 := pos.x ^ 2 / (P.a * P.a) + pos.y ^ 2 / (P.b * P.b) + pos.z ^ 2 / (P.c * P.c)
  let r2 := pos.x ^ 2 + pos.y ^ 2 + pos.z ^ 2
  if r2 > (10 * P.a) ^ 2 then P.evalFar pos
  else if m2 > 1 then P.evalW pos (lam pos)
  else P.evalW pos 0

end FerrersP

/-! ## elliptic integrals -/

theorem hasDerivAt_ellintF {k : ℝ} (h1 : k ^ 2 < 1) (phi : ℝ) : HasDerivAt (fun p => ellintF p k) (1 / √(1 - k ^ 2 * sin phi ^ 2)) phi := by
  have pos : ∀ t, 0 < 1 - k ^ 2 * sin t ^ 2 := fun t => by nlinarith [sin_sq_le_one t, sq_nonneg k]
  have c : Continuous fun t => 1 / √(1 - k ^ 2 * sin t ^ 2) :=
    continuous_const.div (by fun_prop) fun t => (sqrt_pos.mpr (pos t)).ne'
  exact integral_hasDerivAt_right (c.intervalIntegrable _ _) (c.stronglyMeasurableAtFilter _ _) c.continuousAt

theorem hasDerivAt_ellintE {k : ℝ} (phi : ℝ) : HasDerivAt (fun p => ellintE p k) √(1 - k ^ 2 * sin phi ^ 2) phi := by
  have c : Continuous fun t => √(1 - k ^ 2 * sin t ^ 2) := by fun_prop
  exact integral_hasDerivAt_right (c.intervalIntegrable _ _) (c.stronglyMeasurableAtFilter _ _) c.continuousAt

namespace FerrersP

/-- what the constructor guarantees -/
structure Ok (P : FerrersP) : Prop where
  c0 : 0 < P.c
  cb : P.c < P.b
  ba : P.b < P.a

theorem ok_create {mass R p q : ℝ} {P : FerrersP} (h : ferrersCreate mass R p q = some P) : P.Ok := by
  rw [ferrersCreate] at h
  split_ifs at h with c
  obtain ⟨a, b, d, e⟩ := c
  cases h
  exact ⟨by show 0 < R * q; positivity, by show R * q < R * p; nlinarith, by show R * p < R; nlinarith⟩

variable {P : FerrersP}

theorem Ok.bc2 (h : P.Ok) : 0 < P.b * P.b - P.c * P.c := by nlinarith [h.c0, h.cb]
theorem Ok.ab2 (h : P.Ok) : 0 < P.a * P.a - P.b * P.b := by nlinarith [h.c0, h.cb, h.ba]
theorem Ok.ac2 (h : P.Ok) : 0 < P.a * P.a - P.c * P.c := by nlinarith [h.c0, h.cb, h.ba]

theorem denom_sq (h : P.Ok) {l : ℝ} (hl : 0 ≤ l) : P.denom l ^ 2 = (l + P.a * P.a) * (l + P.b * P.b) * (l + P.c * P.c) ∧ 0 < P.denom l := by
  have := h.c0
  have : 0 < P.b := by linarith [h.cb]
  have : 0 < P.a := by linarith [h.ba]
  have hp : 0 < (l + P.a * P.a) * (l + P.b * P.b) * (l + P.c * P.c) := by positivity
  exact ⟨sq_sqrt hp.le, sqrt_pos.mpr hp⟩

/-- the derivative of the argument of elliptic integrals, and the values of the roots -/
theorem argphi_deriv (h : P.Ok) {l : ℝ} (hl : 0 ≤ l) :
    HasDerivAt P.argphi (-(√(P.a * P.a - P.c * P.c)) / (2 * (l + P.a * P.a) * √(l + P.c * P.c))) l ∧
      √(1 - P.modk ^ 2 * sin (P.argphi l) ^ 2) = √(l + P.b * P.b) / √(l + P.a * P.a) := by
  have c0 := h.c0
  have b0 : 0 < P.b := by linarith [h.cb]
  have a0 : 0 < P.a := by linarith [h.ba]
  have A : 0 < l + P.a * P.a := by positivity
  have B : 0 < l + P.b * P.b := by positivity
  have C : 0 < l + P.c * P.c := by positivity
  have ac := h.ac2
  have ab := h.ab2
  have es : ∀ l : ℝ, √((P.a * P.a - P.c * P.c) / (P.a * P.a + l)) = √(P.a * P.a - P.c * P.c) / √(l + P.a * P.a) := by
    intro l; rw [sqrt_div ac.le, add_comm]
  set s := √(P.a * P.a - P.c * P.c) / √(l + P.a * P.a) with hs
  have s2 : s ^ 2 = (P.a * P.a - P.c * P.c) / (l + P.a * P.a) := by rw [hs, div_pow, sq_sqrt ac.le, sq_sqrt A.le]
  have s0 : 0 < s := by rw [hs]; exact div_pos (sqrt_pos.mpr ac) (sqrt_pos.mpr A)
  have s1 : s < 1 := by
    have : s ^ 2 < 1 := by rw [s2, div_lt_one A]; linarith
    nlinarith
  constructor
  · have d0 : HasDerivAt (fun l => √(l + P.a * P.a)) (1 / (2 * √(l + P.a * P.a))) l := ((hasDerivAt_id l).add_const _).sqrt A.ne'
    have d1 : HasDerivAt (fun l => √((P.a * P.a - P.c * P.c) / (P.a * P.a + l))) (-(√(P.a * P.a - P.c * P.c)) / (2 * √(l + P.a * P.a) * (l + P.a * P.a))) l := by
      have := (hasDerivAt_const l √(P.a * P.a - P.c * P.c)).div d0 (sqrt_pos.mpr A).ne'
      refine (this.congr_deriv ?_).congr_of_eventuallyEq (Filter.Eventually.of_forall fun l => es l)
      rw [sq_sqrt A.le]
      have := (sqrt_pos.mpr A).ne'
      field_simp
      ring
    have d2 := (hasDerivAt_arcsin (x := √((P.a * P.a - P.c * P.c) / (P.a * P.a + l))) (by rw [es]; linarith) (by rw [es]; exact s1.ne)).comp l d1
    refine d2.congr_deriv ?_
    rw [es, ← hs]
    have e1 : √(1 - s ^ 2) = √(l + P.c * P.c) / √(l + P.a * P.a) := by
      rw [← sqrt_div C.le, s2]; congr 1; field_simp; ring
    rw [e1]
    have hA := sqrt_pos.mpr A
    have hC := sqrt_pos.mpr C
    field_simp
  · rw [argphi, es, sin_arcsin (by linarith) s1.le, s2, modk, div_pow, sq_sqrt ab.le, sq_sqrt ac.le, ← sqrt_div B.le, div_mul_div_cancel₀ ac.ne']
    congr 1
    field_simp
    ring

theorem modk_lt (h : P.Ok) : P.modk ^ 2 < 1 := by
  rw [modk, div_pow, sq_sqrt h.ab2.le, sq_sqrt h.ac2.le, div_lt_one h.ac2]
  nlinarith [h.bc2]

theorem denom_eq (_ : P.Ok) {l : ℝ} (hl : 0 ≤ l) : P.denom l = √(l + P.a * P.a) * √(l + P.b * P.b) * √(l + P.c * P.c) := by
  have ha := mul_self_nonneg P.a
  have hb := mul_self_nonneg P.b
  rw [denom, sqrt_mul (mul_nonneg (by linarith) (by linarith)), sqrt_mul (by linarith)]

theorem dF (h : P.Ok) {l : ℝ} (hl : 0 ≤ l) : HasDerivAt (fun l => ellintF (P.argphi l) P.modk) (-(√(P.a * P.a - P.c * P.c)) / (2 * P.denom l)) l := by
  obtain ⟨d, e⟩ := argphi_deriv h hl
  refine ((hasDerivAt_ellintF (modk_lt h) (P.argphi l)).comp l d).congr_deriv ?_
  rw [e, denom_eq h hl]
  have c0 := h.c0
  have b0 : 0 < P.b := by linarith [h.cb]
  have a0 : 0 < P.a := by linarith [h.ba]
  have hA : 0 < √(l + P.a * P.a) := sqrt_pos.mpr (by positivity)
  have hB : 0 < √(l + P.b * P.b) := sqrt_pos.mpr (by positivity)
  have hC : 0 < √(l + P.c * P.c) := sqrt_pos.mpr (by positivity)
  have A2 : l + P.a * P.a = √(l + P.a * P.a) ^ 2 := (sq_sqrt (by positivity)).symm
  generalize √(l + P.a * P.a) = sA at *
  rw [A2]
  field_simp

theorem dE (h : P.Ok) {l : ℝ} (hl : 0 ≤ l) : HasDerivAt (fun l => ellintE (P.argphi l) P.modk) (-(√(P.a * P.a - P.c * P.c)) * (l + P.b * P.b) / (2 * P.denom l * (l + P.a * P.a))) l := by
  obtain ⟨d, e⟩ := argphi_deriv h hl
  refine ((hasDerivAt_ellintE (P.argphi l)).comp l d).congr_deriv ?_
  rw [e, denom_eq h hl]
  have c0 := h.c0
  have b0 : 0 < P.b := by linarith [h.cb]
  have a0 : 0 < P.a := by linarith [h.ba]
  have hA : 0 < √(l + P.a * P.a) := sqrt_pos.mpr (by positivity)
  have hB : 0 < √(l + P.b * P.b) := sqrt_pos.mpr (by positivity)
  have hC : 0 < √(l + P.c * P.c) := sqrt_pos.mpr (by positivity)
  have A2 : l + P.a * P.a = √(l + P.a * P.a) ^ 2 := (sq_sqrt (by positivity)).symm
  have B2 : l + P.b * P.b = √(l + P.b * P.b) ^ 2 := (sq_sqrt (by positivity)).symm
  generalize √(l + P.a * P.a) = sA at *
  generalize √(l + P.b * P.b) = sB at *
  rw [A2, B2]
  field_simp

/-- derivative of 2/Δ times powers -/
theorem dDen (h : P.Ok) {l : ℝ} (hl : 0 ≤ l) : HasDerivAt (fun l => 1 / P.denom l) (-(1 / P.denom l) / 2 * (1 / (l + P.a * P.a) + 1 / (l + P.b * P.b) + 1 / (l + P.c * P.c))) l := by
  obtain ⟨e, p⟩ := denom_sq h hl
  have c0 := h.c0
  have b0 : 0 < P.b := by linarith [h.cb]
  have a0 : 0 < P.a := by linarith [h.ba]
  have A : 0 < l + P.a * P.a := by positivity
  have B : 0 < l + P.b * P.b := by positivity
  have C : 0 < l + P.c * P.c := by positivity
  have d := (((((hasDerivAt_id l).add_const (P.a * P.a)).mul ((hasDerivAt_id l).add_const (P.b * P.b))).mul ((hasDerivAt_id l).add_const (P.c * P.c))).sqrt (by simp only [id, Pi.mul_apply]; positivity))
  have d' : HasDerivAt P.denom _ l := d
  refine (((hasDerivAt_const l (1 : ℝ)).div d' p.ne')).congr_deriv ?_
  simp only [id, Pi.mul_apply]
  have e' : √((l + P.a * P.a) * (l + P.b * P.b) * (l + P.c * P.c)) = P.denom l := rfl
  rw [e', e]
  have : P.denom l ≠ 0 := p.ne'
  field_simp
  rw [e]
  ring

theorem dW0 (h : P.Ok) {l : ℝ} (hl : 0 ≤ l) : HasDerivAt P.W0 (-1 / (P.denom l)) l := by
  have c0 := h.c0
  have b0 : 0 < P.b := by linarith [h.cb]
  have a0 : 0 < P.a := by linarith [h.ba]
  have hA : l + P.a * P.a ≠ 0 := by positivity
  have hB : l + P.b * P.b ≠ 0 := by positivity
  have hC : l + P.c * P.c ≠ 0 := by positivity
  have hA' : P.a * P.a + l ≠ 0 := by positivity
  have hB' : P.b * P.b + l ≠ 0 := by positivity
  have hC' : P.c * P.c + l ≠ 0 := by positivity
  have ab := h.ab2.ne'
  have bc := h.bc2.ne'
  have ac := h.ac2.ne'
  have ab' : P.a ^ 2 - P.b ^ 2 ≠ 0 := by rw [sq, sq]; exact ab
  have bc' : P.b ^ 2 - P.c ^ 2 ≠ 0 := by rw [sq, sq]; exact bc
  have ac' : P.a ^ 2 - P.c ^ 2 ≠ 0 := by rw [sq, sq]; exact ac
  have hD := (denom_sq h hl).2.ne'
  have hs := (sqrt_pos.mpr h.ac2).ne'
  refine (((dF h hl).const_mul 2).div_const _).congr_deriv ?_
  generalize √(P.a * P.a - P.c * P.c) = k at *
  field_simp

theorem dW1 (h : P.Ok) {l : ℝ} (hl : 0 ≤ l) : HasDerivAt P.W1 (-1 / (P.denom l * (l + P.a * P.a))) l := by
  have c0 := h.c0
  have b0 : 0 < P.b := by linarith [h.cb]
  have a0 : 0 < P.a := by linarith [h.ba]
  have hA : l + P.a * P.a ≠ 0 := by positivity
  have hB : l + P.b * P.b ≠ 0 := by positivity
  have hC : l + P.c * P.c ≠ 0 := by positivity
  have hA' : P.a * P.a + l ≠ 0 := by positivity
  have hB' : P.b * P.b + l ≠ 0 := by positivity
  have hC' : P.c * P.c + l ≠ 0 := by positivity
  have ab := h.ab2.ne'
  have bc := h.bc2.ne'
  have ac := h.ac2.ne'
  have ab' : P.a ^ 2 - P.b ^ 2 ≠ 0 := by rw [sq, sq]; exact ab
  have bc' : P.b ^ 2 - P.c ^ 2 ≠ 0 := by rw [sq, sq]; exact bc
  have ac' : P.a ^ 2 - P.c ^ 2 ≠ 0 := by rw [sq, sq]; exact ac
  have hD := (denom_sq h hl).2.ne'
  have hs := (sqrt_pos.mpr h.ac2).ne'
  refine ((((dF h hl).sub (dE h hl)).const_mul 2).div_const _).congr_deriv ?_
  generalize √(P.a * P.a - P.c * P.c) = k at *
  field_simp
  ring

theorem dW3 (h : P.Ok) {l : ℝ} (hl : 0 ≤ l) : HasDerivAt P.W3 (-1 / (P.denom l * (l + P.c * P.c))) l := by
  have c0 := h.c0
  have b0 : 0 < P.b := by linarith [h.cb]
  have a0 : 0 < P.a := by linarith [h.ba]
  have hA : l + P.a * P.a ≠ 0 := by positivity
  have hB : l + P.b * P.b ≠ 0 := by positivity
  have hC : l + P.c * P.c ≠ 0 := by positivity
  have hA' : P.a * P.a + l ≠ 0 := by positivity
  have hB' : P.b * P.b + l ≠ 0 := by positivity
  have hC' : P.c * P.c + l ≠ 0 := by positivity
  have ab := h.ab2.ne'
  have bc := h.bc2.ne'
  have ac := h.ac2.ne'
  have ab' : P.a ^ 2 - P.b ^ 2 ≠ 0 := by rw [sq, sq]; exact ab
  have bc' : P.b ^ 2 - P.c ^ 2 ≠ 0 := by rw [sq, sq]; exact bc
  have ac' : P.a ^ 2 - P.c ^ 2 ≠ 0 := by rw [sq, sq]; exact ac
  have hD := (denom_sq h hl).2.ne'
  have hs := (sqrt_pos.mpr h.ac2).ne'
  have e := dE h hl
  have d := (((hasDerivAt_id l).const_add (P.b * P.b)).const_mul (2 / (P.b * P.b - P.c * P.c))).mul (dDen h hl)
  have f := ((e.const_mul 2).div_const (P.b * P.b - P.c * P.c)).div_const √(P.a * P.a - P.c * P.c)
  refine ((d.sub f).congr_deriv ?_).congr_of_eventuallyEq (Filter.Eventually.of_forall fun l => ?_)
  · simp only [id]
    clear e d f
    generalize √(P.a * P.a - P.c * P.c) = k at *
    field_simp
    ring
  · simp only [W3, id, Pi.sub_apply, Pi.mul_apply]
    ring

theorem dW2 (h : P.Ok) {l : ℝ} (hl : 0 ≤ l) : HasDerivAt P.W2 (-1 / (P.denom l * (l + P.b * P.b))) l := by
  have c0 := h.c0
  have b0 : 0 < P.b := by linarith [h.cb]
  have a0 : 0 < P.a := by linarith [h.ba]
  have hA : l + P.a * P.a ≠ 0 := by positivity
  have hB : l + P.b * P.b ≠ 0 := by positivity
  have hC : l + P.c * P.c ≠ 0 := by positivity
  have hA' : P.a * P.a + l ≠ 0 := by positivity
  have hB' : P.b * P.b + l ≠ 0 := by positivity
  have hC' : P.c * P.c + l ≠ 0 := by positivity
  have ab := h.ab2.ne'
  have bc := h.bc2.ne'
  have ac := h.ac2.ne'
  have ab' : P.a ^ 2 - P.b ^ 2 ≠ 0 := by rw [sq, sq]; exact ab
  have bc' : P.b ^ 2 - P.c ^ 2 ≠ 0 := by rw [sq, sq]; exact bc
  have ac' : P.a ^ 2 - P.c ^ 2 ≠ 0 := by rw [sq, sq]; exact ac
  have hD := (denom_sq h hl).2.ne'
  refine ((((dDen h hl).const_mul 2).sub (dW1 h hl)).sub (dW3 h hl) |>.congr_deriv ?_).congr_of_eventuallyEq (Filter.Eventually.of_forall fun l => ?_)
  · field_simp
    ring
  · simp only [W2, Pi.sub_apply]
    ring

theorem dW4 (h : P.Ok) {l : ℝ} (hl : 0 ≤ l) : HasDerivAt P.W4 (-1 / (P.denom l * (l + P.a * P.a) * (l + P.b * P.b))) l := by
  have c0 := h.c0
  have b0 : 0 < P.b := by linarith [h.cb]
  have a0 : 0 < P.a := by linarith [h.ba]
  have hA : l + P.a * P.a ≠ 0 := by positivity
  have hB : l + P.b * P.b ≠ 0 := by positivity
  have hC : l + P.c * P.c ≠ 0 := by positivity
  have hA' : P.a * P.a + l ≠ 0 := by positivity
  have hB' : P.b * P.b + l ≠ 0 := by positivity
  have hC' : P.c * P.c + l ≠ 0 := by positivity
  have ab := h.ab2.ne'
  have bc := h.bc2.ne'
  have ac := h.ac2.ne'
  have ab' : P.a ^ 2 - P.b ^ 2 ≠ 0 := by rw [sq, sq]; exact ab
  have bc' : P.b ^ 2 - P.c ^ 2 ≠ 0 := by rw [sq, sq]; exact bc
  have ac' : P.a ^ 2 - P.c ^ 2 ≠ 0 := by rw [sq, sq]; exact ac
  have hD := (denom_sq h hl).2.ne'
  refine (((dW2 h hl).sub (dW1 h hl)).div_const _).congr_deriv ?_
  field_simp
  ring

theorem dW5 (h : P.Ok) {l : ℝ} (hl : 0 ≤ l) : HasDerivAt P.W5 (-1 / (P.denom l * (l + P.b * P.b) * (l + P.c * P.c))) l := by
  have c0 := h.c0
  have b0 : 0 < P.b := by linarith [h.cb]
  have a0 : 0 < P.a := by linarith [h.ba]
  have hA : l + P.a * P.a ≠ 0 := by positivity
  have hB : l + P.b * P.b ≠ 0 := by positivity
  have hC : l + P.c * P.c ≠ 0 := by positivity
  have hA' : P.a * P.a + l ≠ 0 := by positivity
  have hB' : P.b * P.b + l ≠ 0 := by positivity
  have hC' : P.c * P.c + l ≠ 0 := by positivity
  have ab := h.ab2.ne'
  have bc := h.bc2.ne'
  have ac := h.ac2.ne'
  have ab' : P.a ^ 2 - P.b ^ 2 ≠ 0 := by rw [sq, sq]; exact ab
  have bc' : P.b ^ 2 - P.c ^ 2 ≠ 0 := by rw [sq, sq]; exact bc
  have ac' : P.a ^ 2 - P.c ^ 2 ≠ 0 := by rw [sq, sq]; exact ac
  have hD := (denom_sq h hl).2.ne'
  refine (((dW3 h hl).sub (dW2 h hl)).div_const _).congr_deriv ?_
  field_simp
  ring

theorem dW6 (h : P.Ok) {l : ℝ} (hl : 0 ≤ l) : HasDerivAt P.W6 (-1 / (P.denom l * (l + P.a * P.a) * (l + P.c * P.c))) l := by
  have c0 := h.c0
  have b0 : 0 < P.b := by linarith [h.cb]
  have a0 : 0 < P.a := by linarith [h.ba]
  have hA : l + P.a * P.a ≠ 0 := by positivity
  have hB : l + P.b * P.b ≠ 0 := by positivity
  have hC : l + P.c * P.c ≠ 0 := by positivity
  have hA' : P.a * P.a + l ≠ 0 := by positivity
  have hB' : P.b * P.b + l ≠ 0 := by positivity
  have hC' : P.c * P.c + l ≠ 0 := by positivity
  have ab := h.ab2.ne'
  have bc := h.bc2.ne'
  have ac := h.ac2.ne'
  have ab' : P.a ^ 2 - P.b ^ 2 ≠ 0 := by rw [sq, sq]; exact ab
  have bc' : P.b ^ 2 - P.c ^ 2 ≠ 0 := by rw [sq, sq]; exact bc
  have ac' : P.a ^ 2 - P.c ^ 2 ≠ 0 := by rw [sq, sq]; exact ac
  have hD := (denom_sq h hl).2.ne'
  refine (((dW1 h hl).sub (dW3 h hl)).neg.div_const _).congr_deriv ?_
  field_simp
  ring

theorem dW7 (h : P.Ok) {l : ℝ} (hl : 0 ≤ l) : HasDerivAt P.W7 (-1 / (P.denom l * (l + P.a * P.a) ^ 2)) l := by
  have c0 := h.c0
  have b0 : 0 < P.b := by linarith [h.cb]
  have a0 : 0 < P.a := by linarith [h.ba]
  have hA : l + P.a * P.a ≠ 0 := by positivity
  have hB : l + P.b * P.b ≠ 0 := by positivity
  have hC : l + P.c * P.c ≠ 0 := by positivity
  have hA' : P.a * P.a + l ≠ 0 := by positivity
  have hB' : P.b * P.b + l ≠ 0 := by positivity
  have hC' : P.c * P.c + l ≠ 0 := by positivity
  have ab := h.ab2.ne'
  have bc := h.bc2.ne'
  have ac := h.ac2.ne'
  have ab' : P.a ^ 2 - P.b ^ 2 ≠ 0 := by rw [sq, sq]; exact ab
  have bc' : P.b ^ 2 - P.c ^ 2 ≠ 0 := by rw [sq, sq]; exact bc
  have ac' : P.a ^ 2 - P.c ^ 2 ≠ 0 := by rw [sq, sq]; exact ac
  have hD := (denom_sq h hl).2.ne'
  have q := ((hasDerivAt_id l).const_add (P.a * P.a))
  have d := ((dDen h hl).const_mul 2).div q (by simp only [id]; positivity)
  refine (((d.sub (dW4 h hl)).sub (dW6 h hl)).div_const 3 |>.congr_deriv ?_).congr_of_eventuallyEq (Filter.Eventually.of_forall fun l => ?_)
  · simp only [id]
    rw [add_comm (P.a * P.a) l]
    field_simp
    ring
  · simp only [W7, id, Pi.sub_apply, Pi.div_apply]
    ring

theorem dW8 (h : P.Ok) {l : ℝ} (hl : 0 ≤ l) : HasDerivAt P.W8 (-1 / (P.denom l * (l + P.b * P.b) ^ 2)) l := by
  have c0 := h.c0
  have b0 : 0 < P.b := by linarith [h.cb]
  have a0 : 0 < P.a := by linarith [h.ba]
  have hA : l + P.a * P.a ≠ 0 := by positivity
  have hB : l + P.b * P.b ≠ 0 := by positivity
  have hC : l + P.c * P.c ≠ 0 := by positivity
  have hA' : P.a * P.a + l ≠ 0 := by positivity
  have hB' : P.b * P.b + l ≠ 0 := by positivity
  have hC' : P.c * P.c + l ≠ 0 := by positivity
  have ab := h.ab2.ne'
  have bc := h.bc2.ne'
  have ac := h.ac2.ne'
  have ab' : P.a ^ 2 - P.b ^ 2 ≠ 0 := by rw [sq, sq]; exact ab
  have bc' : P.b ^ 2 - P.c ^ 2 ≠ 0 := by rw [sq, sq]; exact bc
  have ac' : P.a ^ 2 - P.c ^ 2 ≠ 0 := by rw [sq, sq]; exact ac
  have hD := (denom_sq h hl).2.ne'
  have q := ((hasDerivAt_id l).const_add (P.b * P.b))
  have d := ((dDen h hl).const_mul 2).div q (by simp only [id]; positivity)
  refine (((d.sub (dW5 h hl)).sub (dW4 h hl)).div_const 3 |>.congr_deriv ?_).congr_of_eventuallyEq (Filter.Eventually.of_forall fun l => ?_)
  · simp only [id]
    rw [add_comm (P.b * P.b) l]
    field_simp
    ring
  · simp only [W8, id, Pi.sub_apply, Pi.div_apply]
    ring

theorem dW9 (h : P.Ok) {l : ℝ} (hl : 0 ≤ l) : HasDerivAt P.W9 (-1 / (P.denom l * (l + P.c * P.c) ^ 2)) l := by
  have c0 := h.c0
  have b0 : 0 < P.b := by linarith [h.cb]
  have a0 : 0 < P.a := by linarith [h.ba]
  have hA : l + P.a * P.a ≠ 0 := by positivity
  have hB : l + P.b * P.b ≠ 0 := by positivity
  have hC : l + P.c * P.c ≠ 0 := by positivity
  have hA' : P.a * P.a + l ≠ 0 := by positivity
  have hB' : P.b * P.b + l ≠ 0 := by positivity
  have hC' : P.c * P.c + l ≠ 0 := by positivity
  have ab := h.ab2.ne'
  have bc := h.bc2.ne'
  have ac := h.ac2.ne'
  have ab' : P.a ^ 2 - P.b ^ 2 ≠ 0 := by rw [sq, sq]; exact ab
  have bc' : P.b ^ 2 - P.c ^ 2 ≠ 0 := by rw [sq, sq]; exact bc
  have ac' : P.a ^ 2 - P.c ^ 2 ≠ 0 := by rw [sq, sq]; exact ac
  have hD := (denom_sq h hl).2.ne'
  have q := ((hasDerivAt_id l).const_add (P.c * P.c))
  have d := ((dDen h hl).const_mul 2).div q (by simp only [id]; positivity)
  refine (((d.sub (dW6 h hl)).sub (dW5 h hl)).div_const 3 |>.congr_deriv ?_).congr_of_eventuallyEq (Filter.Eventually.of_forall fun l => ?_)
  · simp only [id]
    rw [add_comm (P.c * P.c) l]
    field_simp
    ring
  · simp only [W9, id, Pi.sub_apply, Pi.div_apply]
    ring

theorem dW10 (h : P.Ok) {l : ℝ} (hl : 0 ≤ l) : HasDerivAt P.W10 (-1 / (P.denom l * (l + P.a * P.a) * (l + P.b * P.b) * (l + P.c * P.c))) l := by
  have c0 := h.c0
  have b0 : 0 < P.b := by linarith [h.cb]
  have a0 : 0 < P.a := by linarith [h.ba]
  have hA : l + P.a * P.a ≠ 0 := by positivity
  have hB : l + P.b * P.b ≠ 0 := by positivity
  have hC : l + P.c * P.c ≠ 0 := by positivity
  have hA' : P.a * P.a + l ≠ 0 := by positivity
  have hB' : P.b * P.b + l ≠ 0 := by positivity
  have hC' : P.c * P.c + l ≠ 0 := by positivity
  have ab := h.ab2.ne'
  have bc := h.bc2.ne'
  have ac := h.ac2.ne'
  have ab' : P.a ^ 2 - P.b ^ 2 ≠ 0 := by rw [sq, sq]; exact ab
  have bc' : P.b ^ 2 - P.c ^ 2 ≠ 0 := by rw [sq, sq]; exact bc
  have ac' : P.a ^ 2 - P.c ^ 2 ≠ 0 := by rw [sq, sq]; exact ac
  have hD := (denom_sq h hl).2.ne'
  refine (((dW4 h hl).sub (dW5 h hl)).neg.div_const _).congr_deriv ?_
  field_simp
  ring

theorem dW11 (h : P.Ok) {l : ℝ} (hl : 0 ≤ l) : HasDerivAt P.W11 (-1 / (P.denom l * (l + P.a * P.a) * (l + P.b * P.b) ^ 2)) l := by
  have c0 := h.c0
  have b0 : 0 < P.b := by linarith [h.cb]
  have a0 : 0 < P.a := by linarith [h.ba]
  have hA : l + P.a * P.a ≠ 0 := by positivity
  have hB : l + P.b * P.b ≠ 0 := by positivity
  have hC : l + P.c * P.c ≠ 0 := by positivity
  have hA' : P.a * P.a + l ≠ 0 := by positivity
  have hB' : P.b * P.b + l ≠ 0 := by positivity
  have hC' : P.c * P.c + l ≠ 0 := by positivity
  have ab := h.ab2.ne'
  have bc := h.bc2.ne'
  have ac := h.ac2.ne'
  have ab' : P.a ^ 2 - P.b ^ 2 ≠ 0 := by rw [sq, sq]; exact ab
  have bc' : P.b ^ 2 - P.c ^ 2 ≠ 0 := by rw [sq, sq]; exact bc
  have ac' : P.a ^ 2 - P.c ^ 2 ≠ 0 := by rw [sq, sq]; exact ac
  have hD := (denom_sq h hl).2.ne'
  refine (((dW8 h hl).sub (dW4 h hl)).div_const _).congr_deriv ?_
  field_simp
  ring

theorem dW12 (h : P.Ok) {l : ℝ} (hl : 0 ≤ l) : HasDerivAt P.W12 (-1 / (P.denom l * (l + P.b * P.b) * (l + P.c * P.c) ^ 2)) l := by
  have c0 := h.c0
  have b0 : 0 < P.b := by linarith [h.cb]
  have a0 : 0 < P.a := by linarith [h.ba]
  have hA : l + P.a * P.a ≠ 0 := by positivity
  have hB : l + P.b * P.b ≠ 0 := by positivity
  have hC : l + P.c * P.c ≠ 0 := by positivity
  have hA' : P.a * P.a + l ≠ 0 := by positivity
  have hB' : P.b * P.b + l ≠ 0 := by positivity
  have hC' : P.c * P.c + l ≠ 0 := by positivity
  have ab := h.ab2.ne'
  have bc := h.bc2.ne'
  have ac := h.ac2.ne'
  have ab' : P.a ^ 2 - P.b ^ 2 ≠ 0 := by rw [sq, sq]; exact ab
  have bc' : P.b ^ 2 - P.c ^ 2 ≠ 0 := by rw [sq, sq]; exact bc
  have ac' : P.a ^ 2 - P.c ^ 2 ≠ 0 := by rw [sq, sq]; exact ac
  have hD := (denom_sq h hl).2.ne'
  refine (((dW9 h hl).sub (dW5 h hl)).div_const _).congr_deriv ?_
  field_simp
  ring

theorem dW13 (h : P.Ok) {l : ℝ} (hl : 0 ≤ l) : HasDerivAt P.W13 (-1 / (P.denom l * (l + P.a * P.a) ^ 2 * (l + P.c * P.c))) l := by
  have c0 := h.c0
  have b0 : 0 < P.b := by linarith [h.cb]
  have a0 : 0 < P.a := by linarith [h.ba]
  have hA : l + P.a * P.a ≠ 0 := by positivity
  have hB : l + P.b * P.b ≠ 0 := by positivity
  have hC : l + P.c * P.c ≠ 0 := by positivity
  have hA' : P.a * P.a + l ≠ 0 := by positivity
  have hB' : P.b * P.b + l ≠ 0 := by positivity
  have hC' : P.c * P.c + l ≠ 0 := by positivity
  have ab := h.ab2.ne'
  have bc := h.bc2.ne'
  have ac := h.ac2.ne'
  have ab' : P.a ^ 2 - P.b ^ 2 ≠ 0 := by rw [sq, sq]; exact ab
  have bc' : P.b ^ 2 - P.c ^ 2 ≠ 0 := by rw [sq, sq]; exact bc
  have ac' : P.a ^ 2 - P.c ^ 2 ≠ 0 := by rw [sq, sq]; exact ac
  have hD := (denom_sq h hl).2.ne'
  refine (((dW7 h hl).sub (dW6 h hl)).neg.div_const _).congr_deriv ?_
  field_simp
  ring

theorem dW14 (h : P.Ok) {l : ℝ} (hl : 0 ≤ l) : HasDerivAt P.W14 (-1 / (P.denom l * (l + P.a * P.a) ^ 2 * (l + P.b * P.b))) l := by
  have c0 := h.c0
  have b0 : 0 < P.b := by linarith [h.cb]
  have a0 : 0 < P.a := by linarith [h.ba]
  have hA : l + P.a * P.a ≠ 0 := by positivity
  have hB : l + P.b * P.b ≠ 0 := by positivity
  have hC : l + P.c * P.c ≠ 0 := by positivity
  have hA' : P.a * P.a + l ≠ 0 := by positivity
  have hB' : P.b * P.b + l ≠ 0 := by positivity
  have hC' : P.c * P.c + l ≠ 0 := by positivity
  have ab := h.ab2.ne'
  have bc := h.bc2.ne'
  have ac := h.ac2.ne'
  have ab' : P.a ^ 2 - P.b ^ 2 ≠ 0 := by rw [sq, sq]; exact ab
  have bc' : P.b ^ 2 - P.c ^ 2 ≠ 0 := by rw [sq, sq]; exact bc
  have ac' : P.a ^ 2 - P.c ^ 2 ≠ 0 := by rw [sq, sq]; exact ac
  have hD := (denom_sq h hl).2.ne'
  refine (((dW4 h hl).sub (dW7 h hl)).div_const _).congr_deriv ?_
  field_simp
  ring

theorem dW15 (h : P.Ok) {l : ℝ} (hl : 0 ≤ l) : HasDerivAt P.W15 (-1 / (P.denom l * (l + P.b * P.b) ^ 2 * (l + P.c * P.c))) l := by
  have c0 := h.c0
  have b0 : 0 < P.b := by linarith [h.cb]
  have a0 : 0 < P.a := by linarith [h.ba]
  have hA : l + P.a * P.a ≠ 0 := by positivity
  have hB : l + P.b * P.b ≠ 0 := by positivity
  have hC : l + P.c * P.c ≠ 0 := by positivity
  have hA' : P.a * P.a + l ≠ 0 := by positivity
  have hB' : P.b * P.b + l ≠ 0 := by positivity
  have hC' : P.c * P.c + l ≠ 0 := by positivity
  have ab := h.ab2.ne'
  have bc := h.bc2.ne'
  have ac := h.ac2.ne'
  have ab' : P.a ^ 2 - P.b ^ 2 ≠ 0 := by rw [sq, sq]; exact ab
  have bc' : P.b ^ 2 - P.c ^ 2 ≠ 0 := by rw [sq, sq]; exact bc
  have ac' : P.a ^ 2 - P.c ^ 2 ≠ 0 := by rw [sq, sq]; exact ac
  have hD := (denom_sq h hl).2.ne'
  refine (((dW5 h hl).sub (dW8 h hl)).div_const _).congr_deriv ?_
  field_simp
  ring

theorem dW16 (h : P.Ok) {l : ℝ} (hl : 0 ≤ l) : HasDerivAt P.W16 (-1 / (P.denom l * (l + P.a * P.a) * (l + P.c * P.c) ^ 2)) l := by
  have c0 := h.c0
  have b0 : 0 < P.b := by linarith [h.cb]
  have a0 : 0 < P.a := by linarith [h.ba]
  have hA : l + P.a * P.a ≠ 0 := by positivity
  have hB : l + P.b * P.b ≠ 0 := by positivity
  have hC : l + P.c * P.c ≠ 0 := by positivity
  have hA' : P.a * P.a + l ≠ 0 := by positivity
  have hB' : P.b * P.b + l ≠ 0 := by positivity
  have hC' : P.c * P.c + l ≠ 0 := by positivity
  have ab := h.ab2.ne'
  have bc := h.bc2.ne'
  have ac := h.ac2.ne'
  have ab' : P.a ^ 2 - P.b ^ 2 ≠ 0 := by rw [sq, sq]; exact ab
  have bc' : P.b ^ 2 - P.c ^ 2 ≠ 0 := by rw [sq, sq]; exact bc
  have ac' : P.a ^ 2 - P.c ^ 2 ≠ 0 := by rw [sq, sq]; exact ac
  have hD := (denom_sq h hl).2.ne'
  refine (((dW6 h hl).sub (dW9 h hl)).neg.div_const _).congr_deriv ?_
  field_simp
  ring

theorem dW17 (h : P.Ok) {l : ℝ} (hl : 0 ≤ l) : HasDerivAt P.W17 (-1 / (P.denom l * (l + P.a * P.a) ^ 3)) l := by
  have c0 := h.c0
  have b0 : 0 < P.b := by linarith [h.cb]
  have a0 : 0 < P.a := by linarith [h.ba]
  have hA : l + P.a * P.a ≠ 0 := by positivity
  have hB : l + P.b * P.b ≠ 0 := by positivity
  have hC : l + P.c * P.c ≠ 0 := by positivity
  have hA' : P.a * P.a + l ≠ 0 := by positivity
  have hB' : P.b * P.b + l ≠ 0 := by positivity
  have hC' : P.c * P.c + l ≠ 0 := by positivity
  have ab := h.ab2.ne'
  have bc := h.bc2.ne'
  have ac := h.ac2.ne'
  have ab' : P.a ^ 2 - P.b ^ 2 ≠ 0 := by rw [sq, sq]; exact ab
  have bc' : P.b ^ 2 - P.c ^ 2 ≠ 0 := by rw [sq, sq]; exact bc
  have ac' : P.a ^ 2 - P.c ^ 2 ≠ 0 := by rw [sq, sq]; exact ac
  have hD := (denom_sq h hl).2.ne'
  have q := ((hasDerivAt_id l).const_add (P.a * P.a)).pow 2
  have d := ((dDen h hl).const_mul 2).div q (by simp only [id, Pi.pow_apply]; positivity)
  refine (((d.sub (dW14 h hl)).sub (dW13 h hl)).div_const 5 |>.congr_deriv ?_).congr_of_eventuallyEq (Filter.Eventually.of_forall fun l => ?_)
  · simp only [id, Pi.pow_apply]
    rw [add_comm (P.a * P.a) l]
    field_simp
    ring
  · simp only [W17, id, Pi.sub_apply, Pi.div_apply, Pi.pow_apply]
    ring

theorem dW18 (h : P.Ok) {l : ℝ} (hl : 0 ≤ l) : HasDerivAt P.W18 (-1 / (P.denom l * (l + P.b * P.b) ^ 3)) l := by
  have c0 := h.c0
  have b0 : 0 < P.b := by linarith [h.cb]
  have a0 : 0 < P.a := by linarith [h.ba]
  have hA : l + P.a * P.a ≠ 0 := by positivity
  have hB : l + P.b * P.b ≠ 0 := by positivity
  have hC : l + P.c * P.c ≠ 0 := by positivity
  have hA' : P.a * P.a + l ≠ 0 := by positivity
  have hB' : P.b * P.b + l ≠ 0 := by positivity
  have hC' : P.c * P.c + l ≠ 0 := by positivity
  have ab := h.ab2.ne'
  have bc := h.bc2.ne'
  have ac := h.ac2.ne'
  have ab' : P.a ^ 2 - P.b ^ 2 ≠ 0 := by rw [sq, sq]; exact ab
  have bc' : P.b ^ 2 - P.c ^ 2 ≠ 0 := by rw [sq, sq]; exact bc
  have ac' : P.a ^ 2 - P.c ^ 2 ≠ 0 := by rw [sq, sq]; exact ac
  have hD := (denom_sq h hl).2.ne'
  have q := ((hasDerivAt_id l).const_add (P.b * P.b)).pow 2
  have d := ((dDen h hl).const_mul 2).div q (by simp only [id, Pi.pow_apply]; positivity)
  refine (((d.sub (dW15 h hl)).sub (dW11 h hl)).div_const 5 |>.congr_deriv ?_).congr_of_eventuallyEq (Filter.Eventually.of_forall fun l => ?_)
  · simp only [id, Pi.pow_apply]
    rw [add_comm (P.b * P.b) l]
    field_simp
    ring
  · simp only [W18, id, Pi.sub_apply, Pi.div_apply, Pi.pow_apply]
    ring

theorem dW19 (h : P.Ok) {l : ℝ} (hl : 0 ≤ l) : HasDerivAt P.W19 (-1 / (P.denom l * (l + P.c * P.c) ^ 3)) l := by
  have c0 := h.c0
  have b0 : 0 < P.b := by linarith [h.cb]
  have a0 : 0 < P.a := by linarith [h.ba]
  have hA : l + P.a * P.a ≠ 0 := by positivity
  have hB : l + P.b * P.b ≠ 0 := by positivity
  have hC : l + P.c * P.c ≠ 0 := by positivity
  have hA' : P.a * P.a + l ≠ 0 := by positivity
  have hB' : P.b * P.b + l ≠ 0 := by positivity
  have hC' : P.c * P.c + l ≠ 0 := by positivity
  have ab := h.ab2.ne'
  have bc := h.bc2.ne'
  have ac := h.ac2.ne'
  have ab' : P.a ^ 2 - P.b ^ 2 ≠ 0 := by rw [sq, sq]; exact ab
  have bc' : P.b ^ 2 - P.c ^ 2 ≠ 0 := by rw [sq, sq]; exact bc
  have ac' : P.a ^ 2 - P.c ^ 2 ≠ 0 := by rw [sq, sq]; exact ac
  have hD := (denom_sq h hl).2.ne'
  have q := ((hasDerivAt_id l).const_add (P.c * P.c)).pow 2
  have d := ((dDen h hl).const_mul 2).div q (by simp only [id, Pi.pow_apply]; positivity)
  refine (((d.sub (dW16 h hl)).sub (dW12 h hl)).div_const 5 |>.congr_deriv ?_).congr_of_eventuallyEq (Filter.Eventually.of_forall fun l => ?_)
  · simp only [id, Pi.pow_apply]
    rw [add_comm (P.c * P.c) l]
    field_simp
    ring
  · simp only [W19, id, Pi.sub_apply, Pi.div_apply, Pi.pow_apply]
    ring

end FerrersP
end Verif.Pot
