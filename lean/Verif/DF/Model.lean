import Verif.Actions.Model
import Verif.Pot.Disk
import Mathlib.Analysis.SpecialFunctions.Pow.Deriv
import Mathlib.Analysis.SpecialFunctions.Trigonometric.DerivHyp

/-! Model of the action-based distribution functions (/repo/src/df_halo.cpp, df_disk.cpp), in exact real arithmetic. math::pow (math_core.cpp:131-143) is the real power. Infinite parameters are not modelled. -/

namespace Verif.DF

open Real Verif.Actions

noncomputable section

/-- df_base.h:14-16, DerivByActions -/
@[ext] structure DerivByActions where
  dbyJr : ℝ
  dbyJz : ℝ
  dbyJphi : ℝ

/-- math_specfunc.cpp:341-346 -/
def qexp (x q : ℝ) : ℝ :=
  if |q| > 1e-7 then (1 + q * x) ^ (1 / q)
  else exp x * (if q ≠ 0 then 1 + q * x * x * (-0.5 + q * x * (1 / 3 + 1 / 8 * x)) else 1)

/-! ### double power law -/

/-- df_halo.h:16-34 -/
structure DoublePowerLawParam where
  norm : ℝ
  J0 : ℝ
  Jcutoff : ℝ
  slopeIn : ℝ
  slopeOut : ℝ
  steepness : ℝ
  cutoffStrength : ℝ
  coefJrIn : ℝ
  coefJzIn : ℝ
  coefJrOut : ℝ
  coefJzOut : ℝ
  rotFrac : ℝ
  Jphi0 : ℝ
  Jcore : ℝ

/-- df_halo.cpp:55-84: parameters accepted by the constructor; beta is the coefficient found by computeBeta (lines 45-50) -/
def DoublePowerLawParam.accepted (P : DoublePowerLawParam) (beta : ℝ) : Prop :=
  P.norm > 0 ∧ P.J0 > 0 ∧ (P.Jcore ≥ 0 ∧ beta ≥ 0) ∧ P.Jcutoff ≥ 0 ∧ ¬(¬P.slopeOut > 3 ∧ P.Jcutoff = 0) ∧ P.slopeIn < 3 ∧ P.steepness > 0 ∧
  P.cutoffStrength > 0 ∧ (P.coefJrIn > 0 ∧ P.coefJzIn > 0 ∧ P.coefJrIn + P.coefJzIn < 3 ∧ P.coefJrOut > 0 ∧ P.coefJzOut > 0 ∧ P.coefJrOut + P.coefJzOut < 3) ∧
  |P.rotFrac| ≤ 1

/-- df_halo.cpp:91 -/
def signJphi (J : Act) : ℝ := if J.Jphi ≥ 0 then 1 else -1
/-- df_halo.cpp:95 -/
def DoublePowerLawParam.h (P : DoublePowerLawParam) (J : Act) : ℝ :=
  P.coefJrIn * J.Jr + P.coefJzIn * J.Jz + (3 - P.coefJrIn - P.coefJzIn) * signJphi J * J.Jphi
/-- df_halo.cpp:97 -/
def DoublePowerLawParam.g (P : DoublePowerLawParam) (J : Act) : ℝ :=
  P.coefJrOut * J.Jr + P.coefJzOut * J.Jz + (3 - P.coefJrOut - P.coefJzOut) * signJphi J * J.Jphi

/-- df_halo.cpp:112: the odd part; for zero Jphi0 the argument of tanh is infinite or, if Jphi=0, undefined (`none`) -/
def DoublePowerLawParam.rot (P : DoublePowerLawParam) (Jphi : ℝ) : Option ℝ :=
  if P.rotFrac ≠ 0 then
    if P.Jphi0 = 0 then (if Jphi > 0 then some P.rotFrac else if Jphi < 0 then some (P.rotFrac * -1) else none)
    else some (P.rotFrac * tanh (Jphi / P.Jphi0))
  else some 0

/-- df_halo.cpp:88-113, the value; `none` if it is infinite or NaN. When h=0 (all actions are zero), J0/h and Jcore/h are infinite, and so are the powers of 1+J0he and of the last bracket, unless the exponent is not positive. -/
def DoublePowerLawParam.value (P : DoublePowerLawParam) (beta : ℝ) (J : Act) : Option ℝ := do
  let N := P.norm / (2 * π * P.J0) ^ 3
  let rot ← P.rot J.Jphi
  if P.h J = 0 then
    if P.Jcore > 0 then
      let pw ← if -0.5 * P.slopeIn > 0 then none else if P.slopeIn = 0 then some 1 else some 0
      return N * pw * (1 + rot)
    else
      let pw ← if P.slopeIn / P.steepness > 0 then none else if P.slopeIn = 0 then some 1 else some 0
      return N * pw * (1 + rot)
  else
    let J0he := (P.J0 / P.h J) ^ P.steepness
    let gJ0e := (P.g J / P.J0) ^ P.steepness
    let gJcz := if P.Jcutoff > 0 then (P.g J / P.Jcutoff) ^ P.cutoffStrength else 0
    let v := N * (1 + J0he) ^ (P.slopeIn / P.steepness) * (1 + gJ0e) ^ (-P.slopeOut / P.steepness)
    let v := if P.Jcutoff > 0 then v * exp (-gJcz) else v
    let v := if P.Jcore > 0 then v * (1 + P.Jcore / P.h J * (P.Jcore / P.h J - beta)) ^ (-0.5 * P.slopeIn) else v
    return v * (1 + rot)

/-- df_halo.cpp:115-128, the derivatives at a point where h is not zero -/
def DoublePowerLawParam.deriv (P : DoublePowerLawParam) (beta : ℝ) (J : Act) : DerivByActions :=
  let value := (P.value beta J).getD 0
  let rot := (P.rot J.Jphi).getD 0
  let h := P.h J
  let g := P.g J
  let J0he := (P.J0 / h) ^ P.steepness
  let gJ0e := (g / P.J0) ^ P.steepness
  let gJcz := if P.Jcutoff > 0 then (g / P.Jcutoff) ^ P.cutoffStrength else 0
  let dlogHdh := -P.slopeIn * (J0he + P.Jcore / h * (0.5 * beta * (1 - J0he) - P.Jcore / h)) / (h * (1 + J0he) * (1 + P.Jcore / h * (P.Jcore / h - beta)))
  let dlogGdg := -(P.slopeOut * gJ0e + (if P.Jcutoff > 0 then P.cutoffStrength * gJcz * (1 + gJ0e) else 0)) / (g * (1 + gJ0e))
  ⟨value * (P.coefJrIn * dlogHdh + P.coefJrOut * dlogGdg), value * (P.coefJzIn * dlogHdh + P.coefJzOut * dlogGdg),
    value * ((3 - P.coefJrIn - P.coefJzIn) * signJphi J * dlogHdh + (3 - P.coefJrOut - P.coefJzOut) * signJphi J * dlogGdg) +
      (if P.Jphi0 ≠ 0 ∧ P.rotFrac ≠ 0 then value * P.rotFrac * (1 - (rot / P.rotFrac) ^ 2) / (1 + rot) / P.Jphi0 else 0)⟩

/-! ### exponential disk -/

/-- df_disk.h:96-110 -/
structure ExponentialParam where
  norm : ℝ
  Jr0 : ℝ
  Jz0 : ℝ
  Jphi0 : ℝ
  addJden : ℝ
  addJvel : ℝ
  coefJr : ℝ
  coefJz : ℝ
  qJr : ℝ
  qJz : ℝ
  qJphi : ℝ

/-- df_disk.cpp:90-103, parameters accepted by the constructor -/
def ExponentialParam.accepted (P : ExponentialParam) : Prop :=
  P.norm > 0 ∧ (P.Jr0 > 0 ∧ P.Jz0 > 0 ∧ P.Jphi0 > 0) ∧ (P.addJden ≥ 0 ∧ P.addJvel ≥ 0) ∧ (P.coefJr ≥ 0 ∧ P.coefJz ≥ 0) ∧
  (P.qJr ≥ 0 ∧ P.qJr < 1 ∧ P.qJz ≥ 0 ∧ P.qJz < 1 ∧ P.qJphi ≥ 0 ∧ P.qJphi < 1)

/-- df_disk.cpp:105-135 for Jden and Jvel not zero -/
def ExponentialParam.evalDeriv (P : ExponentialParam) (J : Act) : ℝ × DerivByActions :=
  let coefJphi : ℝ := if J.Jphi ≥ 0 then 1 else -1
  let Jsum := coefJphi * J.Jphi + P.coefJr * J.Jr + P.coefJz * J.Jz
  let Jden := √(Jsum ^ 2 + P.addJden ^ 2)
  let Jvel := √(Jsum ^ 2 + P.addJvel ^ 2)
  let negJphi := if J.Jphi ≥ 0 then 0 else J.Jphi
  let argJphi := Jden / P.Jphi0
  let argJr := Jvel * (J.Jr - negJphi) / P.Jr0 ^ 2
  let argJz := Jvel * J.Jz / P.Jz0 ^ 2
  let value := 1 / (2 * π) ^ 3 * P.norm / (P.Jr0 * P.Jz0 * P.Jphi0) ^ 2 * Jvel * Jvel * Jden *
    qexp (-argJphi) (-P.qJphi) * qexp (-argJr) (-P.qJr) * qexp (-argJz) (-P.qJz)
  let common := Jsum * ((1 - argJphi / (1 + P.qJphi * argJphi)) / Jden ^ 2 +
    (1 - argJr / (1 + P.qJr * argJr) + 1 - argJz / (1 + P.qJz * argJz)) / Jvel ^ 2)
  (value, ⟨value * (common * P.coefJr - Jvel / P.Jr0 ^ 2 / (1 + P.qJr * argJr)),
    value * (common * P.coefJz - Jvel / P.Jz0 ^ 2 / (1 + P.qJz * argJz)),
    value * (common * coefJphi) + (if negJphi ≠ 0 then value * Jvel / P.Jr0 ^ 2 / (1 + P.qJr * argJr) else 0)⟩)

/-! ### quasi-isothermal disk -/

/-- df_disk.h:17-42 -/
structure QuasiIsothermalParam where
  Sigma0 : ℝ
  Rdisk : ℝ
  Hdisk : ℝ
  sigmar0 : ℝ
  sigmaz0 : ℝ
  sigmamin : ℝ
  Rsigmar : ℝ
  Rsigmaz : ℝ
  coefJr : ℝ
  coefJz : ℝ
  qJr : ℝ
  qJz : ℝ
  qJphi : ℝ
  Jmin : ℝ

/-- potential_utils.h, Interpolator: radius of a circular orbit and epicyclic frequencies as functions, with their derivatives -/
structure Freqs where
  R_from_Lz : ℝ → ℝ
  dR_from_Lz : ℝ → ℝ
  kappa : ℝ → ℝ
  nu : ℝ → ℝ
  Omega : ℝ → ℝ
  dkappa : ℝ → ℝ
  dnu : ℝ → ℝ
  dOmega : ℝ → ℝ

/-- df_disk.cpp:11-31; the parameters Hdisk, sigmaz0, Rsigmaz that are not given are NaN in the code, and are zero here -/
def QuasiIsothermalParam.accepted (P : QuasiIsothermalParam) : Prop :=
  P.Sigma0 > 0 ∧ P.Rdisk > 0 ∧ P.sigmar0 > 0 ∧ P.Rsigmar > 0 ∧ Xor (P.Hdisk > 0) (P.sigmaz0 > 0 ∧ P.Rsigmaz > 0) ∧
  ¬(P.Hdisk < 0 ∨ P.sigmaz0 < 0 ∨ P.Rsigmaz < 0) ∧ (P.coefJr ≥ 0 ∧ P.coefJz ≥ 0) ∧
  (P.qJr ≥ 0 ∧ P.qJr < 1 ∧ P.qJz ≥ 0 ∧ P.qJz < 1 ∧ P.qJphi ≥ 0 ∧ P.qJphi < 1)

/-- df_disk.cpp:34-87 -/
def QuasiIsothermalParam.evalDeriv (P : QuasiIsothermalParam) (F : Freqs) (J : Act) : ℝ × DerivByActions :=
  let coefJphi : ℝ := if J.Jphi ≥ 0 then 1 else -1
  let Jsum := coefJphi * J.Jphi + P.coefJr * J.Jr + P.coefJz * J.Jz
  let Jhat := √(Jsum ^ 2 + P.Jmin ^ 2)
  let dRcirc_dJhat := F.dR_from_Lz Jhat
  let Rcirc := F.R_from_Lz Jhat
  let kappa := F.kappa Rcirc
  let nu := F.nu Rcirc
  let Omega := F.Omega Rcirc
  let invsigmarsq := 1 / ((P.sigmar0 * exp (-Rcirc / P.Rsigmar)) ^ 2 + P.sigmamin ^ 2)
  let invsigmazsq := 1 / (P.sigmamin ^ 2 + (if P.Hdisk > 0 then 2 * (nu * P.Hdisk) ^ 2 else (P.sigmaz0 * exp (-Rcirc / P.Rsigmaz)) ^ 2))
  let negJphi := if J.Jphi > 0 then 0 else 2 * Omega * J.Jphi
  let argJr := (kappa * J.Jr - negJphi) * invsigmarsq
  let argJz := nu * J.Jz * invsigmazsq
  let argRc := Rcirc / P.Rdisk
  let value := 1 / (2 * π * π) * P.Sigma0 * (1 - P.qJphi) * (1 - P.qJr) * (1 - P.qJz) * nu * Omega / kappa * invsigmarsq * invsigmazsq *
    qexp (-argRc) (-P.qJphi) * qexp (-argJr) (-P.qJr) * qexp (-argJz) (-P.qJz)
  let dlnkappa := F.dkappa Rcirc / kappa
  let dlnnu := F.dnu Rcirc / nu
  let dlnOmega := F.dOmega Rcirc / Omega
  let dRcirc_dJ := dRcirc_dJhat * Jsum / Jhat
  let dlnsigmarsq := -2 / P.Rsigmar * (1 - P.sigmamin ^ 2 * invsigmarsq)
  let dlnsigmazsq := -(if P.Hdisk > 0 then -(2 * nu * P.Hdisk) ^ 2 * invsigmazsq * dlnnu else 2 / P.Rsigmaz * (1 - P.sigmamin ^ 2 * invsigmazsq))
  let common := dRcirc_dJ * (dlnnu + dlnOmega - dlnkappa - dlnsigmarsq - dlnsigmazsq - 1 / (P.Rdisk + P.qJphi * Rcirc) -
    kappa * invsigmarsq * (dlnkappa - dlnsigmarsq) * J.Jr / (1 + P.qJr * argJr) - nu * invsigmazsq * (dlnnu - dlnsigmazsq) * J.Jz / (1 + P.qJz * argJz))
  let common := if negJphi ≠ 0 then common + dRcirc_dJ * 2 * Omega * invsigmarsq * (dlnOmega - dlnsigmarsq) * J.Jphi / (1 + P.qJr * argJr) else common
  (value, ⟨value * (common * P.coefJr - kappa * invsigmarsq / (1 + P.qJr * argJr)),
    value * (common * P.coefJz - nu * invsigmazsq / (1 + P.qJz * argJz)),
    value * (common * coefJphi) + (if negJphi ≠ 0 then value * 2 * Omega * invsigmarsq / (1 + P.qJr * argJr) else 0)⟩)

/-! ### specification -/

/-- physically meaningful actions -/
def Phys (J : Act) : Prop := 0 ≤ J.Jr ∧ 0 ≤ J.Jz

/-- `D` is the gradient of `f` at `J`, along any curve of physical actions which stays on the same side of Jphi=0 (the distribution functions depend on |Jphi|; zero belongs to the positive side) -/
def IsDerivDF (f : Act → ℝ) (D : DerivByActions) (J : Act) : Prop :=
  ∀ (S : Set ℝ) (a b c : ℝ → ℝ) (a' b' c' t : ℝ), t ∈ S → HasDerivWithinAt a a' S t → HasDerivWithinAt b b' S t → HasDerivWithinAt c c' S t →
    (⟨a t, b t, c t⟩ : Act) = J → (∀ s ∈ S, Phys ⟨a s, b s, c s⟩ ∧ (0 ≤ c s ↔ 0 ≤ J.Jphi)) →
    HasDerivWithinAt (fun s => f ⟨a s, b s, c s⟩) (D.dbyJr * a' + D.dbyJz * b' + D.dbyJphi * c') S t

/-- the documented function exp_q, df_disk.h:58 -/
def expq (x q : ℝ) : ℝ := if q = 0 then exp x else (1 + q * x) ^ (1 / q)

/-- the documented function of the double power-law model, df_halo.h:38-43 -/
def dplSpec (P : DoublePowerLawParam) (beta : ℝ) (J : Act) : ℝ :=
  let g := P.coefJrOut * J.Jr + P.coefJzOut * J.Jz + (3 - P.coefJrOut - P.coefJzOut) * |J.Jphi|
  let h := P.coefJrIn * J.Jr + P.coefJzIn * J.Jz + (3 - P.coefJrIn - P.coefJzIn) * |J.Jphi|
  P.norm / (2 * π * P.J0) ^ 3 * (1 + (P.J0 / h) ^ P.steepness) ^ (P.slopeIn / P.steepness) * (1 + (g / P.J0) ^ P.steepness) ^ (-P.slopeOut / P.steepness) *
    (if P.Jcutoff = 0 then 1 else exp (-(g / P.Jcutoff) ^ P.cutoffStrength)) * ((P.Jcore / h) ^ 2 - beta * (P.Jcore / h) + 1) ^ (-P.slopeIn / 2) *
    (1 + P.rotFrac * tanh (J.Jphi / P.Jphi0))

/-- the documented function of the exponential model, df_disk.h:115-124 (with the factor f_phi as in the code) -/
def expSpec (P : ExponentialParam) (J : Act) : ℝ :=
  let Jsum := |J.Jphi| + P.coefJr * J.Jr + P.coefJz * J.Jz
  let Jden := √(Jsum ^ 2 + P.addJden ^ 2)
  let Jvel := √(Jsum ^ 2 + P.addJvel ^ 2)
  (P.norm / (2 * π) ^ 3 * Jden / P.Jphi0 ^ 2 * expq (-Jden / P.Jphi0) (-P.qJphi)) *
  (Jvel / P.Jr0 ^ 2 * expq (-((J.Jr + max 0 (-J.Jphi)) * Jvel / P.Jr0 ^ 2)) (-P.qJr)) *
  (Jvel / P.Jz0 ^ 2 * expq (-(J.Jz * Jvel / P.Jz0 ^ 2)) (-P.qJz))

end

end Verif.DF
