import Verif.Pot.Analytic
import Mathlib.Analysis.SpecialFunctions.Trigonometric.Deriv
import Mathlib.Analysis.Calculus.InverseFunctionTheorem.Deriv
import Mathlib.Analysis.Calculus.Deriv.Inverse
import Mathlib.Analysis.SpecialFunctions.Trigonometric.Bounds

/-!
# C66: binary black hole on a Kepler orbit; the Kepler equation.  C62 for the binary potential

Models `/repo/src/potential_analytic.cpp:151-222`, `/repo/src/math_specfunc.cpp:348-375`.  Number model (E).
-/

namespace Verif.Pot

open Real Verif.Coord

/-! ## model -/

/-- potential_analytic.h:149-160 -/
structure KBParams where (mass q sma ecc phase : ℝ)

/-- the output arrays of `keplerOrbit`: index 0 and 1 -/
structure KBState where (X0 Y0 VX0 VY0 X1 Y1 VX1 VY1 : ℝ)

open Classical in
/-- potential_analytic.cpp:151-172; `eta` is the value returned by `solveKepler(ecc, omegabh*t+phase)` -/
noncomputable def keplerOrbit (P : KBParams) (solve : ℝ → ℝ → ℝ) (t : ℝ) : KBState :=
  if P.sma ≠ 0 then
    let omegabh := √(P.mass / P.sma ^ 3)
    let eta := solve P.ecc (omegabh * t + P.phase)
    let sineta := sin eta
    let coseta := cos eta
    let ell := √(1 - P.ecc * P.ecc)
    let a := -P.sma / (1 + P.q)
    let doteta := omegabh / (1 - P.ecc * coseta)
    let X1 := (coseta - P.ecc) * a
    let Y1 := sineta * a * ell
    let VX1 := -doteta * a * sineta
    let VY1 := doteta * a * coseta * ell
    ⟨-P.q * X1, -P.q * Y1, -P.q * VX1, -P.q * VY1, X1, Y1, VX1, VY1⟩
  else ⟨0, 0, 0, 0, 0, 0, 0, 0⟩

/-- potential_analytic.cpp:203-220: the contribution of one point mass, added to the accumulated outputs -/
noncomputable def addPointMass (o : OutCar) (M : ℝ) (x y z : ℝ) : OutCar :=
  let invr2 := 1 / (x ^ 2 + y ^ 2 + z ^ 2)
  let minvr := M * √invr2
  { pot := o.pot - minvr
    grad := ⟨o.grad.dx + x * minvr * invr2, o.grad.dy + y * minvr * invr2, o.grad.dz + z * minvr * invr2⟩
    hess :=
    { dx2 := o.hess.dx2 + minvr * invr2 * (3 * x ^ 2 * invr2 - 1)
      dy2 := o.hess.dy2 + minvr * invr2 * (3 * y ^ 2 * invr2 - 1)
      dz2 := o.hess.dz2 + minvr * invr2 * (3 * z ^ 2 * invr2 - 1)
      dxdy := o.hess.dxdy + minvr * invr2 ^ 2 * 3 * x * y
      dydz := o.hess.dydz + minvr * invr2 ^ 2 * 3 * y * z
      dxdz := o.hess.dxdz + minvr * invr2 ^ 2 * 3 * x * z } }

/-- zero-initialized outputs, potential_analytic.cpp:196-198 -/
def zeroOut : OutCar := ⟨0, ⟨0, 0, 0⟩, ⟨0, 0, 0, 0, 0, 0⟩⟩

open Classical in
/-- potential_analytic.cpp:190-222; `s` is the state of the binary at the given time -/
noncomputable def keplerBinary (P : KBParams) (s : KBState) (pos : PosCar) : OutCar :=
  if P.sma ≠ 0 ∧ P.q ≠ 0 then
    addPointMass (addPointMass zeroOut (P.mass / (1 + P.q)) (pos.x - s.X0) (pos.y - s.Y0) pos.z)
      (P.mass * P.q / (1 + P.q)) (pos.x - s.X1) (pos.y - s.Y1) pos.z
  else addPointMass zeroOut P.mass (pos.x - s.X0) (pos.y - s.Y0) pos.z

open Classical in
/-- potential_analytic.cpp:174-188 -/
noncomputable def keplerBinaryPotential (P : KBParams) (s : KBState) (pos : PosCar) : ℝ :=
  let term (M x y z : ℝ) := M * √(1 / (x ^ 2 + y ^ 2 + z ^ 2))
  if P.sma ≠ 0 ∧ P.q ≠ 0 then
    0 - term (P.mass / (1 + P.q)) (pos.x - s.X0) (pos.y - s.Y0) pos.z
      - term (P.mass * P.q / (1 + P.q)) (pos.x - s.X1) (pos.y - s.Y1) pos.z
  else 0 - term P.mass (pos.x - s.X0) (pos.y - s.Y0) pos.z

/-! ## C66: the orbit -/

/-- a function returning the solution of the Kepler equation -/
def SolvesKepler (ecc : ℝ) (E : ℝ → ℝ) : Prop := ∀ phase, E phase - ecc * sin (E phase) = phase

theorem kepler_lipschitz {ecc : ℝ} (h0 : 0 ≤ ecc) (E : ℝ → ℝ) (hE : SolvesKepler ecc E) (a b : ℝ) :
    (1 - ecc) * |E a - E b| ≤ |a - b| := by
  have h1 : |sin (E a) - sin (E b)| ≤ |E a - E b| := by
    have := Real.abs_sin_sub_sin_le (E a) (E b)
    exact this
  have h2 : a - b = (E a - E b) - ecc * (sin (E a) - sin (E b)) := by
    have := hE a; have := hE b; linarith
  have h3 : |E a - E b| ≤ |a - b| + ecc * |sin (E a) - sin (E b)| := by
    have : E a - E b = (a - b) + ecc * (sin (E a) - sin (E b)) := by linarith
    calc |E a - E b| = |(a - b) + ecc * (sin (E a) - sin (E b))| := by rw [← this]
      _ ≤ |a - b| + |ecc * (sin (E a) - sin (E b))| := abs_add_le _ _
      _ = _ := by rw [abs_mul, abs_of_nonneg h0]
  nlinarith

/-- the solution of the Kepler equation is differentiable, with derivative 1/(1 - e cos E) -/
theorem kepler_hasDerivAt {ecc : ℝ} (h0 : 0 ≤ ecc) (h1 : ecc < 1) (E : ℝ → ℝ) (hE : SolvesKepler ecc E) (m : ℝ) :
    HasDerivAt E (1 - ecc * cos (E m))⁻¹ m := by
  have hcont : ContinuousAt E m := by
    have : LipschitzWith ⟨1 / (1 - ecc), by have : 0 < 1 - ecc := by linarith
                                            positivity⟩ E := by
      refine LipschitzWith.of_dist_le_mul fun a b => ?_
      rw [Real.dist_eq, Real.dist_eq]
      have := kepler_lipschitz h0 E hE a b
      have hp : 0 < 1 - ecc := by linarith
      show |E a - E b| ≤ 1 / (1 - ecc) * |a - b|
      rw [div_mul_eq_mul_div, one_mul, le_div_iff₀ hp]
      linarith
    exact this.continuous.continuousAt
  have hd : HasDerivAt (fun x => x - ecc * sin x) (1 - ecc * cos (E m)) (E m) :=
    (hasDerivAt_id _).sub ((hasDerivAt_sin _).const_mul ecc)
  refine HasDerivAt.of_local_left_inverse hcont hd ?_ (Filter.Eventually.of_forall hE)
  have : ecc * cos (E m) ≤ ecc * 1 := mul_le_mul_of_nonneg_left (cos_le_one _) h0
  intro h; linarith

/-- the Kepler equation has a solution for each phase (so the hypotheses below can be met) -/
theorem exists_solvesKepler (ecc : ℝ) : ∃ E, SolvesKepler ecc E := by
  have hc : Continuous fun x : ℝ => x - ecc * sin x := by fun_prop
  have hsurj : Function.Surjective fun x : ℝ => x - ecc * sin x := by
    refine hc.surjective ?_ ?_
    · refine Filter.tendsto_atTop_mono (f := fun x => x - |ecc|) (fun x => ?_) (Filter.tendsto_atTop_add_const_right _ _ Filter.tendsto_id)
      have : ecc * sin x ≤ |ecc| := by
        calc ecc * sin x ≤ |ecc * sin x| := le_abs_self _
          _ = |ecc| * |sin x| := abs_mul _ _
          _ ≤ |ecc| * 1 := by gcongr; exact abs_sin_le_one x
          _ = |ecc| := mul_one _
      linarith
    · refine Filter.tendsto_atBot_mono (g := fun x => x - ecc * sin x) (f := fun x => x + |ecc|) (fun x => ?_) (Filter.tendsto_atBot_add_const_right _ _ Filter.tendsto_id)
      have : -(ecc * sin x) ≤ |ecc| := by
        calc -(ecc * sin x) ≤ |ecc * sin x| := neg_le_abs _
          _ = |ecc| * |sin x| := abs_mul _ _
          _ ≤ |ecc| * 1 := by gcongr; exact abs_sin_le_one x
          _ = |ecc| := mul_one _
      linarith
  exact ⟨fun m => (hsurj m).choose, fun m => (hsurj m).choose_spec⟩

/-- C66: the centre of mass of the binary is at the origin and at rest at all times -/
theorem C66_barycentre (P : KBParams) (solve : ℝ → ℝ → ℝ) (t : ℝ) (hq : 1 + P.q ≠ 0) :
    let s := keplerOrbit P solve t
    let M0 := P.mass / (1 + P.q)
    let M1 := P.mass * P.q / (1 + P.q)
    M0 * s.X0 + M1 * s.X1 = 0 ∧ M0 * s.Y0 + M1 * s.Y1 = 0 ∧ M0 * s.VX0 + M1 * s.VX1 = 0 ∧ M0 * s.VY0 + M1 * s.VY1 = 0 := by
  simp only [keplerOrbit]
  split_ifs
  · refine ⟨?_, ?_, ?_, ?_⟩ <;> field_simp <;> ring
  · simp

/-- C66: the reported velocities are the time derivatives of the reported positions -/
theorem C66_velocity (P : KBParams) (solve : ℝ → ℝ → ℝ) (he0 : 0 ≤ P.ecc) (he1 : P.ecc < 1) (hE : SolvesKepler P.ecc (solve P.ecc)) (t : ℝ) :
    let s := keplerOrbit P solve
    HasDerivAt (fun t => (s t).X0) (s t).VX0 t ∧ HasDerivAt (fun t => (s t).Y0) (s t).VY0 t ∧
    HasDerivAt (fun t => (s t).X1) (s t).VX1 t ∧ HasDerivAt (fun t => (s t).Y1) (s t).VY1 t := by
  by_cases hs : P.sma = 0
  · have : keplerOrbit P solve = fun _ => ⟨0, 0, 0, 0, 0, 0, 0, 0⟩ := by funext t; simp [keplerOrbit, hs]
    rw [this]
    simp only
    refine ⟨?_, ?_, ?_, ?_⟩ <;> exact hasDerivAt_const _ _
  have h1 : HasDerivAt (fun t => √(P.mass / P.sma ^ 3) * t + P.phase) (√(P.mass / P.sma ^ 3)) t := by
    simpa using ((hasDerivAt_id t).const_mul (√(P.mass / P.sma ^ 3))).add_const P.phase
  have h2 := (kepler_hasDerivAt he0 he1 _ hE (√(P.mass / P.sma ^ 3) * t + P.phase)).comp t h1
  have hc := h2.cos
  have hsn := h2.sin
  have hx := (hc.sub_const P.ecc).mul_const (-P.sma / (1 + P.q))
  have hy := (hsn.mul_const (-P.sma / (1 + P.q))).mul_const (√(1 - P.ecc * P.ecc))
  simp only [keplerOrbit, ne_eq, hs, not_false_eq_true, if_true]
  refine ⟨(hx.const_mul (-P.q)).congr_deriv ?_, (hy.const_mul (-P.q)).congr_deriv ?_, hx.congr_deriv ?_, hy.congr_deriv ?_⟩ <;>
    simp only [Function.comp_apply] <;> ring

/-- C66: the binary obeys Newton's law: the acceleration of each body is the attraction of the other one, G=1 -/
theorem C66_newton (P : KBParams) (solve : ℝ → ℝ → ℝ) (he0 : 0 ≤ P.ecc) (he1 : P.ecc < 1) (hE : SolvesKepler P.ecc (solve P.ecc))
    (hm : 0 ≤ P.mass) (hs : 0 < P.sma) (hq : 0 ≤ P.q) (t : ℝ) :
    let s := keplerOrbit P solve
    let M0 := P.mass / (1 + P.q)
    let M1 := P.mass * P.q / (1 + P.q)
    let d := √(((s t).X1 - (s t).X0) ^ 2 + ((s t).Y1 - (s t).Y0) ^ 2)
    0 < d ∧
    HasDerivAt (fun t => (s t).VX1) (M0 * ((s t).X0 - (s t).X1) / d ^ 3) t ∧
    HasDerivAt (fun t => (s t).VY1) (M0 * ((s t).Y0 - (s t).Y1) / d ^ 3) t ∧
    HasDerivAt (fun t => (s t).VX0) (M1 * ((s t).X1 - (s t).X0) / d ^ 3) t ∧
    HasDerivAt (fun t => (s t).VY0) (M1 * ((s t).Y1 - (s t).Y0) / d ^ 3) t := by
  have hq1 : 1 + P.q ≠ 0 := by positivity
  have h1 : HasDerivAt (fun t => √(P.mass / P.sma ^ 3) * t + P.phase) (√(P.mass / P.sma ^ 3)) t := by
    simpa using ((hasDerivAt_id t).const_mul (√(P.mass / P.sma ^ 3))).add_const P.phase
  have h2 := (kepler_hasDerivAt he0 he1 _ hE (√(P.mass / P.sma ^ 3) * t + P.phase)).comp t h1
  simp only [keplerOrbit, ne_eq, hs.ne', not_false_eq_true, if_true]
  have hom : √(P.mass / P.sma ^ 3) ^ 2 = P.mass / P.sma ^ 3 := sq_sqrt (by positivity)
  have hell : √(1 - P.ecc * P.ecc) ^ 2 = 1 - P.ecc * P.ecc := sq_sqrt (by nlinarith)
  have hbound : P.ecc * cos (solve P.ecc (√(P.mass / P.sma ^ 3) * t + P.phase)) ≤ P.ecc * 1 :=
    mul_le_mul_of_nonneg_left (cos_le_one _) he0
  have hsc := sin_sq_add_cos_sq (solve P.ecc (√(P.mass / P.sma ^ 3) * t + P.phase))
  have hc := h2.cos
  have hsn := h2.sin
  simp only [Function.comp_apply] at hc hsn
  generalize √(P.mass / P.sma ^ 3) = om at *
  generalize √(1 - P.ecc * P.ecc) = ell at *
  -- the separation
  have hd : √(((cos (solve P.ecc (om * t + P.phase)) - P.ecc) * (-P.sma / (1 + P.q)) - -P.q * ((cos (solve P.ecc (om * t + P.phase)) - P.ecc) * (-P.sma / (1 + P.q)))) ^ 2 +
      (sin (solve P.ecc (om * t + P.phase)) * (-P.sma / (1 + P.q)) * ell - -P.q * (sin (solve P.ecc (om * t + P.phase)) * (-P.sma / (1 + P.q)) * ell)) ^ 2) =
      P.sma * (1 - P.ecc * cos (solve P.ecc (om * t + P.phase))) := by
    have hpos : 0 ≤ P.sma * (1 - P.ecc * cos (solve P.ecc (om * t + P.phase))) := by
      apply mul_nonneg hs.le; linarith
    rw [← sqrt_sq hpos]
    congr 1
    generalize cos (solve P.ecc (om * t + P.phase)) = c at *
    generalize sin (solve P.ecc (om * t + P.phase)) = sn at *
    have hs2 : sn ^ 2 = 1 - c ^ 2 := by linarith
    field_simp
    rw [hell]
    have : (1 + P.q) ^ 2 * ((c - P.ecc) ^ 2 + sn ^ 2 * (1 - P.ecc * P.ecc)) = (1 + P.q) ^ 2 * (1 - P.ecc * c) ^ 2 := by rw [hs2]; ring
    linear_combination this
  rw [hd]
  have hden : 1 - P.ecc * cos (solve P.ecc (om * t + P.phase)) ≠ 0 := by intro h; linarith
  have hdenp : 0 < 1 - P.ecc * cos (solve P.ecc (om * t + P.phase)) := by linarith
  have hdot : HasDerivAt (fun t => om / (1 - P.ecc * cos (solve P.ecc (om * t + P.phase))))
      (-om * (P.ecc * sin (solve P.ecc (om * t + P.phase)) * ((1 - P.ecc * cos (solve P.ecc (om * t + P.phase)))⁻¹ * om)) /
        (1 - P.ecc * cos (solve P.ecc (om * t + P.phase))) ^ 2) t := by
    refine ((hasDerivAt_const t om).div ((hc.const_mul P.ecc).const_sub 1) hden).congr_deriv ?_
    ring
  have hvx := (hdot.neg.mul_const (-P.sma / (1 + P.q))).mul hsn
  have hvy := ((hdot.mul_const (-P.sma / (1 + P.q))).mul hc).mul_const ell
  have hmass : P.mass = om ^ 2 * P.sma ^ 3 := by rw [hom]; field_simp
  simp only [Pi.mul_apply, Pi.neg_apply] at hvx hvy
  refine ⟨by positivity, hvx.congr_deriv ?_, hvy.congr_deriv ?_, (hvx.const_mul (-P.q)).congr_deriv ?_, (hvy.const_mul (-P.q)).congr_deriv ?_⟩ <;>
  · rw [hmass]
    generalize cos (solve P.ecc (om * t + P.phase)) = c at *
    generalize sin (solve P.ecc (om * t + P.phase)) = sn at *
    have hs2 : sn ^ 2 = 1 - c ^ 2 := by linarith
    have hsm := hs.ne'
    generalize hD : 1 - P.ecc * c = D at *
    have hec : P.ecc * c = 1 - D := by linarith
    field_simp
    rw [← hD]
    first
    | ring1
    | (rw [hs2]; ring1)

/-- a concrete case: an eccentric binary of unequal masses -/
example : ∃ solve : ℝ → ℝ → ℝ, SolvesKepler (1 / 2) (solve (1 / 2)) ∧
    let s := keplerOrbit ⟨2, 1 / 3, 5, 1 / 2, 1⟩ solve
    0 < √(((s 7).X1 - (s 7).X0) ^ 2 + ((s 7).Y1 - (s 7).Y0) ^ 2) := by
  obtain ⟨E, hE⟩ := exists_solvesKepler (1 / 2)
  exact ⟨fun _ => E, hE, (C66_newton ⟨2, 1 / 3, 5, 1 / 2, 1⟩ (fun _ => E) (by norm_num) (by norm_num) hE (by norm_num) (by norm_num)
    (by norm_num) 7).1⟩

/-! ## C62 for the potential of the binary -/

/-- the Hessian with the opposite sign -/
def negHess (h : HessCar) : HessCar := ⟨-h.dx2, -h.dy2, -h.dz2, -h.dxdy, -h.dydz, -h.dxdz⟩

/-- adding one point mass keeps the gradient right; the Hessian is right up to an overall sign -/
theorem addPointMass_ok (o : PosCar → OutCar) (M X Y : ℝ) (p : PosCar) (hd : 0 < (p.x - X) ^ 2 + (p.y - Y) ^ 2 + p.z ^ 2)
    (hg : IsGradCar (fun q => (o q).pot) p (o p).grad) (hh : IsHessCar (fun q => (o q).grad) p (negHess (o p).hess)) :
    let o' := fun q : PosCar => addPointMass (o q) M (q.x - X) (q.y - Y) q.z
    IsGradCar (fun q => (o' q).pot) p (o' p).grad ∧ IsHessCar (fun q => (o' q).grad) p (negHess (o' p).hess) := by
  intro o'
  have aux : ∀ (x y z : ℝ → ℝ) (x' y' z' t : ℝ), HasDerivAt x x' t → HasDerivAt y y' t → HasDerivAt z z' t →
      HasDerivAt (fun s => (x s - X) ^ 2 + (y s - Y) ^ 2 + z s ^ 2) (2 * ((x t - X) * x' + (y t - Y) * y' + z t * z')) t := by
    intro x y z x' y' z' t hx hy hz
    refine ((((hx.sub_const X).pow 2).add ((hy.sub_const Y).pow 2)).add (hz.pow 2)).congr_deriv ?_
    push_cast; ring
  refine ⟨?_, ?_, ?_, ?_⟩
  · intro x y z x' y' z' t hx hy hz e
    have hg' := hg x y z x' y' z' t hx hy hz e
    subst e
    have hu := aux x y z x' y' z' t hx hy hz
    have hw := (hasDerivAt_sqrt_inv hu hd).const_mul M
    refine (hg'.sub hw).congr_deriv ?_
    simp only [o', addPointMass]
    simp only at hd
    generalize √(1 / ((x t - X) ^ 2 + (y t - Y) ^ 2 + z t ^ 2)) = w
    have := hd.ne'
    field_simp
    ring
  · intro x y z x' y' z' t hx hy hz e
    have hh' := hh.1 x y z x' y' z' t hx hy hz e
    subst e
    have hu := aux x y z x' y' z' t hx hy hz
    have hw := (hasDerivAt_sqrt_inv hu hd).const_mul M
    have hi := (hasDerivAt_const t (1 : ℝ)).div hu hd.ne'
    refine (hh'.add (((hx.sub_const X).mul hw).mul hi)).congr_deriv ?_
    simp only [o', addPointMass, negHess, Pi.mul_apply, Pi.div_apply]
    simp only at hd
    generalize √(1 / ((x t - X) ^ 2 + (y t - Y) ^ 2 + z t ^ 2)) = w
    have := hd.ne'
    field_simp
    ring
  · intro x y z x' y' z' t hx hy hz e
    have hh' := hh.2.1 x y z x' y' z' t hx hy hz e
    subst e
    have hu := aux x y z x' y' z' t hx hy hz
    have hw := (hasDerivAt_sqrt_inv hu hd).const_mul M
    have hi := (hasDerivAt_const t (1 : ℝ)).div hu hd.ne'
    refine (hh'.add (((hy.sub_const Y).mul hw).mul hi)).congr_deriv ?_
    simp only [o', addPointMass, negHess, Pi.mul_apply, Pi.div_apply]
    simp only at hd
    generalize √(1 / ((x t - X) ^ 2 + (y t - Y) ^ 2 + z t ^ 2)) = w
    have := hd.ne'
    field_simp
    ring
  · intro x y z x' y' z' t hx hy hz e
    have hh' := hh.2.2 x y z x' y' z' t hx hy hz e
    subst e
    have hu := aux x y z x' y' z' t hx hy hz
    have hw := (hasDerivAt_sqrt_inv hu hd).const_mul M
    have hi := (hasDerivAt_const t (1 : ℝ)).div hu hd.ne'
    refine (hh'.add ((hz.mul hw).mul hi)).congr_deriv ?_
    simp only [o', addPointMass, negHess, Pi.mul_apply, Pi.div_apply]
    simp only at hd
    generalize √(1 / ((x t - X) ^ 2 + (y t - Y) ^ 2 + z t ^ 2)) = w
    have := hd.ne'
    field_simp
    ring

theorem zeroOut_ok (p : PosCar) : IsGradCar (fun _ => zeroOut.pot) p zeroOut.grad ∧ IsHessCar (fun _ => zeroOut.grad) p (negHess zeroOut.hess) := by
  refine ⟨?_, ?_, ?_, ?_⟩ <;> intro x y z x' y' z' t hx hy hz e <;> simpa [zeroOut, negHess] using hasDerivAt_const t (0 : ℝ)

/-- C62, binary black hole: away from the black holes the reported gradient is the gradient of the reported potential (first part).
What is missing: the reported Hessian has the wrong sign everywhere (second part, and `C62_keplerBinary_hess_refuted`). -/
theorem C62_keplerBinary_partial (P : KBParams) (s : KBState) (p : PosCar)
    (h0 : 0 < (p.x - s.X0) ^ 2 + (p.y - s.Y0) ^ 2 + p.z ^ 2) (h1 : 0 < (p.x - s.X1) ^ 2 + (p.y - s.Y1) ^ 2 + p.z ^ 2) :
    IsGradCar (fun q => (keplerBinary P s q).pot) p (keplerBinary P s p).grad ∧
    IsHessCar (fun q => (keplerBinary P s q).grad) p (negHess (keplerBinary P s p).hess) := by
  have k0 := fun M => addPointMass_ok (fun _ => zeroOut) M s.X0 s.Y0 p h0 (zeroOut_ok p).1 (zeroOut_ok p).2
  by_cases hb : P.sma ≠ 0 ∧ P.q ≠ 0
  · have e : keplerBinary P s = fun q => addPointMass (addPointMass zeroOut (P.mass / (1 + P.q)) (q.x - s.X0) (q.y - s.Y0) q.z)
      (P.mass * P.q / (1 + P.q)) (q.x - s.X1) (q.y - s.Y1) q.z := by
      funext q; rw [keplerBinary, if_pos hb]
    rw [e]
    exact addPointMass_ok _ _ s.X1 s.Y1 p h1 (k0 _).1 (k0 _).2
  · have e : keplerBinary P s = fun q => addPointMass zeroOut P.mass (q.x - s.X0) (q.y - s.Y0) q.z := by
      funext q; rw [keplerBinary, if_neg hb]
    rw [e]
    exact k0 _

/-- C62 fails for the Hessian of the (single or binary) black hole: for one unit mass at the origin the reported second derivative along
the line of sight is +2 at unit distance, and the true one is -2 -/
theorem C62_keplerBinary_hess_refuted :
    let P : KBParams := ⟨1, 0, 0, 0, 0⟩
    let s := keplerOrbit P (fun _ m => m) 0
    ¬ IsHessCar (fun q => (keplerBinary P s q).grad) ⟨1, 0, 0⟩ (keplerBinary P s ⟨1, 0, 0⟩).hess := by
  intro P s h
  have hs : s = ⟨0, 0, 0, 0, 0, 0, 0, 0⟩ := by simp [s, P, keplerOrbit]
  have h' := (C62_keplerBinary_partial P s ⟨1, 0, 0⟩ (by simp [hs]) (by simp [hs])).2
  have a := (h.1.partials).1
  have b := (h'.1.partials).1
  have e := a.unique b
  rw [hs] at e
  simp [P, keplerBinary, addPointMass, zeroOut, negHess] at e
  norm_num at e

/-- C62: the stand-alone potential function of the binary returns the same value as the potential class -/
theorem C62_keplerBinary_potential (P : KBParams) (s : KBState) (p : PosCar) : keplerBinaryPotential P s p = (keplerBinary P s p).pot := by
  simp only [keplerBinaryPotential, keplerBinary]
  split_ifs <;> simp [addPointMass, zeroOut]

/-! ## the Kepler equation -/

open Classical in
/-- one iteration of Halley's method, math_specfunc.cpp:363-369: the correction; `none` is a division by zero (infinity or NaN, after which
the loop ends with NaN: the next correction is NaN and the comparison is false) -/
noncomputable def halleyStep (ecc phase eta : ℝ) : Option ℝ :=
  let sineta := sin eta
  let coseta := cos eta
  let f := eta - ecc * sineta - phase
  let df := 1 - ecc * coseta
  let d2f := ecc * sineta
  let den := df * df - 0.5 * f * d2f
  if den = 0 then none else some (-f * df / den)

open Classical in
/-- math_specfunc.cpp:363-370: the loop; `none` when more than `fuel` iterations are needed or the result is NaN -/
noncomputable def halleyLoop (ecc phase : ℝ) : ℕ → ℝ → Option ℝ
  | 0, _ => none
  | fuel + 1, eta =>
    match halleyStep ecc phase eta with
    | none => none
    | some delta => if |delta| > 1e-5 then halleyLoop ecc phase fuel (eta + delta) else some (eta + delta)

open Classical in
/-- cube root with sign, `cbrt` -/
noncomputable def cbrt (x : ℝ) : ℝ := if 0 ≤ x then x ^ (1 / 3 : ℝ) else -(-x) ^ (1 / 3 : ℝ)

open Classical in
/-- math_specfunc.cpp:354-362: the starting point -/
noncomputable def keplerStart (ecc phase : ℝ) : ℝ :=
  if ecc > 0.95 ∧ (phase < 0.3 ∨ phase > 6) then
    let phase1 := if phase ≤ π then phase else phase - 2 * π
    phase + ecc ^ 2 * (cbrt (6 * phase1) - phase1)
  else phase + ecc * sin phase / √(1 - ecc * (2 * cos phase - ecc))

open Classical in
/-- math_specfunc.cpp:348-374 -/
noncomputable def solveKepler (fuel : ℕ) (ecc phase : ℝ) : Option ℝ :=
  let phase := phase - 2 * π * ⌊1 / (2 * π) * phase⌋
  if phase = 0 ∨ phase = π then some phase
  else halleyLoop ecc phase fuel (keplerStart ecc phase)

/-- Taylor's formula for the sine with cubic remainder -/
theorem sin_taylor3 (a d : ℝ) (hd : |d| ≤ 0.3) : |sin (a + d) - (sin a + cos a * d - sin a * d ^ 2 / 2)| ≤ |d| ^ 3 / 5 := by
  have h1 : |sin d - (d - d ^ 3 / 6)| ≤ |d| ^ 4 * (5 / 96) := by
    have h := Real.sin_bound (x := d) (by linarith)
    have h5 : |d| ^ 5 ≤ 0.3 * |d| ^ 4 := by
      have : |d| ^ 5 = |d| * |d| ^ 4 := by ring
      rw [this]; gcongr
    have : 0 ≤ |d| ^ 4 := by positivity
    linarith
  have h2 := Real.cos_bound (x := d) (by linarith)
  have e : sin (a + d) - (sin a + cos a * d - sin a * d ^ 2 / 2) =
      sin a * (cos d - (1 - d ^ 2 / 2)) + cos a * (sin d - (d - d ^ 3 / 6)) - cos a * (d ^ 3 / 6) := by
    rw [sin_add]; ring
  rw [e]
  have b1 : |sin a * (cos d - (1 - d ^ 2 / 2))| ≤ |d| ^ 4 * (5 / 96) := by
    rw [abs_mul]
    calc _ ≤ 1 * |cos d - (1 - d ^ 2 / 2)| := by gcongr; exact abs_sin_le_one a
      _ ≤ _ := by linarith
  have b2 : |cos a * (sin d - (d - d ^ 3 / 6))| ≤ |d| ^ 4 * (5 / 96) := by
    rw [abs_mul]
    calc _ ≤ 1 * |sin d - (d - d ^ 3 / 6)| := by gcongr; exact abs_cos_le_one a
      _ ≤ _ := by linarith
  have b3 : |cos a * (d ^ 3 / 6)| ≤ |d| ^ 3 / 6 := by
    rw [abs_mul, abs_div, abs_pow]
    calc _ ≤ 1 * (|d| ^ 3 / |6|) := by gcongr; exact abs_cos_le_one a
      _ = _ := by norm_num
  have b4 : |d| ^ 4 ≤ 0.3 * |d| ^ 3 := by
    have : |d| ^ 4 = |d| * |d| ^ 3 := by ring
    rw [this]; gcongr
  have t1 := abs_sub (sin a * (cos d - (1 - d ^ 2 / 2)) + cos a * (sin d - (d - d ^ 3 / 6))) (cos a * (d ^ 3 / 6))
  have t2 := abs_add_le (sin a * (cos d - (1 - d ^ 2 / 2))) (cos a * (sin d - (d - d ^ 3 / 6)))
  have hp : 0 ≤ |d| ^ 3 := by positivity
  linarith

/-- the residual of the Kepler equation after a Halley step δ with |δ| ≤ 10⁻⁵ is at most 1.2 |δ|³ -/
theorem halley_residual (ecc phase eta delta : ℝ) (h0 : 0 ≤ ecc) (h1 : ecc ≤ 1 - 2e-10) (hs : halleyStep ecc phase eta = some delta)
    (hd : |delta| ≤ 1e-5) :
    |(eta + delta) - ecc * sin (eta + delta) - phase| ≤ 1.2 * |delta| ^ 3 := by
  simp only [halleyStep] at hs
  split_ifs at hs with hden
  have ht := sin_taylor3 eta delta (by linarith [show (1e-5 : ℝ) ≤ 0.3 by norm_num])
  have hsc := sin_sq_add_cos_sq eta
  have hcb : ecc * cos eta ≤ ecc * 1 := mul_le_mul_of_nonneg_left (cos_le_one _) h0
  simp only [Option.some.injEq] at hs
  rw [div_eq_iff hden] at hs
  generalize sin eta = sn at *
  generalize cos eta = c at *
  generalize hdf : 1 - ecc * c = df at *
  generalize hf : eta - ecc * sn - phase = f at *
  generalize hd2 : ecc * sn = d2f at *
  have hdfp : 2e-10 ≤ df := by linarith
  have hdf0 : 0 < df := lt_of_lt_of_le (by norm_num) hdfp
  have hd2f : d2f ^ 2 ≤ 2 * df := by
    have e2 : ecc ^ 2 ≤ 1 := by nlinarith [show (0:ℝ) < 2e-10 by norm_num]
    have : d2f ^ 2 = ecc ^ 2 - (1 - df) ^ 2 := by rw [← hd2, ← hdf]; linear_combination ecc ^ 2 * hsc
    nlinarith [sq_nonneg df]
  have hK : (f + df * delta + d2f * delta ^ 2 / 2) * (df - delta * d2f / 2) * 4 = -delta ^ 3 * d2f ^ 2 := by
    have q1 : df * (f + df * delta) = delta * f * d2f / 2 := by linear_combination -hs
    have q2 : f * (df - delta * d2f / 2) = -delta * df ^ 2 := by linear_combination -hs
    have q3 : df ^ 2 * ((f + df * delta + d2f * delta ^ 2 / 2) * (df - delta * d2f / 2) * 4) = df ^ 2 * (-delta ^ 3 * d2f ^ 2) := by
      have q4 : df ^ 2 * (f + df * delta + d2f * delta ^ 2 / 2) = delta ^ 2 * d2f ^ 2 * f / 4 := by
        linear_combination (df + delta * d2f / 2) * q1
      linear_combination 4 * (df - delta * d2f / 2) * q4 + delta ^ 2 * d2f ^ 2 * q2
    exact mul_left_cancel₀ (by positivity) q3
  have hhalf : |delta * d2f / 2| ≤ df / 2 := by
    rw [abs_div, abs_two, div_le_div_iff_of_pos_right two_pos]
    apply abs_le_of_sq_le_sq _ hdf0.le
    have d2 : delta ^ 2 ≤ 1e-10 := by
      have := sq_le_sq' (by linarith [abs_nonneg delta]) hd
      rw [sq_abs] at this; linarith [show ((1e-5 : ℝ)) ^ 2 = 1e-10 by norm_num]
    calc (delta * d2f) ^ 2 = delta ^ 2 * d2f ^ 2 := by ring
      _ ≤ 1e-10 * (2 * df) := by gcongr
      _ ≤ df ^ 2 := by nlinarith
  have hlow : df / 2 ≤ |df - delta * d2f / 2| := by
    have := (abs_le.mp hhalf).2
    rw [abs_of_nonneg (by linarith)]; linarith
  have hKb : |f + df * delta + d2f * delta ^ 2 / 2| ≤ |delta| ^ 3 := by
    have e := congrArg abs hK
    rw [abs_mul, abs_mul, abs_mul, abs_neg, abs_pow, abs_pow, sq_abs] at e
    norm_num at e
    have p3 : 0 ≤ |delta| ^ 3 := by positivity
    have : |f + df * delta + d2f * delta ^ 2 / 2| * (df / 2) * 4 ≤ |delta| ^ 3 * (2 * df) := by
      calc _ ≤ |f + df * delta + d2f * delta ^ 2 / 2| * |df - delta * d2f / 2| * 4 := by gcongr
        _ = |delta| ^ 3 * d2f ^ 2 := e
        _ ≤ _ := by gcongr
    nlinarith
  have e : (eta + delta) - ecc * sin (eta + delta) - phase = (f + df * delta + d2f * delta ^ 2 / 2) -
      ecc * (sin (eta + delta) - (sn + c * delta - sn * delta ^ 2 / 2)) := by
    rw [← hf, ← hdf, ← hd2]; ring
  rw [e]
  have hb := abs_sub (f + df * delta + d2f * delta ^ 2 / 2) (ecc * (sin (eta + delta) - (sn + c * delta - sn * delta ^ 2 / 2)))
  have hb2 : |ecc * (sin (eta + delta) - (sn + c * delta - sn * delta ^ 2 / 2))| ≤ 1 * (|delta| ^ 3 / 5) := by
    rw [abs_mul, abs_of_nonneg h0]
    gcongr
    linarith [show (0:ℝ) < 2e-10 by norm_num]
  linarith

/-- C66 (partial: that the iteration always ends is not proved): whenever `solveKepler` returns a number, it satisfies the Kepler equation for
the phase reduced to one period with an error not exceeding 1.2·10⁻¹⁵, as the comment in the code promises -/
theorem C66_solveKepler_partial (fuel : ℕ) (ecc phase eta : ℝ) (h0 : 0 ≤ ecc) (h1 : ecc ≤ 1 - 2e-10) (h : solveKepler fuel ecc phase = some eta) :
    ∃ k : ℤ, 0 ≤ phase - k * (2 * π) ∧ phase - k * (2 * π) < 2 * π ∧ |eta - ecc * sin eta - (phase - k * (2 * π))| ≤ 1.2e-15 := by
  have hp := two_pi_pos
  refine ⟨⌊1 / (2 * π) * phase⌋, ?_, ?_, ?_⟩
  · have := Int.floor_le (1 / (2 * π) * phase)
    rw [div_mul_eq_mul_div, one_mul, le_div_iff₀ hp] at this
    rw [div_mul_eq_mul_div, one_mul]; linarith
  · have := Int.lt_floor_add_one (1 / (2 * π) * phase)
    rw [div_mul_eq_mul_div, one_mul, div_lt_iff₀ hp] at this
    rw [div_mul_eq_mul_div, one_mul]; linarith
  simp only [solveKepler] at h
  rw [mul_comm (2 * π)] at h
  generalize phase - ⌊1 / (2 * π) * phase⌋ * (2 * π) = m at *
  split_ifs at h with hm
  · cases h
    rcases hm with rfl | rfl <;> norm_num
  · generalize keplerStart ecc m = e0 at h
    induction fuel generalizing e0 with
    | zero => simp [halleyLoop] at h
    | succ n ih =>
      simp only [halleyLoop] at h
      cases hst : halleyStep ecc m e0 with
      | none => simp [hst] at h
      | some d =>
        simp only [hst] at h
        split_ifs at h with hd
        · exact ih _ h
        · cases h
          push Not at hd
          have := halley_residual ecc m e0 d h0 h1 hst hd
          have h3 : |d| ^ 3 ≤ (1e-5 : ℝ) ^ 3 := pow_le_pow_left₀ (abs_nonneg d) hd 3
          norm_num at h3 ⊢
          linarith

/-- C66: for a circular orbit one iteration suffices and the result is exact -/
theorem C66_solveKepler_circular (fuel : ℕ) (phase : ℝ) :
    solveKepler (fuel + 1) 0 phase = some (phase - 2 * π * ⌊1 / (2 * π) * phase⌋) := by
  simp only [solveKepler]
  split_ifs
  · rfl
  · have : ¬ ((0 : ℝ) > 1e-5) := by norm_num
    simp [halleyLoop, halleyStep, keplerStart]
    norm_num

end Verif.Pot
