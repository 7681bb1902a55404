import Verif.Pot.FerrersEval
import Mathlib.MeasureTheory.Integral.IntegralEqImproper

set_option linter.unusedSimpArgs false

/-! # C100: Ferrers potential: expansion at large radii; the values of integrals -/

namespace Verif.Pot

open Real Verif.Coord Filter Topology

namespace FerrersP

variable {P : FerrersP}

/-- the inverse radius along a curve -/
theorem hasDerivAt_invr {x y z : ℝ → ℝ} {x' y' z' t : ℝ} (hx : HasDerivAt x x' t) (hy : HasDerivAt y y' t) (hz : HasDerivAt z z' t) (hp : 0 < x t ^ 2 + y t ^ 2 + z t ^ 2) :
    HasDerivAt (fun s => (√(x s ^ 2 + y s ^ 2 + z s ^ 2))⁻¹) (-(x t * x' + y t * y' + z t * z') * ((√(x t ^ 2 + y t ^ 2 + z t ^ 2))⁻¹) ^ 3) t := by
  have h1 : HasDerivAt (fun s => x s ^ 2 + y s ^ 2 + z s ^ 2) (2 * (x t * x' + y t * y' + z t * z')) t := by
    refine (((hx.pow 2).add (hy.pow 2)).add (hz.pow 2)).congr_deriv ?_
    push_cast; ring
  have sp := (sqrt_pos.mpr hp).ne'
  refine ((h1.sqrt hp.ne').inv sp).congr_deriv ?_
  field_simp

theorem far_pot (p : PosCar) (hp : 0 < p.x ^ 2 + p.y ^ 2 + p.z ^ 2) (v : ℝ) (hv : v = (√(p.x ^ 2 + p.y ^ 2 + p.z ^ 2))⁻¹) :
    let K := (32 * π / 105) * P.rho0 * P.a * P.b * P.c
    let C20 := 1 / 36 * (2 * P.c * P.c - P.a * P.a - P.b * P.b)
    let C22 := 1 / 12 * (P.b * P.b - P.a * P.a)
    let Q := C20 * (2 * p.z ^ 2 - p.x ^ 2 - p.y ^ 2) + C22 * (p.y ^ 2 - p.x ^ 2)
    (P.evalFar p).pot = -K * (v + Q * v ^ 5) ∧
    (P.evalFar p).grad = ⟨p.x * (K * (v ^ 3 + 5 * Q * v ^ 7 + 2 * (C20 + C22) * v ^ 5)), p.y * (K * (v ^ 3 + 5 * Q * v ^ 7 + 2 * (C20 - C22) * v ^ 5)),
      p.z * (K * (v ^ 3 + 5 * Q * v ^ 7 + (-4 * C20) * v ^ 5))⟩ ∧
    (P.evalFar p).hess =
      { dx2 := K * v ^ 3 * (1 - 3 * p.x ^ 2 * v ^ 2 + 5 * Q * v ^ 4 * (1 - 7 * p.x ^ 2 * v ^ 2) + 2 * (C20 + C22) * v ^ 2 * (1 - 10 * p.x ^ 2 * v ^ 2))
        dy2 := K * v ^ 3 * (1 - 3 * p.y ^ 2 * v ^ 2 + 5 * Q * v ^ 4 * (1 - 7 * p.y ^ 2 * v ^ 2) + 2 * (C20 - C22) * v ^ 2 * (1 - 10 * p.y ^ 2 * v ^ 2))
        dz2 := K * v ^ 3 * (1 - 3 * p.z ^ 2 * v ^ 2 + 5 * Q * v ^ 4 * (1 - 7 * p.z ^ 2 * v ^ 2) - 4 * C20 * v ^ 2 * (1 - 10 * p.z ^ 2 * v ^ 2))
        dxdy := K * v ^ 3 * p.x * p.y * v ^ 2 * (-3 - 5 * Q * v ^ 4 * 7 - 20 * C20 * v ^ 2)
        dydz := K * v ^ 3 * p.y * p.z * v ^ 2 * (-3 - 5 * Q * v ^ 4 * 7 + 10 * (C20 + C22) * v ^ 2)
        dxdz := K * v ^ 3 * p.z * p.x * v ^ 2 * (-3 - 5 * Q * v ^ 4 * 7 + 10 * (C20 - C22) * v ^ 2) } := by
  have e2 : (p.x ^ 2 + p.y ^ 2 + p.z ^ 2)⁻¹ = v ^ 2 := by rw [hv, inv_pow, sq_sqrt hp.le]
  simp only [evalFar, div_eq_mul_inv _ (p.x ^ 2 + p.y ^ 2 + p.z ^ 2), div_eq_mul_inv _ ((p.x ^ 2 + p.y ^ 2 + p.z ^ 2) * (p.x ^ 2 + p.y ^ 2 + p.z ^ 2)),
    div_eq_mul_inv _ √(p.x ^ 2 + p.y ^ 2 + p.z ^ 2), mul_inv (p.x ^ 2 + p.y ^ 2 + p.z ^ 2), e2, ← hv]
  refine ⟨by ring, ?_, ?_⟩
  · congr 1 <;> ring
  · congr 1 <;> ring

/-- C100: at large radii, the derivatives are those of the multipole expansion, and the Laplacian vanishes as does the density -/
theorem C100_ferrers_far (h : P.Ok) (lam : PosCar → ℝ) (p : PosCar) (hr : p.x ^ 2 + p.y ^ 2 + p.z ^ 2 > (10 * P.a) ^ 2) :
    OkCar (P.eval lam) p ∧ (P.eval lam p).hess.dx2 + (P.eval lam p).hess.dy2 + (P.eval lam p).hess.dz2 = 4 * π * P.density p := by
  have a0 := h.a0
  have ev : ∀ q : PosCar, q.x ^ 2 + q.y ^ 2 + q.z ^ 2 > (10 * P.a) ^ 2 → P.eval lam q = P.evalFar q := by
    intro q hq
    rw [eval, if_pos hq]
  have hp : 0 < p.x ^ 2 + p.y ^ 2 + p.z ^ 2 := lt_of_le_of_lt (sq_nonneg _) hr
  have loc : ∀ x y z : ℝ → ℝ, ∀ t, ContinuousAt x t → ContinuousAt y t → ContinuousAt z t → (⟨x t, y t, z t⟩ : PosCar) = p →
      ∀ᶠ s in 𝓝 t, P.eval lam ⟨x s, y s, z s⟩ = P.evalFar ⟨x s, y s, z s⟩ ∧ 0 < x s ^ 2 + y s ^ 2 + z s ^ 2 := by
    intro x y z t hx hy hz e
    subst e
    have c' : ContinuousAt (fun s => x s ^ 2 + y s ^ 2 + z s ^ 2) t := by fun_prop
    filter_upwards [c'.eventually (lt_mem_nhds hr)] with s hs
    exact ⟨ev _ hs, lt_of_le_of_lt (sq_nonneg _) hs⟩
  constructor
  · refine ⟨?_, ?_, ?_, ?_⟩
    · intro x y z x' y' z' t hx hy hz e
      have lc := loc x y z t hx.continuousAt hy.continuousAt hz.continuousAt e
      subst e
      rw [ev _ hr]
      have hv := hasDerivAt_invr hx hy hz hp
      have X := hx.pow 2
      have Y := hy.pow 2
      have Z := hz.pow 2
      have Q := ((((Z.const_mul 2).sub X).sub Y).const_mul (1 / 36 * (2 * P.c * P.c - P.a * P.a - P.b * P.b))).add
        ((Y.sub X).const_mul (1 / 12 * (P.b * P.b - P.a * P.a)))
      obtain ⟨e0, e1, e2⟩ := far_pot (P := P) ⟨x t, y t, z t⟩ hp _ rfl
      simp only [e1, e2]
      have T := ((hv.add (Q.mul (hv.pow 5))).const_mul (-((32 * π / 105) * P.rho0 * P.a * P.b * P.c)))
      refine (T.congr_deriv ?_).congr_of_eventuallyEq ?_
      · simp only [Pi.neg_apply, Pi.add_apply, Pi.sub_apply, Pi.mul_apply, Pi.pow_apply, Pi.div_apply]
        push_cast
        ring
      · filter_upwards [lc] with s hs
        obtain ⟨f0, f1, f2⟩ := far_pot (P := P) ⟨x s, y s, z s⟩ hs.2 _ rfl
        simp only [hs.1, f0]
        simp only [Pi.neg_apply, Pi.add_apply, Pi.sub_apply, Pi.mul_apply, Pi.pow_apply, Pi.div_apply]
    · intro x y z x' y' z' t hx hy hz e
      have lc := loc x y z t hx.continuousAt hy.continuousAt hz.continuousAt e
      subst e
      rw [ev _ hr]
      have hv := hasDerivAt_invr hx hy hz hp
      have X := hx.pow 2
      have Y := hy.pow 2
      have Z := hz.pow 2
      have Q := ((((Z.const_mul 2).sub X).sub Y).const_mul (1 / 36 * (2 * P.c * P.c - P.a * P.a - P.b * P.b))).add
        ((Y.sub X).const_mul (1 / 12 * (P.b * P.b - P.a * P.a)))
      obtain ⟨e0, e1, e2⟩ := far_pot (P := P) ⟨x t, y t, z t⟩ hp _ rfl
      simp only [e1, e2]
      have T := hx.mul ((((hv.pow 3).add ((Q.const_mul 5).mul (hv.pow 7))).add ((hv.pow 5).const_mul (2 * ((1 / 36 * (2 * P.c * P.c - P.a * P.a - P.b * P.b)) + (1 / 12 * (P.b * P.b - P.a * P.a)))))).const_mul ((32 * π / 105) * P.rho0 * P.a * P.b * P.c))
      refine (T.congr_deriv ?_).congr_of_eventuallyEq ?_
      · simp only [Pi.neg_apply, Pi.add_apply, Pi.sub_apply, Pi.mul_apply, Pi.pow_apply, Pi.div_apply]
        push_cast
        ring
      · filter_upwards [lc] with s hs
        obtain ⟨f0, f1, f2⟩ := far_pot (P := P) ⟨x s, y s, z s⟩ hs.2 _ rfl
        simp only [hs.1, f1]
        simp only [Pi.neg_apply, Pi.add_apply, Pi.sub_apply, Pi.mul_apply, Pi.pow_apply, Pi.div_apply]
    · intro x y z x' y' z' t hx hy hz e
      have lc := loc x y z t hx.continuousAt hy.continuousAt hz.continuousAt e
      subst e
      rw [ev _ hr]
      have hv := hasDerivAt_invr hx hy hz hp
      have X := hx.pow 2
      have Y := hy.pow 2
      have Z := hz.pow 2
      have Q := ((((Z.const_mul 2).sub X).sub Y).const_mul (1 / 36 * (2 * P.c * P.c - P.a * P.a - P.b * P.b))).add
        ((Y.sub X).const_mul (1 / 12 * (P.b * P.b - P.a * P.a)))
      obtain ⟨e0, e1, e2⟩ := far_pot (P := P) ⟨x t, y t, z t⟩ hp _ rfl
      simp only [e1, e2]
      have T := hy.mul ((((hv.pow 3).add ((Q.const_mul 5).mul (hv.pow 7))).add ((hv.pow 5).const_mul (2 * ((1 / 36 * (2 * P.c * P.c - P.a * P.a - P.b * P.b)) - (1 / 12 * (P.b * P.b - P.a * P.a)))))).const_mul ((32 * π / 105) * P.rho0 * P.a * P.b * P.c))
      refine (T.congr_deriv ?_).congr_of_eventuallyEq ?_
      · simp only [Pi.neg_apply, Pi.add_apply, Pi.sub_apply, Pi.mul_apply, Pi.pow_apply, Pi.div_apply]
        push_cast
        ring
      · filter_upwards [lc] with s hs
        obtain ⟨f0, f1, f2⟩ := far_pot (P := P) ⟨x s, y s, z s⟩ hs.2 _ rfl
        simp only [hs.1, f1]
        simp only [Pi.neg_apply, Pi.add_apply, Pi.sub_apply, Pi.mul_apply, Pi.pow_apply, Pi.div_apply]
    · intro x y z x' y' z' t hx hy hz e
      have lc := loc x y z t hx.continuousAt hy.continuousAt hz.continuousAt e
      subst e
      rw [ev _ hr]
      have hv := hasDerivAt_invr hx hy hz hp
      have X := hx.pow 2
      have Y := hy.pow 2
      have Z := hz.pow 2
      have Q := ((((Z.const_mul 2).sub X).sub Y).const_mul (1 / 36 * (2 * P.c * P.c - P.a * P.a - P.b * P.b))).add
        ((Y.sub X).const_mul (1 / 12 * (P.b * P.b - P.a * P.a)))
      obtain ⟨e0, e1, e2⟩ := far_pot (P := P) ⟨x t, y t, z t⟩ hp _ rfl
      simp only [e1, e2]
      have T := hz.mul ((((hv.pow 3).add ((Q.const_mul 5).mul (hv.pow 7))).add ((hv.pow 5).const_mul (-4 * (1 / 36 * (2 * P.c * P.c - P.a * P.a - P.b * P.b))))).const_mul ((32 * π / 105) * P.rho0 * P.a * P.b * P.c))
      refine (T.congr_deriv ?_).congr_of_eventuallyEq ?_
      · simp only [Pi.neg_apply, Pi.add_apply, Pi.sub_apply, Pi.mul_apply, Pi.pow_apply, Pi.div_apply]
        push_cast
        ring
      · filter_upwards [lc] with s hs
        obtain ⟨f0, f1, f2⟩ := far_pot (P := P) ⟨x s, y s, z s⟩ hs.2 _ rfl
        simp only [hs.1, f1]
        simp only [Pi.neg_apply, Pi.add_apply, Pi.sub_apply, Pi.mul_apply, Pi.pow_apply, Pi.div_apply]
  · rw [ev p hr]
    obtain ⟨e0, e1, e2⟩ := far_pot (P := P) p hp _ rfl
    rw [e2]
    have r := r2_le h p
    have hm : p.x ^ 2 / (P.a * P.a) + p.y ^ 2 / (P.b * P.b) + p.z ^ 2 / (P.c * P.c) > 1 := by
      by_contra hn
      have : 0 < P.a ^ 2 := by positivity
      nlinarith
    have e3 : (p.x / P.a) ^ 2 + (p.y / P.b) ^ 2 + (p.z / P.c) ^ 2 = p.x ^ 2 / (P.a * P.a) + p.y ^ 2 / (P.b * P.b) + p.z ^ 2 / (P.c * P.c) := by
      rw [div_pow, div_pow, div_pow, sq P.a, sq P.b, sq P.c]
    rw [density, e3]
    simp only
    rw [if_pos hm]
    have hv : (p.x ^ 2 + p.y ^ 2 + p.z ^ 2) * (√(p.x ^ 2 + p.y ^ 2 + p.z ^ 2))⁻¹ ^ 2 = 1 := by
      rw [inv_pow, sq_sqrt hp.le, mul_inv_cancel₀ hp.ne']
    generalize (√(p.x ^ 2 + p.y ^ 2 + p.z ^ 2))⁻¹ = v at *
    have m0 : 4 * π * (0 : ℝ) = 0 := by ring
    rw [m0]
    linear_combination (32 * π / 105) * P.rho0 * P.a * P.b * P.c * v ^ 3 * (-3 - 35 * (1 / 36 * (2 * P.c * P.c - P.a * P.a - P.b * P.b) * (2 * p.z ^ 2 - p.x ^ 2 - p.y ^ 2) +
      1 / 12 * (P.b * P.b - P.a * P.a) * (p.y ^ 2 - p.x ^ 2)) * v ^ 4) * hv

/-! ## values of the integrals -/

theorem tendsto_base (h : P.Ok) : Tendsto (fun l => ellintF (P.argphi l) P.modk) atTop (𝓝 0) ∧ Tendsto (fun l => ellintE (P.argphi l) P.modk) atTop (𝓝 0) ∧
    Tendsto (fun l => 1 / P.denom l) atTop (𝓝 0) ∧ Tendsto (fun l => (P.b * P.b + l) / P.denom l) atTop (𝓝 0) := by
  have a0 := h.a0
  have b0 := h.b0
  have c0 := h.c0
  have hphi : Tendsto P.argphi atTop (𝓝 0) := by
    have h1 : Tendsto (fun l : ℝ => (P.a * P.a - P.c * P.c) / (P.a * P.a + l)) atTop (𝓝 0) :=
      tendsto_const_nhds.div_atTop (tendsto_atTop_add_const_left _ _ tendsto_id)
    have h2 := (continuous_arcsin.comp continuous_sqrt).tendsto 0 |>.comp h1
    simp only [Function.comp_apply, sqrt_zero, arcsin_zero] at h2
    exact h2
  have F0 : ellintF 0 P.modk = 0 := by simp [ellintF]
  have E0 : ellintE 0 P.modk = 0 := by simp [ellintE]
  have hF : Tendsto (fun l => ellintF (P.argphi l) P.modk) atTop (𝓝 0) := by
    have := ((hasDerivAt_ellintF (modk_lt h) 0).continuousAt.tendsto).comp hphi
    rw [F0] at this
    exact this
  have hE : Tendsto (fun l => ellintE (P.argphi l) P.modk) atTop (𝓝 0) := by
    have := ((hasDerivAt_ellintE (k := P.modk) 0).continuousAt.tendsto).comp hphi
    rw [E0] at this
    exact this
  have inv : ∀ w : ℝ, Tendsto (fun l : ℝ => 1 / √(l + w)) atTop (𝓝 0) := fun w =>
    tendsto_const_nhds.div_atTop (tendsto_sqrt_atTop.comp (tendsto_atTop_add_const_right _ _ tendsto_id))
  refine ⟨hF, hE, ?_, ?_⟩
  · have := ((inv (P.a * P.a)).mul (inv (P.b * P.b))).mul (inv (P.c * P.c))
    simp only [mul_zero] at this
    refine this.congr' ?_
    filter_upwards [eventually_ge_atTop 0] with l hl
    rw [denom_eq h hl]
    field_simp
  · have r : Tendsto (fun l : ℝ => √(l + P.b * P.b) * (1 / √(l + P.c * P.c))) atTop (𝓝 1) := by
      have h1 : Tendsto (fun l : ℝ => 1 + (P.b * P.b - P.c * P.c) / (l + P.c * P.c)) atTop (𝓝 (1 + 0)) :=
        tendsto_const_nhds.add (tendsto_const_nhds.div_atTop (tendsto_atTop_add_const_right _ _ tendsto_id))
      have h2 := (continuous_sqrt.tendsto _).comp h1
      simp only [add_zero, sqrt_one] at h2
      refine h2.congr' ?_
      filter_upwards [eventually_ge_atTop 0] with l hl
      have : 0 < l + P.c * P.c := by positivity
      simp only [Function.comp_apply]
      rw [mul_one_div, ← sqrt_div (by positivity)]
      congr 1
      field_simp
      ring
    have := (inv (P.a * P.a)).mul r
    simp only [zero_mul] at this
    refine this.congr' ?_
    filter_upwards [eventually_ge_atTop 0] with l hl
    have A : 0 < √(l + P.a * P.a) := sqrt_pos.mpr (by positivity)
    have B : 0 < √(l + P.b * P.b) := sqrt_pos.mpr (by positivity)
    have C : 0 < √(l + P.c * P.c) := sqrt_pos.mpr (by positivity)
    have B2 : P.b * P.b + l = √(l + P.b * P.b) ^ 2 := by rw [sq_sqrt (by positivity)]; ring
    rw [denom_eq h hl]
    generalize √(l + P.b * P.b) = sB at *
    rw [B2]
    field_simp


/-- all integrals vanish at large lambda -/
theorem tendsto_W (h : P.Ok) : Tendsto P.W0 atTop (𝓝 0) ∧ Tendsto P.W1 atTop (𝓝 0) ∧ Tendsto P.W2 atTop (𝓝 0) ∧ Tendsto P.W3 atTop (𝓝 0) ∧
    Tendsto P.W4 atTop (𝓝 0) ∧ Tendsto P.W5 atTop (𝓝 0) ∧ Tendsto P.W6 atTop (𝓝 0) ∧ Tendsto P.W7 atTop (𝓝 0) ∧ Tendsto P.W8 atTop (𝓝 0) ∧ Tendsto P.W9 atTop (𝓝 0) ∧
    Tendsto P.W10 atTop (𝓝 0) ∧ Tendsto P.W11 atTop (𝓝 0) ∧ Tendsto P.W12 atTop (𝓝 0) ∧ Tendsto P.W13 atTop (𝓝 0) ∧ Tendsto P.W14 atTop (𝓝 0) ∧
    Tendsto P.W15 atTop (𝓝 0) ∧ Tendsto P.W16 atTop (𝓝 0) ∧ Tendsto P.W17 atTop (𝓝 0) ∧ Tendsto P.W18 atTop (𝓝 0) ∧ Tendsto P.W19 atTop (𝓝 0) := by
  obtain ⟨F, E, D, R⟩ := tendsto_base h
  have D2 : Tendsto (fun l => 2 / P.denom l) atTop (𝓝 0) := by
    have := D.const_mul 2
    rw [mul_zero] at this
    exact this.congr fun l => by ring
  have i : ∀ w : ℝ, Tendsto (fun l : ℝ => (w + l)⁻¹) atTop (𝓝 0) := fun w => tendsto_inv_atTop_zero.comp (tendsto_atTop_add_const_left _ _ tendsto_id)
  have D3 : ∀ w : ℝ, Tendsto (fun l => 2 / P.denom l / (w + l)) atTop (𝓝 0) := fun w => by
    have := D2.mul (i w)
    rw [mul_zero] at this
    exact this.congr fun l => by ring
  have D5 : ∀ w : ℝ, Tendsto (fun l => 2 / P.denom l / (w + l) ^ 2) atTop (𝓝 0) := fun w => by
    have := (D2.mul (i w)).mul (i w)
    rw [mul_zero] at this
    exact this.congr fun l => by rw [div_eq_mul_inv _ ((w + l) ^ 2), ← inv_pow]; ring
  have w0 : Tendsto P.W0 atTop (𝓝 0) := by
    have := (F.const_mul 2).div_const √(P.a * P.a - P.c * P.c)
    simp only [mul_zero, zero_div, sub_zero, neg_zero] at this
    exact this
  have w1 : Tendsto P.W1 atTop (𝓝 0) := by
    have := ((F.sub E).const_mul 2).div_const ((P.a * P.a - P.b * P.b) * √(P.a * P.a - P.c * P.c))
    simp only [mul_zero, zero_div, sub_zero, neg_zero] at this
    exact this
  have w3 : Tendsto P.W3 atTop (𝓝 0) := by
    have := (R.const_mul (2 / (P.b * P.b - P.c * P.c))).sub (((E.const_mul 2).div_const (P.b * P.b - P.c * P.c)).div_const √(P.a * P.a - P.c * P.c))
    simp only [mul_zero, zero_div, sub_zero] at this
    exact this.congr fun l => by rw [W3]; ring
  have w2 : Tendsto P.W2 atTop (𝓝 0) := by
    have := (D2.sub w1).sub w3
    simp only [mul_zero, zero_div, sub_zero, neg_zero] at this
    exact this
  have w4 : Tendsto P.W4 atTop (𝓝 0) := by
    have := (w2.sub w1).div_const (P.a * P.a - P.b * P.b)
    simp only [mul_zero, zero_div, sub_zero, neg_zero] at this
    exact this
  have w5 : Tendsto P.W5 atTop (𝓝 0) := by
    have := (w3.sub w2).div_const (P.b * P.b - P.c * P.c)
    simp only [mul_zero, zero_div, sub_zero, neg_zero] at this
    exact this
  have w6 : Tendsto P.W6 atTop (𝓝 0) := by
    have := (w1.sub w3).neg.div_const (P.a * P.a - P.c * P.c)
    simp only [mul_zero, zero_div, sub_zero, neg_zero] at this
    exact this
  have w7 : Tendsto P.W7 atTop (𝓝 0) := by
    have := (((D3 (P.a * P.a)).sub w4).sub w6).div_const 3
    simp only [mul_zero, zero_div, sub_zero, neg_zero] at this
    exact this
  have w8 : Tendsto P.W8 atTop (𝓝 0) := by
    have := (((D3 (P.b * P.b)).sub w5).sub w4).div_const 3
    simp only [mul_zero, zero_div, sub_zero, neg_zero] at this
    exact this
  have w9 : Tendsto P.W9 atTop (𝓝 0) := by
    have := (((D3 (P.c * P.c)).sub w6).sub w5).div_const 3
    simp only [mul_zero, zero_div, sub_zero, neg_zero] at this
    exact this
  have w10 : Tendsto P.W10 atTop (𝓝 0) := by
    have := (w4.sub w5).neg.div_const (P.a * P.a - P.c * P.c)
    simp only [mul_zero, zero_div, sub_zero, neg_zero] at this
    exact this
  have w11 : Tendsto P.W11 atTop (𝓝 0) := by
    have := (w8.sub w4).div_const (P.a * P.a - P.b * P.b)
    simp only [mul_zero, zero_div, sub_zero, neg_zero] at this
    exact this
  have w12 : Tendsto P.W12 atTop (𝓝 0) := by
    have := (w9.sub w5).div_const (P.b * P.b - P.c * P.c)
    simp only [mul_zero, zero_div, sub_zero, neg_zero] at this
    exact this
  have w13 : Tendsto P.W13 atTop (𝓝 0) := by
    have := (w7.sub w6).neg.div_const (P.a * P.a - P.c * P.c)
    simp only [mul_zero, zero_div, sub_zero, neg_zero] at this
    exact this
  have w14 : Tendsto P.W14 atTop (𝓝 0) := by
    have := (w4.sub w7).div_const (P.a * P.a - P.b * P.b)
    simp only [mul_zero, zero_div, sub_zero, neg_zero] at this
    exact this
  have w15 : Tendsto P.W15 atTop (𝓝 0) := by
    have := (w5.sub w8).div_const (P.b * P.b - P.c * P.c)
    simp only [mul_zero, zero_div, sub_zero, neg_zero] at this
    exact this
  have w16 : Tendsto P.W16 atTop (𝓝 0) := by
    have := (w6.sub w9).neg.div_const (P.a * P.a - P.c * P.c)
    simp only [mul_zero, zero_div, sub_zero, neg_zero] at this
    exact this
  have w17 : Tendsto P.W17 atTop (𝓝 0) := by
    have := (((D5 (P.a * P.a)).sub w14).sub w13).div_const 5
    simp only [mul_zero, zero_div, sub_zero, neg_zero] at this
    exact this
  have w18 : Tendsto P.W18 atTop (𝓝 0) := by
    have := (((D5 (P.b * P.b)).sub w15).sub w11).div_const 5
    simp only [mul_zero, zero_div, sub_zero, neg_zero] at this
    exact this
  have w19 : Tendsto P.W19 atTop (𝓝 0) := by
    have := (((D5 (P.c * P.c)).sub w16).sub w12).div_const 5
    simp only [mul_zero, zero_div, sub_zero, neg_zero] at this
    exact this
  exact ⟨w0, w1, w2, w3, w4, w5, w6, w7, w8, w9, w10, w11, w12, w13, w14, w15, w16, w17, w18, w19⟩

theorem tendsto_pot (h : P.Ok) (p : PosCar) : Tendsto (fun l => (P.evalW p l).pot) atTop (𝓝 0) := by
  obtain ⟨w0, w1, w2, w3, w4, w5, w6, w7, w8, w9, w10, w11, w12, w13, w14, w15, w16, w17, w18, w19⟩ := tendsto_W h
  have A := (((((w7.const_mul 3).sub (w17.const_mul (p.x ^ 2))).const_mul (p.x ^ 2)).add ((((w4.const_mul 2).sub (w11.const_mul (p.y ^ 2))).sub (w14.const_mul (p.x ^ 2))).const_mul (3 * p.y ^ 2))).sub (w1.const_mul 3)).const_mul (p.x ^ 2)
  have B := (((((w8.const_mul 3).sub (w18.const_mul (p.y ^ 2))).const_mul (p.y ^ 2)).add ((((w5.const_mul 2).sub (w12.const_mul (p.z ^ 2))).sub (w15.const_mul (p.y ^ 2))).const_mul (3 * p.z ^ 2))).sub (w2.const_mul 3)).const_mul (p.y ^ 2)
  have C := (((((w9.const_mul 3).sub (w19.const_mul (p.z ^ 2))).const_mul (p.z ^ 2)).add ((((w6.const_mul 2).sub (w13.const_mul (p.x ^ 2))).sub (w16.const_mul (p.z ^ 2))).const_mul (3 * p.x ^ 2))).sub (w3.const_mul 3)).const_mul (p.z ^ 2)
  have T := ((((w0.sub ((((w10.const_mul 6).mul_const (p.x ^ 2)).mul_const (p.y ^ 2)).mul_const (p.z ^ 2))).add A).add B).add C).const_mul (-π / 3 * P.rho0 * P.a * P.b * P.c)
  simp only [mul_zero, zero_mul, sub_zero, add_zero] at T
  exact T.congr fun l => by simp only [evalW]

/-- C100: the reported potential is the integral over homoeoids: Φ = -(π ρ0 a b c / 3) ∫_λ^∞ (1 - x²/(u+a²) - y²/(u+b²) - z²/(u+c²))³ du / Δ(u), Δ(u)² = (u+a²)(u+b²)(u+c²) -/
theorem C100_ferrers_value (h : P.Ok) (p : PosCar) {l : ℝ} (hl : 0 ≤ l) (he : P.ellip p l ≤ 1) :
    (P.evalW p l).pot = -(π / 3 * P.rho0 * P.a * P.b * P.c) *
      ∫ u in Set.Ioi l, (1 - (p.x ^ 2 / (u + P.a * P.a) + p.y ^ 2 / (u + P.b * P.b) + p.z ^ 2 / (u + P.c * P.c))) ^ 3 / √((u + P.a * P.a) * (u + P.b * P.b) * (u + P.c * P.c)) := by
  have a0 := h.a0
  have b0 := h.b0
  have c0 := h.c0
  set K := π / 3 * P.rho0 * P.a * P.b * P.c with hK
  have hd : ∀ u ∈ Set.Ici l, HasDerivAt (fun l => (P.evalW p l).pot) (K * ((1 - P.ellip p u) ^ 3 / P.denom u)) u := by
    intro u hu
    have := pot_total h (hasDerivAt_const u p.x) (hasDerivAt_const u p.y) (hasDerivAt_const u p.z) (hasDerivAt_id u) (hl.trans hu)
    simp only [id] at this
    refine this.congr_deriv ?_
    ring
  have pos : ∀ u ∈ Set.Ioi l, 0 ≤ (1 - P.ellip p u) ^ 3 / P.denom u := by
    intro u hu
    have hu' : l < u := hu
    have u0 : 0 ≤ u := hl.trans hu'.le
    have := ellip_sub h p u0 hl
    have s : 0 ≤ p.x ^ 2 / ((u + P.a * P.a) * (l + P.a * P.a)) + p.y ^ 2 / ((u + P.b * P.b) * (l + P.b * P.b)) + p.z ^ 2 / ((u + P.c * P.c) * (l + P.c * P.c)) := by positivity
    have : 0 ≤ 1 - P.ellip p u := by nlinarith
    have := (denom_sq h u0).2
    positivity
  have tp := tendsto_pot h p
  have fin : ∫ u in Set.Ioi l, K * ((1 - P.ellip p u) ^ 3 / P.denom u) = 0 - (P.evalW p l).pot := by
    rcases le_total 0 K with k0 | k0
    · exact MeasureTheory.integral_Ioi_of_hasDerivAt_of_nonneg' hd (fun u hu => mul_nonneg k0 (pos u hu)) tp
    · exact MeasureTheory.integral_Ioi_of_hasDerivAt_of_nonpos' hd (fun u hu => mul_nonpos_of_nonpos_of_nonneg k0 (pos u hu)) tp
  rw [MeasureTheory.integral_const_mul] at fin
  simp only [ellip, denom] at fin
  linarith

/-- C100: the same in terms of the evaluation routine: λ = 0 inside and the root of the equation outside the ellipsoid -/
theorem C100_ferrers_potential (h : P.Ok) (lam : PosCar → ℝ)
    (hlam : ∀ q : PosCar, q.x ^ 2 / (P.a * P.a) + q.y ^ 2 / (P.b * P.b) + q.z ^ 2 / (P.c * P.c) > 1 →
      0 ≤ lam q ∧ q.x ^ 2 / (lam q + P.a * P.a) + q.y ^ 2 / (lam q + P.b * P.b) + q.z ^ 2 / (lam q + P.c * P.c) = 1)
    (p : PosCar) (hr : p.x ^ 2 + p.y ^ 2 + p.z ^ 2 ≤ (10 * P.a) ^ 2) :
    ∃ l, 0 ≤ l ∧ (P.eval lam p).pot = -(π / 3 * P.rho0 * P.a * P.b * P.c) *
      (∫ u in Set.Ioi l, (1 - (p.x ^ 2 / (u + P.a * P.a) + p.y ^ 2 / (u + P.b * P.b) + p.z ^ 2 / (u + P.c * P.c))) ^ 3 / √((u + P.a * P.a) * (u + P.b * P.b) * (u + P.c * P.c))) ∧
      ((p.x ^ 2 / (P.a * P.a) + p.y ^ 2 / (P.b * P.b) + p.z ^ 2 / (P.c * P.c) ≤ 1 ∧ l = 0) ∨ p.x ^ 2 / (l + P.a * P.a) + p.y ^ 2 / (l + P.b * P.b) + p.z ^ 2 / (l + P.c * P.c) = 1) := by
  by_cases hm : p.x ^ 2 / (P.a * P.a) + p.y ^ 2 / (P.b * P.b) + p.z ^ 2 / (P.c * P.c) > 1
  · obtain ⟨l0, l1⟩ := hlam p hm
    refine ⟨lam p, l0, ?_, Or.inr l1⟩
    rw [eval, if_neg (not_lt.mpr hr), if_pos hm]
    exact C100_ferrers_value h p l0 (le_of_eq l1)
  · refine ⟨0, le_rfl, ?_, Or.inl ⟨not_lt.mp hm, rfl⟩⟩
    rw [eval, if_neg (not_lt.mpr hr), if_neg hm]
    exact C100_ferrers_value h p le_rfl (by rw [ellip_zero]; exact not_lt.mp hm)

/-- C100: the normalization of the density: the integral over ellipsoidal shells equals the mass, and the mean squared coordinates are a²/9 (and likewise b²/9, c²/9) times the mass -/
theorem C100_ferrers_mass (h : P.Ok) :
    4 * π * P.a * P.b * P.c * (∫ m in (0 : ℝ)..1, P.density ⟨P.a * m, 0, 0⟩ * m ^ 2) = P.mass ∧
    4 * π / 3 * P.a * P.b * P.c * P.a ^ 2 * (∫ m in (0 : ℝ)..1, P.density ⟨P.a * m, 0, 0⟩ * m ^ 4) = P.mass * (P.a ^ 2 / 9) := by
  have a0 := h.a0
  have b0 := h.b0
  have c0 := h.c0
  have pi0 := pi_pos
  have e : ∀ m ∈ Set.uIcc (0 : ℝ) 1, P.density ⟨P.a * m, 0, 0⟩ = P.rho0 * (1 - m ^ 2) ^ 2 := by
    intro m hm
    rw [Set.uIcc_of_le zero_le_one] at hm
    rw [density]
    have : (P.a * m / P.a) ^ 2 + (0 / P.b) ^ 2 + (0 / P.c) ^ 2 = m ^ 2 := by rw [mul_div_cancel_left₀ _ a0.ne']; ring
    simp only [this]
    rw [if_neg (by have := hm.1; have := hm.2; simp only [gt_iff_lt, not_lt]; nlinarith)]
  have e1 : (∫ m in (0 : ℝ)..1, P.density ⟨P.a * m, 0, 0⟩ * m ^ 2) = ∫ m in (0 : ℝ)..1, P.rho0 * (m ^ 2 - 2 * m ^ 4 + m ^ 6) :=
    intervalIntegral.integral_congr fun m hm => by simp only [e m hm]; ring
  have e2 : (∫ m in (0 : ℝ)..1, P.density ⟨P.a * m, 0, 0⟩ * m ^ 4) = ∫ m in (0 : ℝ)..1, P.rho0 * (m ^ 4 - 2 * m ^ 6 + m ^ 8) :=
    intervalIntegral.integral_congr fun m hm => by simp only [e m hm]; ring
  have i1 : (∫ m in (0 : ℝ)..1, P.rho0 * (m ^ 2 - 2 * m ^ 4 + m ^ 6)) = P.rho0 * (8 / 105) := by
    have := intervalIntegral.integral_eq_sub_of_hasDerivAt (a := 0) (b := 1) (f := fun m : ℝ => P.rho0 * (m ^ 3 / 3 - 2 * (m ^ 5 / 5) + m ^ 7 / 7)) (f' := fun m => P.rho0 * (m ^ 2 - 2 * m ^ 4 + m ^ 6))
      (fun m _ => (((((hasDerivAt_pow 3 m).div_const 3).sub (((hasDerivAt_pow 5 m).div_const 5).const_mul 2)).add ((hasDerivAt_pow 7 m).div_const 7)).const_mul P.rho0).congr_deriv (by norm_num))
      (Continuous.intervalIntegrable (by fun_prop) _ _)
    rw [this]; norm_num
  have i2 : (∫ m in (0 : ℝ)..1, P.rho0 * (m ^ 4 - 2 * m ^ 6 + m ^ 8)) = P.rho0 * (8 / 315) := by
    have := intervalIntegral.integral_eq_sub_of_hasDerivAt (a := 0) (b := 1) (f := fun m : ℝ => P.rho0 * (m ^ 5 / 5 - 2 * (m ^ 7 / 7) + m ^ 9 / 9)) (f' := fun m => P.rho0 * (m ^ 4 - 2 * m ^ 6 + m ^ 8))
      (fun m _ => (((((hasDerivAt_pow 5 m).div_const 5).sub (((hasDerivAt_pow 7 m).div_const 7).const_mul 2)).add ((hasDerivAt_pow 9 m).div_const 9)).const_mul P.rho0).congr_deriv (by norm_num))
      (Continuous.intervalIntegrable (by fun_prop) _ _)
    rw [this]; norm_num
  rw [e1, e2, i1, i2, rho0]
  constructor <;> field_simp <;> ring

/-- C100: at large radii the reported potential is the sum of monopole and quadrupole of a body with this mass and mean squared coordinates a²/9, b²/9, c²/9 -/
theorem C100_ferrers_far_value (h : P.Ok) (lam : PosCar → ℝ) (p : PosCar) (hr : p.x ^ 2 + p.y ^ 2 + p.z ^ 2 > (10 * P.a) ^ 2) :
    let r := √(p.x ^ 2 + p.y ^ 2 + p.z ^ 2)
    (P.eval lam p).pot = -P.mass / r - P.mass / (2 * r ^ 5) *
      (P.a ^ 2 / 9 * (3 * p.x ^ 2 - r ^ 2) + P.b ^ 2 / 9 * (3 * p.y ^ 2 - r ^ 2) + P.c ^ 2 / 9 * (3 * p.z ^ 2 - r ^ 2)) := by
  intro r
  have a0 := h.a0
  have b0 := h.b0
  have c0 := h.c0
  have pi0 := pi_pos
  have hp : 0 < p.x ^ 2 + p.y ^ 2 + p.z ^ 2 := lt_of_le_of_lt (sq_nonneg _) hr
  rw [eval, if_pos hr]
  obtain ⟨e0, -, -⟩ := far_pot (P := P) p hp _ rfl
  rw [e0]
  have K : (32 * π / 105) * P.rho0 * P.a * P.b * P.c = P.mass := by rw [rho0]; field_simp
  have r2 : r ^ 2 = p.x ^ 2 + p.y ^ 2 + p.z ^ 2 := sq_sqrt hp.le
  have r0 : 0 < r := sqrt_pos.mpr hp
  change -(_ : ℝ) * (r⁻¹ + _ * r⁻¹ ^ 5) = _
  rw [K]
  have : p.z ^ 2 = r ^ 2 - p.x ^ 2 - p.y ^ 2 := by linarith
  rw [this]
  field_simp
  ring

/-- non-vacuity: the constructor accepts a radius 1 with axis ratios 0.8, 0.5; a point inside, outside and far away -/
example : ∃ P : FerrersP, ferrersCreate 1 1 (4 / 5) (1 / 2) = some P ∧ P.Ok ∧
    (1 / 4 : ℝ) ^ 2 / (P.a * P.a) + (1 / 4) ^ 2 / (P.b * P.b) + (1 / 4) ^ 2 / (P.c * P.c) < 1 ∧
    ((1 : ℝ) ^ 2 / (P.a * P.a) + 1 ^ 2 / (P.b * P.b) + 1 ^ 2 / (P.c * P.c) > 1 ∧ (1 : ℝ) ^ 2 + 1 ^ 2 + 1 ^ 2 < (10 * P.a) ^ 2) ∧
    (10 : ℝ) ^ 2 + 1 ^ 2 + 0 ^ 2 > (10 * P.a) ^ 2 ∧
    ∃ lam : PosCar → ℝ, ∀ q : PosCar, q.x ^ 2 / (P.a * P.a) + q.y ^ 2 / (P.b * P.b) + q.z ^ 2 / (P.c * P.c) > 1 →
      0 ≤ lam q ∧ q.x ^ 2 / (lam q + P.a * P.a) + q.y ^ 2 / (lam q + P.b * P.b) + q.z ^ 2 / (lam q + P.c * P.c) = 1 := by
  have e : ferrersCreate 1 1 (4 / 5) (1 / 2) = some ⟨1, 1 * (4 / 5), 1 * (1 / 2), 1⟩ := by rw [ferrersCreate, if_pos (by norm_num)]
  have ok := ok_create e
  refine ⟨_, e, ok, by norm_num, by norm_num, by norm_num, ?_⟩
  classical
  have := fun q => C100_ferrers_root ok q
  exact ⟨fun q => if hq : _ then (this q hq).choose else 0, fun q hq => by simp only [dif_pos hq]; exact (this q hq).choose_spec.1⟩

end FerrersP
end Verif.Pot
