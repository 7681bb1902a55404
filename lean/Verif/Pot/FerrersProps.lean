import Verif.Pot.Ferrers

/-! # C100: Ferrers potential: derivatives and Poisson equation -/

namespace Verif.Pot

open Real Verif.Coord

namespace FerrersP

variable {P : FerrersP}

section total

variable {x y z L : ℝ → ℝ} {x' y' z' L' t : ℝ}

theorem pot_total (h : P.Ok) (hx : HasDerivAt x x' t) (hy : HasDerivAt y y' t) (hz : HasDerivAt z z' t) (hL : HasDerivAt L L' t) (hl : 0 ≤ L t) :
    HasDerivAt (fun s => (P.evalW ⟨x s, y s, z s⟩ (L s)).pot)
      ((P.evalW ⟨x t, y t, z t⟩ (L t)).grad.dx * x' + (P.evalW ⟨x t, y t, z t⟩ (L t)).grad.dy * y' + (P.evalW ⟨x t, y t, z t⟩ (L t)).grad.dz * z' +
        L' * (π / 3 * P.rho0 * P.a * P.b * P.c / P.denom (L t) * (1 - P.ellip ⟨x t, y t, z t⟩ (L t)) ^ 3)) t := by
  have X := hx.pow 2
  have Y := hy.pow 2
  have Z := hz.pow 2
  have w0 := (dW0 h hl).comp t hL
  have w1 := (dW1 h hl).comp t hL
  have w2 := (dW2 h hl).comp t hL
  have w3 := (dW3 h hl).comp t hL
  have w4 := (dW4 h hl).comp t hL
  have w5 := (dW5 h hl).comp t hL
  have w6 := (dW6 h hl).comp t hL
  have w7 := (dW7 h hl).comp t hL
  have w8 := (dW8 h hl).comp t hL
  have w9 := (dW9 h hl).comp t hL
  have w10 := (dW10 h hl).comp t hL
  have w11 := (dW11 h hl).comp t hL
  have w12 := (dW12 h hl).comp t hL
  have w13 := (dW13 h hl).comp t hL
  have w14 := (dW14 h hl).comp t hL
  have w15 := (dW15 h hl).comp t hL
  have w16 := (dW16 h hl).comp t hL
  have w17 := (dW17 h hl).comp t hL
  have w18 := (dW18 h hl).comp t hL
  have w19 := (dW19 h hl).comp t hL
  have A := X.mul (((X.mul ((w7.const_mul 3).sub (X.mul w17))).add ((Y.const_mul 3).mul (((w4.const_mul 2).sub (Y.mul w11)).sub (X.mul w14)))).sub (w1.const_mul 3))
  have B := Y.mul (((Y.mul ((w8.const_mul 3).sub (Y.mul w18))).add ((Z.const_mul 3).mul (((w5.const_mul 2).sub (Z.mul w12)).sub (Y.mul w15)))).sub (w2.const_mul 3))
  have C := Z.mul (((Z.mul ((w9.const_mul 3).sub (Z.mul w19))).add ((X.const_mul 3).mul (((w6.const_mul 2).sub (X.mul w13)).sub (Z.mul w16)))).sub (w3.const_mul 3))
  have T := (((((w0.sub ((((w10.const_mul 6).mul X).mul Y).mul Z)).add A).add B).add C).const_mul (-π / 3 * P.rho0 * P.a * P.b * P.c))
  refine (T.congr_deriv ?_).congr_of_eventuallyEq (Filter.Eventually.of_forall fun s => ?_)
  · simp only [evalW, ellip, Pi.add_apply, Pi.sub_apply, Pi.mul_apply, Pi.pow_apply, Function.comp_apply]
    push_cast
    generalize L t + P.a * P.a = qa
    generalize L t + P.b * P.b = qb
    generalize L t + P.c * P.c = qc
    ring
  · simp only [evalW, Pi.add_apply, Pi.sub_apply, Pi.mul_apply, Pi.pow_apply, Function.comp_apply]

theorem dx_total (h : P.Ok) (hx : HasDerivAt x x' t) (hy : HasDerivAt y y' t) (hz : HasDerivAt z z' t) (hL : HasDerivAt L L' t) (hl : 0 ≤ L t) :
    HasDerivAt (fun s => (P.evalW ⟨x s, y s, z s⟩ (L s)).grad.dx)
      ((P.evalW ⟨x t, y t, z t⟩ (L t)).hess.dx2 * x' + (P.evalW ⟨x t, y t, z t⟩ (L t)).hess.dxdy * y' + (P.evalW ⟨x t, y t, z t⟩ (L t)).hess.dxdz * z' +
        L' * (-(x t) * (2 * π * P.rho0 * P.a * P.b * P.c) / (P.denom (L t) * (L t + P.a * P.a)) * (1 - P.ellip ⟨x t, y t, z t⟩ (L t)) ^ 2)) t := by
  have X := hx.pow 2
  have Y := hy.pow 2
  have Z := hz.pow 2
  have w1 := (dW1 h hl).comp t hL
  have w4 := (dW4 h hl).comp t hL
  have w6 := (dW6 h hl).comp t hL
  have w7 := (dW7 h hl).comp t hL
  have w10 := (dW10 h hl).comp t hL
  have w11 := (dW11 h hl).comp t hL
  have w13 := (dW13 h hl).comp t hL
  have w14 := (dW14 h hl).comp t hL
  have w16 := (dW16 h hl).comp t hL
  have w17 := (dW17 h hl).comp t hL
  have A := X.mul (((X.mul w17).add ((Y.const_mul 2).mul w14)).sub (w7.const_mul 2))
  have B := Y.mul (((Y.mul w11).add ((Z.const_mul 2).mul w10)).sub (w4.const_mul 2))
  have C := Z.mul (((Z.mul w16).add ((X.const_mul 2).mul w13)).sub (w6.const_mul 2))
  have T := (hx.mul_const (2 * π * P.rho0 * P.a * P.b * P.c)).mul (((w1.add A).add B).add C)
  refine (T.congr_deriv ?_).congr_of_eventuallyEq (Filter.Eventually.of_forall fun s => ?_)
  · simp only [evalW, ellip, Pi.add_apply, Pi.sub_apply, Pi.mul_apply, Pi.pow_apply, Function.comp_apply]
    push_cast
    generalize L t + P.a * P.a = qa
    generalize L t + P.b * P.b = qb
    generalize L t + P.c * P.c = qc
    ring
  · simp only [evalW, Pi.add_apply, Pi.sub_apply, Pi.mul_apply, Pi.pow_apply, Function.comp_apply]

theorem dy_total (h : P.Ok) (hx : HasDerivAt x x' t) (hy : HasDerivAt y y' t) (hz : HasDerivAt z z' t) (hL : HasDerivAt L L' t) (hl : 0 ≤ L t) :
    HasDerivAt (fun s => (P.evalW ⟨x s, y s, z s⟩ (L s)).grad.dy)
      ((P.evalW ⟨x t, y t, z t⟩ (L t)).hess.dxdy * x' + (P.evalW ⟨x t, y t, z t⟩ (L t)).hess.dy2 * y' + (P.evalW ⟨x t, y t, z t⟩ (L t)).hess.dydz * z' +
        L' * (-(y t) * (2 * π * P.rho0 * P.a * P.b * P.c) / (P.denom (L t) * (L t + P.b * P.b)) * (1 - P.ellip ⟨x t, y t, z t⟩ (L t)) ^ 2)) t := by
  have X := hx.pow 2
  have Y := hy.pow 2
  have Z := hz.pow 2
  have w2 := (dW2 h hl).comp t hL
  have w4 := (dW4 h hl).comp t hL
  have w5 := (dW5 h hl).comp t hL
  have w8 := (dW8 h hl).comp t hL
  have w10 := (dW10 h hl).comp t hL
  have w11 := (dW11 h hl).comp t hL
  have w12 := (dW12 h hl).comp t hL
  have w14 := (dW14 h hl).comp t hL
  have w15 := (dW15 h hl).comp t hL
  have w18 := (dW18 h hl).comp t hL
  have A := X.mul (((X.mul w14).add ((Y.const_mul 2).mul w11)).sub (w4.const_mul 2))
  have B := Y.mul (((Y.mul w18).add ((Z.const_mul 2).mul w15)).sub (w8.const_mul 2))
  have C := Z.mul (((Z.mul w12).add ((X.const_mul 2).mul w10)).sub (w5.const_mul 2))
  have T := (hy.mul_const (2 * π * P.rho0 * P.a * P.b * P.c)).mul (((w2.add A).add B).add C)
  refine (T.congr_deriv ?_).congr_of_eventuallyEq (Filter.Eventually.of_forall fun s => ?_)
  · simp only [evalW, ellip, Pi.add_apply, Pi.sub_apply, Pi.mul_apply, Pi.pow_apply, Function.comp_apply]
    push_cast
    generalize L t + P.a * P.a = qa
    generalize L t + P.b * P.b = qb
    generalize L t + P.c * P.c = qc
    ring
  · simp only [evalW, Pi.add_apply, Pi.sub_apply, Pi.mul_apply, Pi.pow_apply, Function.comp_apply]

theorem dz_total (h : P.Ok) (hx : HasDerivAt x x' t) (hy : HasDerivAt y y' t) (hz : HasDerivAt z z' t) (hL : HasDerivAt L L' t) (hl : 0 ≤ L t) :
    HasDerivAt (fun s => (P.evalW ⟨x s, y s, z s⟩ (L s)).grad.dz)
      ((P.evalW ⟨x t, y t, z t⟩ (L t)).hess.dxdz * x' + (P.evalW ⟨x t, y t, z t⟩ (L t)).hess.dydz * y' + (P.evalW ⟨x t, y t, z t⟩ (L t)).hess.dz2 * z' +
        L' * (-(z t) * (2 * π * P.rho0 * P.a * P.b * P.c) / (P.denom (L t) * (L t + P.c * P.c)) * (1 - P.ellip ⟨x t, y t, z t⟩ (L t)) ^ 2)) t := by
  have X := hx.pow 2
  have Y := hy.pow 2
  have Z := hz.pow 2
  have w3 := (dW3 h hl).comp t hL
  have w5 := (dW5 h hl).comp t hL
  have w6 := (dW6 h hl).comp t hL
  have w9 := (dW9 h hl).comp t hL
  have w10 := (dW10 h hl).comp t hL
  have w12 := (dW12 h hl).comp t hL
  have w13 := (dW13 h hl).comp t hL
  have w15 := (dW15 h hl).comp t hL
  have w16 := (dW16 h hl).comp t hL
  have w19 := (dW19 h hl).comp t hL
  have A := X.mul (((X.mul w13).add ((Y.const_mul 2).mul w10)).sub (w6.const_mul 2))
  have B := Y.mul (((Y.mul w15).add ((Z.const_mul 2).mul w12)).sub (w5.const_mul 2))
  have C := Z.mul (((Z.mul w19).add ((X.const_mul 2).mul w16)).sub (w9.const_mul 2))
  have T := (hz.mul_const (2 * π * P.rho0 * P.a * P.b * P.c)).mul (((w3.add A).add B).add C)
  refine (T.congr_deriv ?_).congr_of_eventuallyEq (Filter.Eventually.of_forall fun s => ?_)
  · simp only [evalW, ellip, Pi.add_apply, Pi.sub_apply, Pi.mul_apply, Pi.pow_apply, Function.comp_apply]
    push_cast
    generalize L t + P.a * P.a = qa
    generalize L t + P.b * P.b = qb
    generalize L t + P.c * P.c = qc
    ring
  · simp only [evalW, Pi.add_apply, Pi.sub_apply, Pi.mul_apply, Pi.pow_apply, Function.comp_apply]

end total

/-- sum of second derivatives -/
theorem laplace (h : P.Ok) (pos : PosCar) {l : ℝ} (hl : 0 ≤ l) :
    (P.evalW pos l).hess.dx2 + (P.evalW pos l).hess.dy2 + (P.evalW pos l).hess.dz2 = 2 * π * P.rho0 * P.a * P.b * P.c * (2 / P.denom l) * (1 - P.ellip pos l) ^ 2 := by
  have c0 := h.c0
  have b0 : 0 < P.b := by linarith [h.cb]
  have a0 : 0 < P.a := by linarith [h.ba]
  have hA : l + P.a ^ 2 ≠ 0 := by positivity
  have hB : l + P.b ^ 2 ≠ 0 := by positivity
  have hC : l + P.c ^ 2 ≠ 0 := by positivity
  have hA' : P.a ^ 2 + l ≠ 0 := by positivity
  have hB' : P.b ^ 2 + l ≠ 0 := by positivity
  have hC' : P.c ^ 2 + l ≠ 0 := by positivity
  have ab' : P.a ^ 2 - P.b ^ 2 ≠ 0 := by rw [sq, sq]; exact h.ab2.ne'
  have bc' : P.b ^ 2 - P.c ^ 2 ≠ 0 := by rw [sq, sq]; exact h.bc2.ne'
  have ac' : P.a ^ 2 - P.c ^ 2 ≠ 0 := by rw [sq, sq]; exact h.ac2.ne'
  have hD := (denom_sq h hl).2.ne'
  have r1 : P.W1 l + P.W2 l + P.W3 l = 2 / P.denom l := by rw [W2]; ring
  have rX : 6 * P.W7 l + 2 * P.W4 l + 2 * P.W6 l = 4 / P.denom l / (l + P.a ^ 2) := by rw [W7]; field_simp; ring
  have rY : 6 * P.W8 l + 2 * P.W4 l + 2 * P.W5 l = 4 / P.denom l / (l + P.b ^ 2) := by rw [W8]; field_simp; ring
  have rZ : 6 * P.W9 l + 2 * P.W5 l + 2 * P.W6 l = 4 / P.denom l / (l + P.c ^ 2) := by rw [W9]; field_simp; ring
  have rXX : 5 * P.W17 l + P.W14 l + P.W13 l = 2 / P.denom l / (l + P.a ^ 2) ^ 2 := by rw [W17]; field_simp; ring
  have rYY : 5 * P.W18 l + P.W15 l + P.W11 l = 2 / P.denom l / (l + P.b ^ 2) ^ 2 := by rw [W18]; field_simp; ring
  have rZZ : 5 * P.W19 l + P.W16 l + P.W12 l = 2 / P.denom l / (l + P.c ^ 2) ^ 2 := by rw [W19]; field_simp; ring
  have rXY : 6 * P.W14 l + 6 * P.W11 l + 2 * P.W10 l = 4 / P.denom l / ((l + P.a ^ 2) * (l + P.b ^ 2)) := by
    rw [W14, W11, W10, W7, W8, W4, W5, W6]; field_simp; ring
  have rYZ : 6 * P.W15 l + 6 * P.W12 l + 2 * P.W10 l = 4 / P.denom l / ((l + P.b ^ 2) * (l + P.c ^ 2)) := by
    rw [W15, W12, W10, W8, W9, W4, W5, W6]; field_simp; ring
  have rXZ : 6 * P.W13 l + 6 * P.W16 l + 2 * P.W10 l = 4 / P.denom l / ((l + P.a ^ 2) * (l + P.c ^ 2)) := by
    rw [W13, W16, W10, W7, W9, W4, W5, W6]; field_simp; ring
  have e : (P.evalW pos l).hess.dx2 + (P.evalW pos l).hess.dy2 + (P.evalW pos l).hess.dz2 = 2 * π * P.rho0 * P.a * P.b * P.c *
      ((P.W1 l + P.W2 l + P.W3 l) - pos.x ^ 2 * (6 * P.W7 l + 2 * P.W4 l + 2 * P.W6 l) - pos.y ^ 2 * (6 * P.W8 l + 2 * P.W4 l + 2 * P.W5 l)
        - pos.z ^ 2 * (6 * P.W9 l + 2 * P.W5 l + 2 * P.W6 l)
        + (pos.x ^ 2) ^ 2 * (5 * P.W17 l + P.W14 l + P.W13 l) + (pos.y ^ 2) ^ 2 * (5 * P.W18 l + P.W15 l + P.W11 l) + (pos.z ^ 2) ^ 2 * (5 * P.W19 l + P.W16 l + P.W12 l)
        + pos.x ^ 2 * pos.y ^ 2 * (6 * P.W14 l + 6 * P.W11 l + 2 * P.W10 l) + pos.y ^ 2 * pos.z ^ 2 * (6 * P.W15 l + 6 * P.W12 l + 2 * P.W10 l)
        + pos.x ^ 2 * pos.z ^ 2 * (6 * P.W13 l + 6 * P.W16 l + 2 * P.W10 l)) := by
    simp only [evalW]; ring
  rw [e, r1, rX, rY, rZ, rXX, rYY, rZZ, rXY, rYZ, rXZ, ellip]
  simp only [← sq]
  generalize l + P.a ^ 2 = qa
  generalize l + P.b ^ 2 = qb
  generalize l + P.c ^ 2 = qc
  ring

end FerrersP
end Verif.Pot
