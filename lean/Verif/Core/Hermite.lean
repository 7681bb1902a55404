import Mathlib.Analysis.Calculus.Deriv.Pow
import Mathlib.Analysis.Calculus.Deriv.Comp
import Mathlib.Analysis.Calculus.Deriv.Polynomial
import Mathlib.Algebra.Polynomial.Derivative
import Mathlib.Algebra.Polynomial.Eval.Degree
import Mathlib.Algebra.Polynomial.Taylor
import Mathlib.Tactic

/-! Model of the interpolation helpers `linearInterp`, `hermiteInterp` (/repo/src/math_core.h:73-85) and
`hermiteDerivs` (/repo/src/math_core.cpp:576-620), in exact real arithmetic, and C18. -/
namespace Verif.Core
open Polynomial

/-- math_core.h:73-74. -/
noncomputable def linearInterp (x x1 x2 y1 y2 : ℝ) : ℝ := ((x - x1) * y2 + (x2 - x) * y1) / (x2 - x1)

/-- math_core.h:79-84. -/
noncomputable def hermiteInterp (x x1 x2 y1 y2 dy1 dy2 : ℝ) : ℝ :=
  let t := (x - x1) / (x2 - x1)
  (1 - t) ^ 2 * ((1 + 2 * t) * y1 + t * dy1 * (x2 - x1))
    + t ^ 2 * ((3 - 2 * t) * y2 + (t - 1) * dy2 * (x2 - x1))

/-- The four outputs of `hermiteDerivs`; `none` stands for NaN. -/
@[ext] structure Ders where
  der2 : ℝ
  der3 : Option ℝ
  der4 : ℝ
  der5 : ℝ

/-- math_core.cpp:576-610 (the alternative expression in the comment is not compiled). The only division
that can fail for distinct nodes is `dx10*dx21/sx20`: for `sx20 == 0` it gives an infinity, which
multiplied by `der5` and then by `sx20 == 0` makes `der3` NaN (modelled as `none`). -/
noncomputable def hermiteDerivs (x0 x1 x2 f0 f1 f2 df0 df1 df2 : ℝ) : Ders :=
  let dx10 := x1 - x0
  let dx21 := x2 - x1
  let dx20 := x2 - x0
  let sx20 := dx21 - dx10
  let f00 := df0
  let f01 := (f1 - f0) / dx10
  let f11 := df1
  let f12 := (f2 - f1) / dx21
  let f22 := df2
  let f001 := (f01 - f00) / dx10
  let f011 := (f11 - f01) / dx10
  let f112 := (f12 - f11) / dx21
  let f122 := (f22 - f12) / dx21
  let f0011 := (f011 - f001) / dx10
  let f0112 := (f112 - f011) / dx20
  let f1122 := (f122 - f112) / dx21
  let f00112 := (f0112 - f0011) / dx20
  let f01122 := (f1122 - f0112) / dx20
  let der5 := (f01122 - f00112) / dx20 * 120
  let der4 := (f01122 + f00112) * 12 - sx20 * der5 * (3/10)
  let der3 := if sx20 = 0 then none else some <| f0112 * 6 - sx20 * (der4 + der5 * (sx20 + dx10*dx21/sx20) * (1/5)) * (1/4)
  let der2 := f011 + f112 - f0112 * sx20 - dx10 * dx21 * (der4 + der5 * sx20 * (1/5)) / 12
  ⟨der2, der3, der4, der5⟩

/-- Values of `hermiteInterp` at the two ends. -/
theorem C18_interp_ends (x1 x2 y1 y2 dy1 dy2 : ℝ) (h : x1 ≠ x2) :
    hermiteInterp x1 x1 x2 y1 y2 dy1 dy2 = y1 ∧ hermiteInterp x2 x1 x2 y1 y2 dy1 dy2 = y2 := by
  have h' : x2 - x1 ≠ 0 := sub_ne_zero.2 (Ne.symm h)
  constructor
  · simp [hermiteInterp]
  · simp only [hermiteInterp, div_self h']; ring

/-- Slopes of `hermiteInterp` at the two ends. -/
theorem C18_interp_slopes (x1 x2 y1 y2 dy1 dy2 : ℝ) (h : x1 ≠ x2) :
    HasDerivAt (fun x => hermiteInterp x x1 x2 y1 y2 dy1 dy2) dy1 x1 ∧
    HasDerivAt (fun x => hermiteInterp x x1 x2 y1 y2 dy1 dy2) dy2 x2 := by
  have h' : x2 - x1 ≠ 0 := sub_ne_zero.2 (Ne.symm h)
  have gen : ∀ x, HasDerivAt (fun x => hermiteInterp x x1 x2 y1 y2 dy1 dy2)
      (let t := (x - x1) / (x2 - x1)
       (-2 * (1 - t) * ((1 + 2 * t) * y1 + t * dy1 * (x2 - x1))
        + (1 - t) ^ 2 * (2 * y1 + dy1 * (x2 - x1))
        + 2 * t * ((3 - 2 * t) * y2 + (t - 1) * dy2 * (x2 - x1))
        + t ^ 2 * (-2 * y2 + dy2 * (x2 - x1))) / (x2 - x1)) x := by
    intro x
    have ht : HasDerivAt (fun x => (x - x1) / (x2 - x1)) (1 / (x2 - x1)) x :=
      ((hasDerivAt_id x).sub_const x1).div_const _
    have hin : ∀ t0 : ℝ, HasDerivAt (fun t : ℝ => (1 - t) ^ 2 * ((1 + 2 * t) * y1 + t * dy1 * (x2 - x1))
        + t ^ 2 * ((3 - 2 * t) * y2 + (t - 1) * dy2 * (x2 - x1)))
        (-2 * (1 - t0) * ((1 + 2 * t0) * y1 + t0 * dy1 * (x2 - x1))
        + (1 - t0) ^ 2 * (2 * y1 + dy1 * (x2 - x1))
        + 2 * t0 * ((3 - 2 * t0) * y2 + (t0 - 1) * dy2 * (x2 - x1))
        + t0 ^ 2 * (-2 * y2 + dy2 * (x2 - x1))) t0 := by
      intro t0
      have a1 : HasDerivAt (fun t : ℝ => 1 - t) (-1) t0 := (hasDerivAt_id t0).const_sub 1
      have a2 : HasDerivAt (fun t : ℝ => (1 + 2 * t) * y1 + t * dy1 * (x2 - x1)) (2 * y1 + dy1 * (x2 - x1)) t0 := by
        have := ((((hasDerivAt_id t0).const_mul 2).const_add 1).mul_const y1).add
          (((hasDerivAt_id t0).mul_const dy1).mul_const (x2 - x1))
        exact this.congr_deriv (by simp)
      have a3 : HasDerivAt (fun t : ℝ => (3 - 2 * t) * y2 + (t - 1) * dy2 * (x2 - x1)) (-2 * y2 + dy2 * (x2 - x1)) t0 := by
        have := ((((hasDerivAt_id t0).const_mul 2).const_sub 3).mul_const y2).add
          ((((hasDerivAt_id t0).sub_const 1).mul_const dy2).mul_const (x2 - x1))
        exact this.congr_deriv (by simp)
      exact (((a1.pow 2).mul a2).add (((hasDerivAt_id t0).pow 2).mul a3)).congr_deriv (by simp; ring)
    exact (HasDerivAt.comp x (hin ((x - x1) / (x2 - x1))) ht).congr_deriv (by rw [mul_one_div])
  constructor
  · refine (gen x1).congr_deriv ?_
    simp only [sub_self, zero_div]; field_simp; ring
  · refine (gen x2).congr_deriv ?_
    simp only [div_self h']; field_simp; ring

/-- Values of a polynomial of degree `< n` about the point `x1`. -/
theorem eval_taylor (p : ℝ[X]) (n : ℕ) (hp : p.natDegree < n) (x1 x : ℝ) :
    p.eval x = ∑ i ∈ Finset.range n, (taylor x1 p).coeff i * (x - x1) ^ i := by
  have h1 : p.eval x = (taylor x1 p).eval (x - x1) := by rw [taylor_eval]; congr 1; ring
  rw [h1, eval_eq_sum_range' (n := n) (by rwa [natDegree_taylor])]

theorem deriv_coeff (p : ℝ[X]) (x1 : ℝ) (k : ℕ) :
    ((derivative^[k] p).eval x1) = k.factorial * (taylor x1 p).coeff k := by
  rw [taylor_coeff, ← Polynomial.factorial_smul_hasseDeriv]
  simp

theorem taylor_deriv_coeff (p : ℝ[X]) (x1 : ℝ) (k : ℕ) :
    (taylor x1 (derivative p)).coeff k = (taylor x1 p).coeff (k+1) * (k+1) := by
  have h := deriv_coeff (derivative p) x1 k
  have h2 := deriv_coeff p x1 (k+1)
  rw [Function.iterate_succ_apply] at h2
  rw [h2, Nat.factorial_succ] at h
  have hk : (k.factorial : ℝ) ≠ 0 := by exact_mod_cast Nat.factorial_ne_zero k
  apply mul_left_cancel₀ hk
  push_cast at h
  linear_combination -h

/-- C18. Every cubic polynomial is reproduced exactly from its values and slopes at two points. -/
theorem C18_interp_cubic (p : ℝ[X]) (hp : p.natDegree ≤ 3) (x x1 x2 : ℝ) (h : x1 ≠ x2) :
    hermiteInterp x x1 x2 (p.eval x1) (p.eval x2) (p.derivative.eval x1) (p.derivative.eval x2) = p.eval x := by
  have h' : x2 - x1 ≠ 0 := sub_ne_zero.2 (Ne.symm h)
  have hd : p.derivative.natDegree < 4 := lt_of_le_of_lt (natDegree_derivative_le p) (by omega)
  rw [eval_taylor p 4 (by omega) x1 x, eval_taylor p 4 (by omega) x1 x2, eval_taylor p 4 (by omega) x1 x1,
    eval_taylor _ 4 hd x1 x1, eval_taylor _ 4 hd x1 x2]
  have h4 : (taylor x1 p).coeff 4 = 0 := coeff_eq_zero_of_natDegree_lt (by rw [natDegree_taylor]; omega)
  simp only [Finset.sum_range_succ, Finset.sum_range_zero, taylor_deriv_coeff, h4]
  generalize (taylor x1 p).coeff 0 = c0
  generalize (taylor x1 p).coeff 1 = c1
  generalize (taylor x1 p).coeff 2 = c2
  generalize (taylor x1 p).coeff 3 = c3
  simp only [hermiteInterp]
  push_cast
  field_simp
  ring

/-- C18. Linear functions are reproduced exactly by `linearInterp`. -/
theorem C18_linear (k m x x1 x2 : ℝ) (h : x1 ≠ x2) :
    linearInterp x x1 x2 (k * x1 + m) (k * x2 + m) = k * x + m := by
  have h' : x2 - x1 ≠ 0 := sub_ne_zero.2 (Ne.symm h)
  unfold linearInterp
  field_simp
  ring

theorem herm_aux (c0 c1 c2 c3 c4 c5 a b x0 x1 x2 : ℝ) (h0 : x1 - x0 = a) (h2 : x2 - x1 = b)
    (ha : a ≠ 0) (hb : b ≠ 0) (hab : a + b ≠ 0) :
    let f : ℝ → ℝ := fun t => c0 + c1 * t + c2 * t ^ 2 + c3 * t ^ 3 + c4 * t ^ 4 + c5 * t ^ 5
    let g : ℝ → ℝ := fun t => c1 + 2 * c2 * t + 3 * c3 * t ^ 2 + 4 * c4 * t ^ 3 + 5 * c5 * t ^ 4
    hermiteDerivs x0 x1 x2 (f (-a)) (f 0) (f b) (g (-a)) (g 0) (g b) =
      ⟨2 * c2, if b - a = 0 then none else some (6 * c3), 24 * c4, 120 * c5⟩ := by
  intro f g
  have h20 : x2 - x0 = a + b := by linarith
  have e5 : (hermiteDerivs x0 x1 x2 (f (-a)) (f 0) (f b) (g (-a)) (g 0) (g b)).der5 = 120 * c5 := by
    simp only [hermiteDerivs, f, g, h0, h2, h20]
    field_simp
    ring
  have e4 : (hermiteDerivs x0 x1 x2 (f (-a)) (f 0) (f b) (g (-a)) (g 0) (g b)).der4 = 24 * c4 := by
    simp only [hermiteDerivs, f, g, h0, h2, h20]
    field_simp
    ring
  have e2 : (hermiteDerivs x0 x1 x2 (f (-a)) (f 0) (f b) (g (-a)) (g 0) (g b)).der2 = 2 * c2 := by
    simp only [hermiteDerivs, f, g, h0, h2, h20]
    field_simp
    ring
  have e3 : (hermiteDerivs x0 x1 x2 (f (-a)) (f 0) (f b) (g (-a)) (g 0) (g b)).der3 =
      if b - a = 0 then none else some (6 * c3) := by
    simp only [hermiteDerivs, f, g, h0, h2, h20]
    by_cases hs : b - a = 0
    · rw [if_pos hs, if_pos hs]
    · rw [if_neg hs, if_neg hs]
      congr 1
      field_simp
      ring
  exact Ders.ext e2 e3 e4 e5

/-- C18. For every polynomial of degree at most five, and three distinct nodes, the reported derivatives
are the exact ones at the middle argument -- except that the third one is NaN for equidistant nodes. -/
theorem C18_derivs_partial (p : ℝ[X]) (hp : p.natDegree ≤ 5) (x0 x1 x2 : ℝ) (h01 : x0 ≠ x1) (h12 : x1 ≠ x2)
    (h02 : x0 ≠ x2) :
    hermiteDerivs x0 x1 x2 (p.eval x0) (p.eval x1) (p.eval x2)
      (p.derivative.eval x0) (p.derivative.eval x1) (p.derivative.eval x2) =
    ⟨(derivative^[2] p).eval x1, if x2 - x1 = x1 - x0 then none else some ((derivative^[3] p).eval x1),
      (derivative^[4] p).eval x1, (derivative^[5] p).eval x1⟩ := by
  have hd : p.derivative.natDegree < 6 := lt_of_le_of_lt (natDegree_derivative_le p) (by omega)
  have h6 : (taylor x1 p).coeff 6 = 0 := coeff_eq_zero_of_natDegree_lt (by rw [natDegree_taylor]; omega)
  have key := herm_aux ((taylor x1 p).coeff 0) ((taylor x1 p).coeff 1) ((taylor x1 p).coeff 2)
    ((taylor x1 p).coeff 3) ((taylor x1 p).coeff 4) ((taylor x1 p).coeff 5) (x1 - x0) (x2 - x1) x0 x1 x2 rfl rfl
    (sub_ne_zero.2 (Ne.symm h01)) (sub_ne_zero.2 (Ne.symm h12)) (by
      rw [show x1 - x0 + (x2 - x1) = x2 - x0 by ring]; exact sub_ne_zero.2 (Ne.symm h02))
  simp only at key
  have ev : ∀ x, p.eval x = (taylor x1 p).coeff 0 + (taylor x1 p).coeff 1 * (x - x1) + (taylor x1 p).coeff 2 * (x - x1) ^ 2
      + (taylor x1 p).coeff 3 * (x - x1) ^ 3 + (taylor x1 p).coeff 4 * (x - x1) ^ 4 + (taylor x1 p).coeff 5 * (x - x1) ^ 5 := by
    intro x
    rw [eval_taylor p 6 (by omega) x1 x]
    simp only [Finset.sum_range_succ, Finset.sum_range_zero]; ring
  have dv : ∀ x, p.derivative.eval x = (taylor x1 p).coeff 1 + 2 * (taylor x1 p).coeff 2 * (x - x1)
      + 3 * (taylor x1 p).coeff 3 * (x - x1) ^ 2 + 4 * (taylor x1 p).coeff 4 * (x - x1) ^ 3
      + 5 * (taylor x1 p).coeff 5 * (x - x1) ^ 4 := by
    intro x
    rw [eval_taylor _ 6 hd x1 x]
    simp only [Finset.sum_range_succ, Finset.sum_range_zero, taylor_deriv_coeff, h6]; push_cast; ring
  rw [ev x0, ev x1, ev x2, dv x0, dv x1, dv x2, deriv_coeff, deriv_coeff, deriv_coeff, deriv_coeff]
  rw [show -(x1 - x0) = x0 - x1 by ring] at key
  simp only [sub_self]
  rw [key]
  have e : (x2 - x1 - (x1 - x0) = 0) = (x2 - x1 = x1 - x0) := by rw [sub_eq_zero]
  simp only [e]
  apply Ders.ext
  · simp
  · by_cases h : x2 - x1 = x1 - x0
    · simp only [if_pos h]
    · simp only [if_neg h]; norm_num [Nat.factorial]
  · norm_num [Nat.factorial]
  · norm_num [Nat.factorial]

/-- C18 is false of the code for equally spaced nodes: the third derivative is NaN for every function. -/
theorem C18_refuted_equidistant (x1 h f0 f1 f2 d0 d1 d2 : ℝ) :
    (hermiteDerivs (x1 - h) x1 (x1 + h) f0 f1 f2 d0 d1 d2).der3 = none := by
  simp only [hermiteDerivs]
  rw [if_pos (by ring)]

/-- Non-vacuity: x⁵ on the nodes 0, 1, 3. -/
example : hermiteDerivs 0 1 3 0 1 243 0 5 405 = ⟨20, some 60, 120, 120⟩ := by
  apply Ders.ext <;> simp only [hermiteDerivs] <;> norm_num
end Verif.Core
