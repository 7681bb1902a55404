import Verif.Coord.Model
import Mathlib.Analysis.SpecialFunctions.Complex.LogDeriv

/-! # Facts about `atan2` -/

namespace Verif.Coord

open Real

theorem norm_mk (x y : ℝ) : ‖(⟨x, y⟩ : ℂ)‖ = √(x ^ 2 + y ^ 2) := by
  rw [Complex.norm_def, Complex.normSq_mk]; ring_nf

theorem sqrt_mul_cos_atan2 (x y : ℝ) : √(x ^ 2 + y ^ 2) * cos (atan2 y x) = x := by
  rw [← norm_mk]; exact Complex.norm_mul_cos_arg ⟨x, y⟩

theorem sqrt_mul_sin_atan2 (x y : ℝ) : √(x ^ 2 + y ^ 2) * sin (atan2 y x) = y := by
  rw [← norm_mk]; exact Complex.norm_mul_sin_arg ⟨x, y⟩

theorem cos_atan2 (x y : ℝ) (h : √(x ^ 2 + y ^ 2) ≠ 0) : cos (atan2 y x) = x / √(x ^ 2 + y ^ 2) := by
  rw [eq_div_iff h, mul_comm]; exact sqrt_mul_cos_atan2 x y

theorem sin_atan2 (x y : ℝ) (h : √(x ^ 2 + y ^ 2) ≠ 0) : sin (atan2 y x) = y / √(x ^ 2 + y ^ 2) := by
  rw [eq_div_iff h, mul_comm]; exact sqrt_mul_sin_atan2 x y

theorem atan2_mem (y x : ℝ) : atan2 y x ∈ Set.Ioc (-π) π := Complex.arg_mem_Ioc _

/-- the polar angle: for a non-negative first argument the result lies in [0,π] -/
theorem atan2_nonneg {y : ℝ} (x : ℝ) (h : 0 ≤ y) : 0 ≤ atan2 y x := Complex.arg_nonneg_iff.mpr h

theorem atan2_polar {r φ : ℝ} (hr : 0 < r) (h1 : -π < φ) (h2 : φ ≤ π) :
    atan2 (r * sin φ) (r * cos φ) = φ := by
  have := Complex.arg_mul_cos_add_sin_mul_I hr (θ := φ) ⟨h1, h2⟩
  refine Eq.trans ?_ this
  unfold atan2; congr 1
  apply Complex.ext <;> simp [Complex.cos_ofReal_re, Complex.sin_ofReal_re, Complex.cos_ofReal_im, Complex.sin_ofReal_im]

theorem sqrt_polar {r : ℝ} (φ : ℝ) (hr : 0 ≤ r) : √((r * cos φ) ^ 2 + (r * sin φ) ^ 2) = r := by
  have : (r * cos φ) ^ 2 + (r * sin φ) ^ 2 = r ^ 2 := by
    have := sin_sq_add_cos_sq φ; linear_combination r ^ 2 * this
  rw [this, sqrt_sq hr]

theorem sum_sq_eq_zero {x y : ℝ} (h : √(x ^ 2 + y ^ 2) = 0) : x = 0 ∧ y = 0 := by
  rw [sqrt_eq_zero (by positivity)] at h
  constructor <;> nlinarith [sq_nonneg x, sq_nonneg y]

theorem sq_sqrt_add (x y : ℝ) : √(x ^ 2 + y ^ 2) ^ 2 = x ^ 2 + y ^ 2 := sq_sqrt (by positivity)

theorem angle_unique {a b : ℝ} (hc : cos a = cos b) (hs : sin a = sin b) : ∃ k : ℤ, a = b + k * (2 * π) := by
  have := Real.Angle.cos_sin_inj hc hs
  rw [Real.Angle.angle_eq_iff_two_pi_dvd_sub] at this
  obtain ⟨k, hk⟩ := this
  exact ⟨k, by linarith⟩

/-- derivative of `atan2` along a curve that avoids the branch cut `x ≤ 0, y = 0` -/
theorem hasDerivAt_atan2 {x y : ℝ → ℝ} {x' y' t : ℝ} (hx : HasDerivAt x x' t) (hy : HasDerivAt y y' t)
    (h : 0 < x t ∨ y t ≠ 0) :
    HasDerivAt (fun s => atan2 (y s) (x s)) ((x t * y' - y t * x') / (x t ^ 2 + y t ^ 2)) t := by
  have hz : HasDerivAt (fun s => ((x s : ℂ) + (y s : ℂ) * Complex.I)) ((x' : ℂ) + (y' : ℂ) * Complex.I) t :=
    hx.ofReal_comp.add (hy.ofReal_comp.mul_const _)
  have hsl : ((x t : ℂ) + (y t : ℂ) * Complex.I) ∈ Complex.slitPlane := by
    rw [Complex.mem_slitPlane_iff]; simpa using h
  have hl := hz.clog_real hsl
  have him : HasDerivAt (fun s => (Complex.log ((x s : ℂ) + (y s : ℂ) * Complex.I)).im)
      ((((x' : ℂ) + (y' : ℂ) * Complex.I) / ((x t : ℂ) + (y t : ℂ) * Complex.I)).im) t := by
    have := (Complex.imCLM.hasFDerivAt (x := Complex.log ((x t : ℂ) + (y t : ℂ) * Complex.I))).comp_hasDerivAt t hl
    exact this
  have e1 : (fun s => (Complex.log ((x s : ℂ) + (y s : ℂ) * Complex.I)).im) = fun s => atan2 (y s) (x s) := by
    funext s; rw [Complex.log_im]; unfold atan2; congr 1; apply Complex.ext <;> simp
  rw [e1] at him
  refine him.congr_deriv ?_
  have hn : x t ^ 2 + y t ^ 2 ≠ 0 := by
    rcases h with h | h
    · have : 0 < x t ^ 2 + y t ^ 2 := by positivity
      exact this.ne'
    · have : 0 < x t ^ 2 + y t ^ 2 := by positivity
      exact this.ne'
  rw [Complex.div_im]
  simp only [Complex.add_re, Complex.add_im, Complex.mul_re, Complex.mul_im, Complex.ofReal_re, Complex.ofReal_im,
    Complex.I_re, Complex.I_im, Complex.normSq_apply, mul_zero, mul_one, sub_zero, add_zero, zero_add]
  have hn' : x t * x t + y t * y t ≠ 0 := by simpa [sq] using hn
  field_simp

/-- derivative of `√(x²+y²)` along a curve that avoids the origin -/
theorem hasDerivAt_sqrt2 {x y : ℝ → ℝ} {x' y' t : ℝ} (hx : HasDerivAt x x' t) (hy : HasDerivAt y y' t)
    (h : √(x t ^ 2 + y t ^ 2) ≠ 0) :
    HasDerivAt (fun s => √(x s ^ 2 + y s ^ 2)) ((x t * x' + y t * y') / √(x t ^ 2 + y t ^ 2)) t := by
  have hn : x t ^ 2 + y t ^ 2 ≠ 0 := by
    intro h0; rw [h0] at h; simp at h
  have := ((hx.pow 2).add (hy.pow 2)).sqrt hn
  refine this.congr_deriv ?_
  simp only [Pi.add_apply, Pi.pow_apply]
  field_simp
  ring

end Verif.Coord
