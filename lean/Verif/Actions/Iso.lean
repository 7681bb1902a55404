import Verif.Actions.Model
import Mathlib.Analysis.SpecialFunctions.Trigonometric.ArctanDeriv
import Mathlib.Analysis.SpecialFunctions.Trigonometric.Arctan

/-! Orbits in the isochrone potential: auxiliary facts -/

namespace Verif.Actions

open Real Verif.Coord Verif.Core

noncomputable section

/-! ### Angles -/

theorem wrap_spec (x : ℝ) : 0 ≤ wrap x ∧ wrap x < 2 * π ∧ ∃ n : ℤ, x = wrap x + n * (2 * π) := by
  obtain ⟨h1, h2, n, h3⟩ := C13_wrapAngle (2 * π) x (by positivity)
  exact ⟨h1, h2, n, by unfold wrap; linarith⟩

theorem wrap_unique {x y : ℝ} (n : ℤ) (h : x = y + n * (2 * π)) (h0 : 0 ≤ y) (h1 : y < 2 * π) : wrap x = y := by
  obtain ⟨k0, k1, m, k2⟩ := wrap_spec x
  have hp := pi_pos
  have h3 : ((m : ℝ) - n) * (2 * π) = y - wrap x := by linarith
  have h4 : m - n = 0 := by
    by_contra hne
    rcases lt_or_gt_of_ne hne with h | h
    · have : m - n ≤ -1 := by omega
      have : ((m : ℝ) - n) ≤ -1 := by exact_mod_cast this
      nlinarith
    · have : 1 ≤ m - n := by omega
      have : (1 : ℝ) ≤ (m : ℝ) - n := by exact_mod_cast this
      nlinarith
  have h5 : (m : ℝ) - n = 0 := by exact_mod_cast h4
  rw [h5] at h3
  linarith

theorem wrap_congr {x y : ℝ} (n : ℤ) (h : x = y + n * (2 * π)) : wrap x = wrap y := by
  obtain ⟨k0, k1, m, k2⟩ := wrap_spec y
  exact wrap_unique (n + m) (by push_cast; linarith) k0 k1

theorem wrap_self {x : ℝ} (h0 : 0 ≤ x) (h1 : x < 2 * π) : wrap x = x := wrap_unique 0 (by simp) h0 h1

theorem cos_wrap (x : ℝ) : cos (wrap x) = cos x := by
  obtain ⟨-, -, n, h⟩ := wrap_spec x
  conv_rhs => rw [h, cos_add_int_mul_two_pi]

theorem sin_wrap (x : ℝ) : sin (wrap x) = sin x := by
  obtain ⟨-, -, n, h⟩ := wrap_spec x
  conv_rhs => rw [h, sin_add_int_mul_two_pi]

theorem atan2_scale {x y r φ : ℝ} (hr : 0 < r) (hx : x = r * cos φ) (hy : y = r * sin φ) : ∃ n : ℤ, φ = atan2 y x + n * (2 * π) := by
  have h := sqrt_polar φ hr.le
  have hne : √(x ^ 2 + y ^ 2) = r := by rw [hx, hy, h]
  refine angle_unique ?_ ?_
  · rw [cos_atan2 _ _ (by rw [hne]; exact hr.ne'), hne, hx]; field_simp
  · rw [sin_atan2 _ _ (by rw [hne]; exact hr.ne'), hne, hy]; field_simp

theorem sign_pos {x : ℝ} (h : 0 < x) : sign x = 1 := by rw [sign, if_pos h]
theorem sign_neg {x : ℝ} (h : x < 0) : sign x = -1 := by rw [sign, if_neg (not_lt.2 h.le), if_pos h]
theorem sign_cases {x : ℝ} (h : x ≠ 0) : (sign x = 1 ∨ sign x = -1) ∧ sign x * x = |x| ∧ sign x * |x| = x := by
  rcases lt_or_gt_of_ne h with h | h
  · rw [sign_neg h, abs_of_neg h]; exact ⟨Or.inr rfl, by ring, by ring⟩
  · rw [sign_pos h, abs_of_pos h]; exact ⟨Or.inl rfl, by ring, by ring⟩

/-! ### The Kepler equation -/

theorem kepler_inj {e x y : ℝ} (h0 : 0 ≤ e) (h1 : e < 1) (h : x - e * sin x = y - e * sin y) : x = y := by
  have h2 : |sin x - sin y| ≤ |x - y| := by
    have := Real.abs_sin_sub_sin_le x y
    simpa using this
  have h3 : x - y = e * (sin x - sin y) := by linarith
  have h4 : |x - y| = e * |sin x - sin y| := by rw [h3, abs_mul, abs_of_nonneg h0]
  have h5 : |x - y| = 0 := by nlinarith [abs_nonneg (x - y), abs_nonneg (sin x - sin y)]
  linarith [abs_eq_zero.1 h5]

theorem kepler_mono {e x y : ℝ} (h0 : 0 ≤ e) (h1 : e < 1) (h : x - e * sin x < y - e * sin y) : x < y := by
  by_contra hn
  have h2 : |sin x - sin y| ≤ |x - y| := by
    have := Real.abs_sin_sub_sin_le x y
    simpa using this
  rw [abs_of_nonneg (show 0 ≤ x - y by linarith)] at h2
  have := le_abs_self (sin x - sin y)
  nlinarith

/-! ### The smooth version of atan(f tan(eta/2)) -/

def gk (f : ℝ) : ℝ := (f - 1) / (f + 1)
def g (f η : ℝ) : ℝ := η / 2 + arctan (gk f * sin η / (1 - gk f * cos η))

theorem gk_abs {f : ℝ} (hf : 0 < f) : |gk f| < 1 := by
  rw [gk, abs_div, abs_of_pos (show 0 < f + 1 by linarith), div_lt_one (by linarith), abs_lt]
  constructor <;> linarith

theorem gk_den {f : ℝ} (hf : 0 < f) (η : ℝ) : 0 < 1 - gk f * cos η := by
  have h1 := gk_abs hf
  have h2 := abs_cos_le_one η
  have h3 : |gk f * cos η| < 1 := by
    rw [abs_mul]
    nlinarith [abs_nonneg (gk f), abs_nonneg (cos η)]
  linarith [(abs_lt.1 h3).2]

theorem g_arctan {f η : ℝ} (hf : 0 < f) (h1 : -π < η) (h2 : η < π) : arctan (f * (sin η / (1 + cos η))) = g f η := by
  set t := sin η / (1 + cos η) with ht
  have hc : 0 < cos (η / 2) := cos_pos_of_mem_Ioo ⟨by linarith, by linarith⟩
  have hs : sin η = 2 * sin (η / 2) * cos (η / 2) := by rw [← sin_two_mul]; congr 1; ring
  have hcc : cos η = 2 * cos (η / 2) ^ 2 - 1 := by rw [← cos_two_mul]; congr 1; ring
  have htan : t = tan (η / 2) := by
    rw [ht, hs, hcc, tan_eq_sin_div_cos]
    field_simp
    ring
  have hat : arctan t = η / 2 := by rw [htan]; exact arctan_tan (by linarith) (by linarith)
  have hden := gk_den hf η
  have hp : 0 < 1 + f * t ^ 2 := by positivity
  have hy : gk f * sin η / (1 - gk f * cos η) = (f - 1) * t / (1 + f * t ^ 2) := by
    have hsc : sin η = 2 * t / (1 + t ^ 2) := by
      rw [htan, tan_eq_sin_div_cos, hs]
      have := sin_sq_add_cos_sq (η / 2)
      field_simp
      rw [add_comm (cos _ ^ 2), this, mul_one]
    have hcs : cos η = (1 - t ^ 2) / (1 + t ^ 2) := by
      rw [htan, tan_eq_sin_div_cos, hcc]
      have := sin_sq_add_cos_sq (η / 2)
      field_simp
      rw [add_comm (cos _ ^ 2), this]
      linear_combination this
    have h3 : 0 < 1 + t ^ 2 := by positivity
    rw [div_eq_div_iff hden.ne' hp.ne', hsc, hcs, gk]
    field_simp
    ring
  rw [g, ← hat, hy, arctan_add]
  · congr 1
    have h3 : 0 < 1 + t ^ 2 := by positivity
    have h4 : 1 - t * ((f - 1) * t / (1 + f * t ^ 2)) = (1 + t ^ 2) / (1 + f * t ^ 2) := by field_simp; ring
    rw [h4]
    field_simp
    ring
  · rw [mul_div_assoc', div_lt_one hp]
    nlinarith [sq_nonneg t]

theorem g_pi (f : ℝ) : g f π = π / 2 := by simp [g]

theorem g_add (f η : ℝ) (n : ℤ) : g f (η + n * (2 * π)) = g f η + n * π := by
  rw [g, g, sin_add_int_mul_two_pi, cos_add_int_mul_two_pi]; ring

theorem hasDerivAt_g {f : ℝ} (hf : 0 < f) (η : ℝ) : HasDerivAt (g f) (f / (f ^ 2 + 1 - (f ^ 2 - 1) * cos η)) η := by
  have hden := gk_den hf η
  have h1 : HasDerivAt (fun η => gk f * sin η / (1 - gk f * cos η)) ((gk f * cos η * (1 - gk f * cos η) - gk f * sin η * (gk f * sin η)) / (1 - gk f * cos η) ^ 2) η := by
    refine ((hasDerivAt_sin η).const_mul (gk f)).div ?_ hden.ne'
    have := ((hasDerivAt_cos η).const_mul (gk f)).const_sub 1
    exact this.congr_deriv (by ring)
  have h2 := ((hasDerivAt_id η).div_const 2).add h1.arctan
  refine h2.congr_deriv ?_
  have hp : 0 < f + 1 := by linarith
  have hsc := sin_sq_add_cos_sq η
  have habs := abs_le.1 (abs_cos_le_one η)
  have hD : 0 < f ^ 2 + 1 - (f ^ 2 - 1) * cos η := by nlinarith [sq_nonneg f, mul_nonneg (sq_nonneg f) (by linarith : (0:ℝ) ≤ 1 - cos η)]
  have h3 : 1 + (gk f * sin η / (1 - gk f * cos η)) ^ 2 = (1 - 2 * gk f * cos η + gk f ^ 2) / (1 - gk f * cos η) ^ 2 := by
    field_simp
    linear_combination gk f ^ 2 * hsc
  have h4 : 1 - 2 * gk f * cos η + gk f ^ 2 = 2 * (f ^ 2 + 1 - (f ^ 2 - 1) * cos η) / (f + 1) ^ 2 := by
    rw [gk]; field_simp; ring
  have h5 : gk f * cos η * (1 - gk f * cos η) - gk f * sin η * (gk f * sin η) = gk f * (cos η - gk f) := by linear_combination -gk f ^ 2 * hsc
  rw [h3, h4, h5]
  have h6 : gk f * (cos η - gk f) = (f - 1) * ((f + 1) * cos η - (f - 1)) / (f + 1) ^ 2 := by rw [gk]; field_simp
  rw [h6]
  have hQ := hden.ne'
  have hD' := hD.ne'
  generalize 1 - gk f * cos η = Q at *
  generalize hX : f ^ 2 + 1 - (f ^ 2 - 1) * cos η = D at *
  field_simp
  rw [← hX]
  ring

/-! ### Parameters of an orbit -/

structure Par (M b L L1 J0 j e : ℝ) : Prop where
  hM : 0 < M
  hb : 0 ≤ b
  hL : 0 < L
  hL1 : L1 = √(L * L + 4 * M * b)
  hJ : 0 < J0
  hj : j = M * b / J0 ^ 2
  he : 0 ≤ e
  sq : (1 - j) ^ 2 - e ^ 2 = (L / J0) ^ 2
  lt : e < 1 - j

variable {M b L L1 J0 j e : ℝ}

namespace Par

theorem j0 (h : Par M b L L1 J0 j e) : 0 ≤ j := by
  have := h.hM; have := h.hb; have := h.hJ
  rw [h.hj]; positivity

theorem jm (h : Par M b L L1 J0 j e) : j * J0 ^ 2 = M * b := by rw [h.hj]; have := h.hJ; field_simp

theorem e1 (h : Par M b L L1 J0 j e) : e < 1 := by linarith [h.lt, h.j0]

theorem L1sq (h : Par M b L L1 J0 j e) : L1 ^ 2 = L ^ 2 + 4 * M * b := by
  have := h.hM; have := h.hb; have := h.hL
  rw [h.hL1, sq_sqrt (by positivity)]; ring

theorem L1pos (h : Par M b L L1 J0 j e) : 0 < L1 := by
  have := h.hM; have := h.hb; have := h.hL
  rw [h.hL1]; exact sqrt_pos.2 (by positivity)

theorem sq2 (h : Par M b L L1 J0 j e) : (1 + j) ^ 2 - e ^ 2 = (L1 / J0) ^ 2 := by
  have h1 := h.sq
  have h2 := h.L1sq
  have h3 := h.jm
  have h4 := h.hJ
  have h5 : (L1 / J0) ^ 2 = (L / J0) ^ 2 + 4 * j := by
    rw [div_pow, div_pow, h2]
    field_simp
    linear_combination -4 * h3
  rw [h5, ← h1]; ring

/-- fac1, fac2 -/
def f1 (J0 L j e : ℝ) : ℝ := (1 + e - j) * J0 / L
def f2 (J0 L1 j e : ℝ) : ℝ := (1 + e + j) * J0 / L1

theorem f1pos (h : Par M b L L1 J0 j e) : 0 < f1 J0 L j e := by
  have := h.lt; have := h.he
  exact div_pos (mul_pos (by linarith) h.hJ) h.hL

theorem f2pos (h : Par M b L L1 J0 j e) : 0 < f2 J0 L1 j e := by
  have := h.j0; have := h.he
  exact div_pos (mul_pos (by linarith) h.hJ) h.L1pos

theorem ra_j (h : Par M b L L1 J0 j e) (η : ℝ) : 0 < 1 - e * cos η - j := by
  have := cos_le_one η
  nlinarith [h.lt, h.he]

theorem g1_deriv (h : Par M b L L1 J0 j e) (η : ℝ) : HasDerivAt (g (f1 J0 L j e)) (L / J0 / (2 * (1 - e * cos η - j))) η := by
  refine (hasDerivAt_g h.f1pos η).congr_deriv ?_
  have h1 := h.sq
  have h2 := h.ra_j η
  have h3 := h.hJ
  have h4 := h.hL
  have hp : 0 < 1 - e - j := by linarith [h.lt]
  have hp' : 0 < 1 + e - j := by linarith [h.lt, h.he]
  have hf : f1 J0 L j e ^ 2 = (1 + e - j) / (1 - e - j) := by
    rw [f1, div_pow, mul_pow, div_eq_div_iff (by positivity) hp.ne']
    have : (1 - j) ^ 2 - e ^ 2 = L ^ 2 / J0 ^ 2 := by rw [h1, div_pow]
    rw [eq_div_iff (by positivity)] at this
    linear_combination (1 + e - j) * this
  have hff : f1 J0 L j e * (1 - e - j) = L / J0 := by
    rw [f1]
    have : (1 - j) ^ 2 - e ^ 2 = L ^ 2 / J0 ^ 2 := by rw [h1, div_pow]
    field_simp at this ⊢
    linear_combination this
  have hden : (1 + e - j) / (1 - e - j) + 1 - ((1 + e - j) / (1 - e - j) - 1) * cos η = 2 * (1 - e * cos η - j) / (1 - e - j) := by
    field_simp
    ring
  rw [hf, ← hff, hden]
  generalize 1 - e * cos η - j = D at *
  generalize 1 - e - j = Q at *
  field_simp

theorem g2_deriv (h : Par M b L L1 J0 j e) (η : ℝ) : HasDerivAt (g (f2 J0 L1 j e)) (L1 / J0 / (2 * (1 - e * cos η + j))) η := by
  refine (hasDerivAt_g h.f2pos η).congr_deriv ?_
  have h1 := h.sq2
  have h2 := h.ra_j η
  have h3 := h.hJ
  have h4 := h.L1pos
  have hj := h.j0
  have hp : 0 < 1 - e + j := by linarith [h.e1]
  have hp' : 0 < 1 + e + j := by linarith [h.lt, h.he]
  have hp2 : 0 < 1 - e * cos η + j := by linarith
  have hf : f2 J0 L1 j e ^ 2 = (1 + e + j) / (1 - e + j) := by
    rw [f2, div_pow, mul_pow, div_eq_div_iff (by positivity) hp.ne']
    have : (1 + j) ^ 2 - e ^ 2 = L1 ^ 2 / J0 ^ 2 := by rw [h1, div_pow]
    rw [eq_div_iff (by positivity)] at this
    linear_combination (1 + e + j) * this
  have hff : f2 J0 L1 j e * (1 - e + j) = L1 / J0 := by
    rw [f2]
    have : (1 + j) ^ 2 - e ^ 2 = L1 ^ 2 / J0 ^ 2 := by rw [h1, div_pow]
    field_simp at this ⊢
    linear_combination this
  have hden : (1 + e + j) / (1 - e + j) + 1 - ((1 + e + j) / (1 - e + j) - 1) * cos η = 2 * (1 - e * cos η + j) / (1 - e + j) := by
    field_simp
    ring
  rw [hf, ← hff, hden]
  generalize 1 - e * cos η + j = D at *
  generalize 1 - e + j = Q at *
  field_simp

end Par

/-- The phase in the orbital plane -/
def psiS (L L1 J0 j e tz tr η : ℝ) : ℝ := tz - (0.5 + 0.5 * L / L1) * tr + g (Par.f1 J0 L j e) η + g (Par.f2 J0 L1 j e) η * L / L1

theorem psiS_add (hL1 : L1 ≠ 0) (tz tr η : ℝ) (n m : ℤ) : psiS L L1 J0 j e (tz + m * (2 * π)) (tr + n * (2 * π)) (η + n * (2 * π)) = psiS L L1 J0 j e tz tr η + m * (2 * π) := by
  rw [psiS, psiS, g_add, g_add]
  field_simp
  ring

/-- The radius and the radial velocity -/
def rS (M b J0 e η : ℝ) : ℝ := √(((1 - e * cos η) * J0 * J0 / M) ^ 2 - b * b)

theorem Par.rS_sq (h : Par M b L L1 J0 j e) (η : ℝ) : rS M b J0 e η ^ 2 = (J0 ^ 2 / M) ^ 2 * ((1 - e * cos η - j) * (1 - e * cos η + j)) ∧ 0 < rS M b J0 e η := by
  have h1 := h.ra_j η
  have h2 := h.j0
  have h3 := h.hM
  have h4 := h.hJ
  have e1 : ((1 - e * cos η) * J0 * J0 / M) ^ 2 - b * b = (J0 ^ 2 / M) ^ 2 * ((1 - e * cos η - j) * (1 - e * cos η + j)) := by
    have := h.jm
    have hb : b = j * J0 ^ 2 / M := by rw [this]; field_simp
    rw [hb]; field_simp; ring
  have h5 : 0 < 1 - e * cos η + j := by linarith
  have h6 : 0 < (J0 ^ 2 / M) ^ 2 * ((1 - e * cos η - j) * (1 - e * cos η + j)) := by positivity
  rw [rS, e1]
  exact ⟨sq_sqrt h6.le, sqrt_pos.2 h6⟩

end

end Verif.Actions
