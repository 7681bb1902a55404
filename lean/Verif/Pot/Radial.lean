import Verif.Coord.SphFunc
import Mathlib.Analysis.SpecialFunctions.Log.Deriv

/-!
# C62, C63 (spherical part): analytic spherically symmetric potentials

Models `/repo/src/potential_analytic.cpp:8-76` and the density expressions of `/repo/src/potential_analytic.h`.
Number model (E).  The three outputs of `evalDeriv` (each computed only when requested, from the same local variables) are the three
fields of `Radial`.
-/

namespace Verif.Pot

open Real Verif.Coord

/-- the outputs of `evalDeriv(r, potential, deriv, deriv2)` -/
structure Radial where (pot der der2 : ℝ)

open Classical in
/-- potential_analytic.cpp:8-19 -/
noncomputable def plummer (mass b r : ℝ) : Radial :=
  let invrsq := if mass ≠ 0 then 1 / (r ^ 2 + b ^ 2) else 0
  let pot := -mass * √invrsq
  ⟨pot, -pot * r * invrsq, pot * (2 * (r * invrsq) ^ 2 - (b * invrsq) ^ 2)⟩

/-- potential_analytic.cpp:21-25 -/
noncomputable def plummerDens (mass b r : ℝ) : ℝ :=
  let invrsq := 1 / (r ^ 2 + b ^ 2)
  3 / 4 / π * mass * (b * invrsq) ^ 2 * √invrsq

open Classical in
/-- potential_analytic.cpp:27-32 -/
noncomputable def plummerMass (mass b r : ℝ) : ℝ :=
  if b = 0 then mass else mass / √((b / r) ^ 2 + 1) ^ 3

/-- potential_analytic.cpp:34-47 -/
noncomputable def isochrone (mass b r : ℝ) : Radial :=
  let rb := √(r ^ 2 + b ^ 2)
  let brb := b + rb
  let pot := -mass / brb
  ⟨pot, -pot * r / (rb * brb), pot * (2 * (r / (rb * brb)) ^ 2 - (b / (rb * brb)) ^ 2 * (1 + b / rb))⟩

/-- potential_analytic.cpp:49-54 -/
noncomputable def isochroneDens (mass b r : ℝ) : ℝ :=
  let rb := √(r ^ 2 + b ^ 2)
  let brb := b + rb
  1 / 4 / π * mass * b * (3 * b * brb + 2 * r ^ 2) / (rb * brb) ^ 3

/-- the radius, in units of the scale radius, below which the series is used (potential_analytic.cpp:61) -/
noncomputable def nfwSwitch : ℝ := 7e-4

open Classical in
/-- potential_analytic.cpp:56-76 (finite radii) -/
noncomputable def nfw (mass a r : ℝ) : Radial :=
  let rrel := r / a
  let ln_over_r := if rrel > nfwSwitch then log (1 + rrel) / r
    else (1 + rrel * (-1 / 2 + rrel * (1 / 3 + rrel * (-1 / 4)))) / a
  ⟨-mass * ln_over_r,
   mass * (if rrel > nfwSwitch then (ln_over_r - 1 / (r + a)) / r
     else (1 / 2 + rrel * (-2 / 3 + rrel * 3 / 4)) / a ^ 2),
   -mass * (if rrel > nfwSwitch then (2 * ln_over_r - (2 * a + 3 * r) / (a + r) ^ 2) / r ^ 2
     else (2 / 3 - rrel * 3 / 2) / a ^ 3)⟩

/-- potential_analytic.h:67-68 -/
noncomputable def nfwDens (mass a r : ℝ) : ℝ := 1 / 4 / π * mass / r / (r + a) ^ 2

/-! ## specification -/

/-- the reported derivatives of a radial profile at `r` are the derivatives of the reported potential -/
def RadialOk (f : ℝ → Radial) (r : ℝ) : Prop :=
  HasDerivAt (fun s => (f s).pot) (f r).der r ∧ HasDerivAt (fun s => (f s).der) (f r).der2 r

/-! ## Plummer -/

theorem hasDerivAt_sqrt_inv {u : ℝ → ℝ} {u' t : ℝ} (hu : HasDerivAt u u' t) (h : 0 < u t) :
    HasDerivAt (fun s => √(1 / u s)) (-u' / 2 * √(1 / u t) / u t) t := by
  have h1 : HasDerivAt (fun s => 1 / u s) (-u' / u t ^ 2) t := by
    refine ((hasDerivAt_const t (1 : ℝ)).div hu h.ne').congr_deriv ?_
    ring
  refine (h1.sqrt (by positivity)).congr_deriv ?_
  have hs : 0 < √(1 / u t) := sqrt_pos.mpr (by positivity)
  have h2 : √(1 / u t) ^ 2 = 1 / u t := sq_sqrt (by positivity)
  rw [div_eq_iff (by positivity)]
  have : -u' / 2 * √(1 / u t) / u t * (2 * √(1 / u t)) = -u' / u t * √(1 / u t) ^ 2 := by ring
  rw [this, h2]
  field_simp

theorem plummer_eq {mass : ℝ} (b r : ℝ) (hm : mass ≠ 0) :
    plummer mass b r = ⟨-mass * √(1 / (r ^ 2 + b ^ 2)), mass * √(1 / (r ^ 2 + b ^ 2)) * r * (1 / (r ^ 2 + b ^ 2)),
      -mass * √(1 / (r ^ 2 + b ^ 2)) * (2 * (r * (1 / (r ^ 2 + b ^ 2))) ^ 2 - (b * (1 / (r ^ 2 + b ^ 2))) ^ 2)⟩ := by
  simp only [plummer, hm, ne_eq, not_false_eq_true, if_true]
  congr 1; ring

/-- C62, Plummer (also massless, for which everything is zero) -/
theorem C62_plummer (mass b r : ℝ) (h : 0 < r ^ 2 + b ^ 2) : RadialOk (plummer mass b) r := by
  by_cases hm : mass = 0
  · subst hm
    have : plummer 0 b = fun _ => ⟨0, 0, 0⟩ := by funext r; simp [plummer]
    rw [this]; exact ⟨hasDerivAt_const _ _, hasDerivAt_const _ _⟩
  have hu : HasDerivAt (fun s : ℝ => s ^ 2 + b ^ 2) (2 * r) r := by
    simpa using (hasDerivAt_pow 2 r).add_const (b ^ 2)
  have hw := hasDerivAt_sqrt_inv hu h
  have hi : HasDerivAt (fun s : ℝ => 1 / (s ^ 2 + b ^ 2)) (-(2 * r) / (r ^ 2 + b ^ 2) ^ 2) r := by
    refine ((hasDerivAt_const r (1 : ℝ)).div hu h.ne').congr_deriv ?_
    ring
  have e : plummer mass b = fun s => _ := funext fun s => plummer_eq b s hm
  rw [e]
  constructor
  · refine (hw.const_mul (-mass)).congr_deriv ?_
    ring
  · refine (((hw.const_mul mass).mul (hasDerivAt_id r)).mul hi).congr_deriv ?_
    simp only [Pi.mul_apply, id]
    have := h.ne'
    field_simp
    ring

/-! ## isochrone -/

theorem hasDerivAt_rb (b r : ℝ) (h : 0 < r ^ 2 + b ^ 2) :
    HasDerivAt (fun s : ℝ => √(s ^ 2 + b ^ 2)) (r / √(r ^ 2 + b ^ 2)) r := by
  have hu : HasDerivAt (fun s : ℝ => s ^ 2 + b ^ 2) (2 * r) r := by
    simpa using (hasDerivAt_pow 2 r).add_const (b ^ 2)
  refine (hu.sqrt h.ne').congr_deriv ?_
  have := (sqrt_pos.mpr h).ne'
  field_simp

/-- C62, isochrone (a nonnegative scale radius) -/
theorem C62_isochrone (mass b r : ℝ) (hb : 0 ≤ b) (h : 0 < r ^ 2 + b ^ 2) : RadialOk (isochrone mass b) r := by
  have hrb := hasDerivAt_rb b r h
  have p1 := sqrt_pos.mpr h
  have hs : √(r ^ 2 + b ^ 2) ^ 2 = r ^ 2 + b ^ 2 := sq_sqrt h.le
  have p2 : 0 < b + √(r ^ 2 + b ^ 2) := by linarith
  have hbrb : HasDerivAt (fun s => b + √(s ^ 2 + b ^ 2)) (r / √(r ^ 2 + b ^ 2)) r := hrb.const_add b
  simp only [RadialOk, isochrone]
  constructor
  · refine ((hasDerivAt_const r (-mass)).div hbrb p2.ne').congr_deriv ?_
    have := p1.ne'; have := p2.ne'
    field_simp
    ring
  · have hpot := (hasDerivAt_const r (-mass)).div hbrb p2.ne'
    refine ((hpot.neg.mul (hasDerivAt_id r)).div (hrb.mul hbrb) (by simp only [Pi.mul_apply]; positivity)).congr_deriv ?_
    simp only [Pi.mul_apply, Pi.div_apply, Pi.neg_apply, id]
    generalize √(r ^ 2 + b ^ 2) = rb at *
    have h1 := p1.ne'; have h2 := p2.ne'
    have hr : r ^ 2 = rb ^ 2 - b ^ 2 := by linarith
    field_simp
    ring_nf
    have h3 : r ^ 4 = (rb ^ 2 - b ^ 2) ^ 2 := by rw [← hr]; ring
    rw [hr]
    ring

/-! ## NFW -/

/-- C62, NFW in the range where the exact expression is used -/
theorem C62_nfw_outer (mass a r : ℝ) (ha : 0 < a) (h : nfwSwitch < r / a) : RadialOk (nfw mass a) r := by
  have h0 : 0 < r / a := lt_trans (by norm_num [nfwSwitch]) h
  have hr : 0 < r := by
    by_contra hn
    exact absurd h0 (not_lt.mpr (div_nonpos_of_nonpos_of_nonneg (not_lt.mp hn) ha.le))
  have hev : ∀ᶠ s in nhds r, nfwSwitch < s / a :=
    continuousAt_const.eventually_lt (continuous_id.div_const a).continuousAt h
  have hlog : HasDerivAt (fun s : ℝ => log (1 + s / a)) (1 / (a + r)) r := by
    have h1 : HasDerivAt (fun s : ℝ => 1 + s / a) (1 / a) r := ((hasDerivAt_id r).div_const a).const_add 1
    refine (h1.log (by positivity)).congr_deriv ?_
    field_simp
  have hln : HasDerivAt (fun s : ℝ => log (1 + s / a) / s) ((1 / (a + r) - log (1 + r / a) / r) / r) r := by
    refine (hlog.div (hasDerivAt_id r) hr.ne').congr_deriv ?_
    simp only [id]; field_simp
  constructor
  · have h1 := hln.const_mul (-mass)
    refine (h1.congr_of_eventuallyEq ?_).congr_deriv ?_
    · filter_upwards [hev] with s hs
      simp only [nfw, gt_iff_lt, hs, if_true]
    · simp only [nfw, gt_iff_lt, h, if_true]
      rw [add_comm r a]; ring
  · have hi : HasDerivAt (fun s : ℝ => 1 / (s + a)) (-1 / (r + a) ^ 2) r := by
      have h2 : HasDerivAt (fun s : ℝ => s + a) 1 r := (hasDerivAt_id r).add_const a
      refine ((hasDerivAt_const r (1 : ℝ)).div h2 (by positivity)).congr_deriv ?_
      ring
    have h1 := ((hln.sub hi).div (hasDerivAt_id r) hr.ne').const_mul mass
    refine (h1.congr_of_eventuallyEq ?_).congr_deriv ?_
    · filter_upwards [hev] with s hs
      simp only [nfw, gt_iff_lt, hs, if_true, Pi.sub_apply, Pi.div_apply, id]
    · simp only [nfw, gt_iff_lt, h, if_true, Pi.sub_apply, id]
      field_simp
      ring

/-- C62, NFW in the central region, where a series is used: again the reported derivatives are exactly those of the reported potential -/
theorem C62_nfw_inner (mass a r : ℝ) (ha : 0 < a) (h : r / a < nfwSwitch) : RadialOk (nfw mass a) r := by
  have hev : ∀ᶠ s in nhds r, s / a < nfwSwitch :=
    (continuous_id.div_const a).continuousAt.eventually_lt continuousAt_const h
  have hx : HasDerivAt (fun s : ℝ => s / a) (1 / a) r := (hasDerivAt_id r).div_const a
  constructor
  · have h1 := (((((hx.mul_const (-1 / 4 : ℝ)).const_add (1 / 3)).mul hx).const_add (-1 / 2)).mul hx).const_add 1
    have h2 := (h1.div_const a).const_mul (-mass)
    refine (h2.congr_of_eventuallyEq ?_).congr_deriv ?_
    · filter_upwards [hev] with s hs
      simp only [nfw, gt_iff_lt, not_lt.mpr hs.le, if_false, Pi.mul_apply]
      ring
    · simp only [nfw, gt_iff_lt, not_lt.mpr h.le, if_false, Pi.mul_apply]
      field_simp; ring
  · have h1 := ((((hx.mul_const (3 / 4 : ℝ)).const_add (-2 / 3)).mul hx).const_add (1 / 2)).div_const (a ^ 2)
    have h2 := h1.const_mul mass
    refine (h2.congr_of_eventuallyEq ?_).congr_deriv ?_
    · filter_upwards [hev] with s hs
      simp only [nfw, gt_iff_lt, not_lt.mpr hs.le, if_false, Pi.mul_apply]
      ring
    · simp only [nfw, gt_iff_lt, not_lt.mpr h.le, if_false]
      field_simp; ring

/-- the closed form ln(1+x)/x of which the central series is the expansion: it agrees with it to within x⁴/5 -/
theorem nfw_series_error (x : ℝ) (h0 : 0 < x) :
    |log (1 + x) / x - (1 + x * (-1 / 2 + x * (1 / 3 + x * (-1 / 4))))| ≤ x ^ 4 / 5 := by
  -- f(x) = ln(1+x) - (x - x²/2 + x³/3 - x⁴/4) has derivative x⁴/(1+x), between 0 and x⁴
  have hf : ∀ y ∈ Set.Ici (0 : ℝ), HasDerivAt (fun x : ℝ => log (1 + x) - (x - x ^ 2 / 2 + x ^ 3 / 3 - x ^ 4 / 4)) (y ^ 4 / (1 + y)) y := by
    intro y hy
    have hy : 0 ≤ y := hy
    have h2 : HasDerivAt (fun x : ℝ => 1 + x) 1 y := (hasDerivAt_id y).const_add 1
    have h3 := h2.log (by positivity)
    have h4 := ((((hasDerivAt_id y).sub ((hasDerivAt_pow 2 y).div_const 2)).add ((hasDerivAt_pow 3 y).div_const 3)).sub
      ((hasDerivAt_pow 4 y).div_const 4))
    refine ((h3.sub h4).congr_deriv ?_).congr_of_eventuallyEq (Filter.Eventually.of_forall fun s => ?_)
    · field_simp; ring
    · simp
  have mono1 : MonotoneOn (fun x : ℝ => log (1 + x) - (x - x ^ 2 / 2 + x ^ 3 / 3 - x ^ 4 / 4)) (Set.Ici 0) := by
    apply monotoneOn_of_deriv_nonneg (convex_Ici 0)
    · intro y hy; exact (hf y hy).continuousAt.continuousWithinAt
    · intro y hy; exact (hf y (interior_subset hy)).differentiableAt.differentiableWithinAt
    · intro y hy
      have hy' : 0 ≤ y := interior_subset hy
      rw [(hf y hy').deriv]; positivity
  have mono2 : MonotoneOn (fun x : ℝ => x ^ 5 / 5 - (log (1 + x) - (x - x ^ 2 / 2 + x ^ 3 / 3 - x ^ 4 / 4))) (Set.Ici 0) := by
    have hg : ∀ y ∈ Set.Ici (0 : ℝ), HasDerivAt (fun x : ℝ => x ^ 5 / 5 - (log (1 + x) - (x - x ^ 2 / 2 + x ^ 3 / 3 - x ^ 4 / 4)))
        (y ^ 4 - y ^ 4 / (1 + y)) y := by
      intro y hy
      refine (((hasDerivAt_pow 5 y).div_const 5).sub (hf y hy)).congr_deriv ?_
      ring
    apply monotoneOn_of_deriv_nonneg (convex_Ici 0)
    · intro y hy; exact (hg y hy).continuousAt.continuousWithinAt
    · intro y hy; exact (hg y (interior_subset hy)).differentiableAt.differentiableWithinAt
    · intro y hy
      have hy' : 0 ≤ y := interior_subset hy
      rw [(hg y hy').deriv, sub_nonneg]
      exact div_le_self (by positivity) (by linarith)
  have m1 := mono1 (Set.mem_Ici.mpr le_rfl) (Set.mem_Ici.mpr h0.le) h0.le
  have m2 := mono2 (Set.mem_Ici.mpr le_rfl) (Set.mem_Ici.mpr h0.le) h0.le
  simp only [add_zero, log_one] at m1 m2
  norm_num at m1 m2
  have e : log (1 + x) / x - (1 + x * (-1 / 2 + x * (1 / 3 + x * (-1 / 4)))) =
      (log (1 + x) - (x - x ^ 2 / 2 + x ^ 3 / 3 - x ^ 4 / 4)) / x := by field_simp; ring
  rw [e, abs_div, abs_of_pos h0, div_le_iff₀ h0, abs_of_nonneg (by linarith)]
  nlinarith

/-- C62, NFW: over the whole range the reported potential is -M ln(1+r/a)/r up to a relative deviation of 10⁻¹³ of the central value -/
theorem C62_nfw_value (mass a r : ℝ) (ha : 0 < a) (hr : 0 < r) :
    |(nfw mass a r).pot - -mass * log (1 + r / a) / r| ≤ 1e-13 * |mass| / a := by
  by_cases h : nfwSwitch < r / a
  · simp only [nfw, gt_iff_lt, h, if_true]
    have : -mass * (log (1 + r / a) / r) - -mass * log (1 + r / a) / r = 0 := by ring
    rw [this, abs_zero]; positivity
  · have hx : r / a ≤ 7e-4 := by simpa [nfwSwitch] using h
    have h0 : 0 < r / a := by positivity
    have he := nfw_series_error (r / a) h0
    simp only [nfw, gt_iff_lt, h, if_false]
    have e : -mass * ((1 + r / a * (-1 / 2 + r / a * (1 / 3 + r / a * (-1 / 4)))) / a) - -mass * log (1 + r / a) / r =
        mass / a * (log (1 + r / a) / (r / a) - (1 + r / a * (-1 / 2 + r / a * (1 / 3 + r / a * (-1 / 4))))) := by
      field_simp; ring
    rw [e, abs_mul, abs_div, abs_of_pos ha]
    have h4 : (r / a) ^ 4 / 5 ≤ 1e-13 := by
      have : (r / a) ^ 4 ≤ (7e-4 : ℝ) ^ 4 := pow_le_pow_left₀ h0.le hx 4
      have h5 : ((7e-4 : ℝ)) ^ 4 / 5 ≤ 1e-13 := by norm_num
      linarith
    calc |mass| / a * |log (1 + r / a) / (r / a) - (1 + r / a * (-1 / 2 + r / a * (1 / 3 + r / a * (-1 / 4))))|
        ≤ |mass| / a * 1e-13 := by gcongr; linarith
      _ = _ := by ring

/-! ## from the radial profile to the three-dimensional potential -/

/-- C62: the Cartesian gradient and Hessian reported by a spherically symmetric potential with a consistent radial profile -/
theorem C62_sph_car (f : ℝ → Radial) (p : PosCar) (hp : √(p.x ^ 2 + p.y ^ 2 + p.z ^ 2) ≠ 0)
    (h : RadialOk f (√(p.x ^ 2 + p.y ^ 2 + p.z ^ 2))) :
    IsGradCar (ofRadiusCar fun r => (f r).pot) p (sphGradCar (f (√(p.x ^ 2 + p.y ^ 2 + p.z ^ 2))).der p) ∧
    ∃ H, sphHessCar (f (√(p.x ^ 2 + p.y ^ 2 + p.z ^ 2))).der (f (√(p.x ^ 2 + p.y ^ 2 + p.z ^ 2))).der2 p = some H ∧
      IsHessCar (fun q => sphGradCar (f (√(q.x ^ 2 + q.y ^ 2 + q.z ^ 2))).der q) p H :=
  ⟨C60_grad_car _ _ p hp h.1, C60_hess_car (fun r => (f r).der) _ p hp h.2⟩

/-- C62: and at the origin, when the radial derivative vanishes there -/
theorem C62_sph_car_origin (f : ℝ → Radial) (h : RadialOk f 0) (h0 : (f 0).der = 0) :
    IsGradCar (ofRadiusCar fun r => (f r).pot) ⟨0, 0, 0⟩ (sphGradCar (f 0).der ⟨0, 0, 0⟩) ∧
    ∃ H, sphHessCar (f 0).der (f 0).der2 ⟨0, 0, 0⟩ = some H ∧
      IsHessCar (fun q => sphGradCar (f (√(q.x ^ 2 + q.y ^ 2 + q.z ^ 2))).der q) ⟨0, 0, 0⟩ H := by
  refine ⟨C60_grad_car_origin _ ?_ _, C60_hess_car_origin (fun r => (f r).der) _ h0 h.2.hasDerivWithinAt⟩
  have := h.1
  rw [h0] at this
  exact this.hasDerivWithinAt

/-- C62: cylindrical coordinates -/
theorem C62_sph_cyl (f : ℝ → Radial) (p : PosCyl) (hp : √(p.R ^ 2 + p.z ^ 2) ≠ 0) (h : RadialOk f (√(p.R ^ 2 + p.z ^ 2))) :
    IsGradCyl (ofRadiusCyl fun r => (f r).pot) p (sphGradCyl (f (√(p.R ^ 2 + p.z ^ 2))).der p) ∧
    ∃ H, sphHessCyl (f (√(p.R ^ 2 + p.z ^ 2))).der (f (√(p.R ^ 2 + p.z ^ 2))).der2 p = some H ∧
      IsHessCyl (fun q => sphGradCyl (f (√(q.R ^ 2 + q.z ^ 2))).der q) p H :=
  ⟨C60_grad_cyl _ _ p hp h.1, C60_hess_cyl (fun r => (f r).der) _ p hp h.2⟩

/-! ## C63: the explicit density is the Laplacian of the potential divided by 4π -/

/-- the trace of the reported Cartesian Hessian of a spherically symmetric function -/
theorem trace_sphHess (der der2 : ℝ) (p : PosCar) (H : HessCar) (h : sphHessCar der der2 p = some H) :
    H.dx2 + H.dy2 + H.dz2 = if √(p.x ^ 2 + p.y ^ 2 + p.z ^ 2) = 0 then 3 * der2
      else der2 + 2 * der / √(p.x ^ 2 + p.y ^ 2 + p.z ^ 2) := by
  have hrs : √(p.x ^ 2 + p.y ^ 2 + p.z ^ 2) ^ 2 = p.x ^ 2 + p.y ^ 2 + p.z ^ 2 := sq_sqrt (by positivity)
  simp only [sphHessCar] at h
  generalize √(p.x ^ 2 + p.y ^ 2 + p.z ^ 2) = r at *
  by_cases hr : r = 0
  · simp only [hr, true_and, if_true] at h ⊢
    split_ifs at h with hd
    cases h; simp only; ring
  · simp only [hr, false_and, if_false] at h ⊢
    cases h; simp only
    have : p.x ^ 2 = r ^ 2 - p.y ^ 2 - p.z ^ 2 := by linarith
    field_simp
    rw [this]; ring

/-- C63, Plummer: everywhere, including the centre -/
theorem C63_plummer (mass b : ℝ) (hb : b ≠ 0) (p : PosCar) (H : HessCar) (r : ℝ) (hr : r = √(p.x ^ 2 + p.y ^ 2 + p.z ^ 2))
    (h : sphHessCar (plummer mass b r).der (plummer mass b r).der2 p = some H) :
    plummerDens mass b r = (H.dx2 + H.dy2 + H.dz2) / (4 * π) := by
  rw [trace_sphHess _ _ _ _ h, ← hr]
  have hpi := pi_pos.ne'
  have hu : 0 < r ^ 2 + b ^ 2 := by positivity
  have hu' := hu.ne'
  by_cases hm : mass = 0
  · subst hm; simp [plummer, plummerDens]
  rw [plummer_eq b r hm]
  simp only [plummerDens]
  generalize √(1 / (r ^ 2 + b ^ 2)) = w
  split_ifs with h0
  · subst h0; field_simp; ring
  · field_simp; ring

/-- C63, Plummer with zero scale radius (Kepler potential): the density is zero away from the centre -/
theorem C63_plummer_point (mass r der2 der : ℝ) (hr : r ≠ 0) (h1 : der = (plummer mass 0 r).der) (h2 : der2 = (plummer mass 0 r).der2) :
    plummerDens mass 0 r = 0 ∧ der2 + 2 * der / r = 0 := by
  refine ⟨by simp [plummerDens], ?_⟩
  by_cases hm : mass = 0
  · subst hm; simp [plummer] at h1 h2; simp [h1, h2]
  rw [plummer_eq 0 r hm] at h1 h2
  simp only at h1 h2
  rw [h1, h2]; field_simp; ring

/-- C63, Plummer: the reported enclosed mass is the one implied by the force, r² dΦ/dr (Gauss's theorem) -/
theorem C63_plummer_mass (mass b r : ℝ) (hr : 0 < r) (hm : mass ≠ 0) : plummerMass mass b r = r ^ 2 * (plummer mass b r).der := by
  have hu : 0 < r ^ 2 + b ^ 2 := by positivity
  rw [plummer_eq b r hm]
  simp only [plummerMass]
  have e1 : √(1 / (r ^ 2 + b ^ 2)) = 1 / √(r ^ 2 + b ^ 2) := by rw [sqrt_div' _ hu.le, sqrt_one]
  have hs : √(r ^ 2 + b ^ 2) ^ 2 = r ^ 2 + b ^ 2 := sq_sqrt hu.le
  have hs3 : √(r ^ 2 + b ^ 2) ^ 3 = (r ^ 2 + b ^ 2) * √(r ^ 2 + b ^ 2) := by rw [pow_succ, hs]
  have p1 := sqrt_pos.mpr hu
  split_ifs with hb
  · subst hb
    have : √(r ^ 2 + 0 ^ 2) = r := by simp [sqrt_sq hr.le]
    rw [e1, this]; field_simp; ring
  · have e2 : √((b / r) ^ 2 + 1) = √(r ^ 2 + b ^ 2) / r := by
      have : (b / r) ^ 2 + 1 = (r ^ 2 + b ^ 2) / r ^ 2 := by field_simp; ring
      rw [this, sqrt_div hu.le, sqrt_sq hr.le]
    rw [e1, e2, div_pow, hs3]
    field_simp

/-- C63, isochrone -/
theorem C63_isochrone (mass b : ℝ) (hb : 0 < b) (p : PosCar) (H : HessCar) (r : ℝ) (hr : r = √(p.x ^ 2 + p.y ^ 2 + p.z ^ 2))
    (h : sphHessCar (isochrone mass b r).der (isochrone mass b r).der2 p = some H) :
    isochroneDens mass b r = (H.dx2 + H.dy2 + H.dz2) / (4 * π) := by
  rw [trace_sphHess _ _ _ _ h, ← hr]
  have hpi := pi_pos.ne'
  have hu : 0 < r ^ 2 + b ^ 2 := by positivity
  have hs : √(r ^ 2 + b ^ 2) ^ 2 = r ^ 2 + b ^ 2 := sq_sqrt hu.le
  have p1 := sqrt_pos.mpr hu
  simp only [isochrone, isochroneDens]
  split_ifs with h0
  · subst h0
    have : √(0 ^ 2 + b ^ 2) = b := by simp [sqrt_sq hb.le]
    rw [this]; field_simp; ring
  · generalize √(r ^ 2 + b ^ 2) = rb at *
    have p2 : b + rb ≠ 0 := by positivity
    have hr2 : r ^ 2 = rb ^ 2 - b ^ 2 := by linarith
    field_simp
    rw [hr2]; ring

/-- C63, NFW, in the range where the exact expression is used -/
theorem C63_nfw (mass a : ℝ) (ha : 0 < a) (p : PosCar) (H : HessCar) (r : ℝ) (hr : r = √(p.x ^ 2 + p.y ^ 2 + p.z ^ 2))
    (hx : nfwSwitch < r / a)
    (h : sphHessCar (nfw mass a r).der (nfw mass a r).der2 p = some H) :
    nfwDens mass a r = (H.dx2 + H.dy2 + H.dz2) / (4 * π) := by
  have h0 : 0 < r / a := lt_trans (by norm_num [nfwSwitch]) hx
  have hr0 : 0 < r := by
    by_contra hn
    exact absurd h0 (not_lt.mpr (div_nonpos_of_nonpos_of_nonneg (not_lt.mp hn) ha.le))
  have hpi := pi_pos.ne'
  rw [trace_sphHess _ _ _ _ h, ← hr, if_neg hr0.ne']
  simp only [nfw, nfwDens, gt_iff_lt, hx, if_true]
  have p2 : r + a ≠ 0 := by positivity
  have p3 : a + r ≠ 0 := by positivity
  rw [add_comm a r]
  field_simp
  ring

/-- C63, NFW, central region: the explicit density agrees with the Laplacian of the series to 2·10⁻⁹ (relative) -/
theorem C63_nfw_inner (mass a : ℝ) (ha : 0 < a) (p : PosCar) (H : HessCar) (r : ℝ) (hr : r = √(p.x ^ 2 + p.y ^ 2 + p.z ^ 2))
    (hr0 : 0 < r) (hx : r / a ≤ nfwSwitch)
    (h : sphHessCar (nfw mass a r).der (nfw mass a r).der2 p = some H) :
    |(H.dx2 + H.dy2 + H.dz2) / (4 * π) - nfwDens mass a r| ≤ 2e-9 * |nfwDens mass a r| := by
  have hpi := pi_pos
  rw [trace_sphHess _ _ _ _ h, ← hr, if_neg hr0.ne']
  simp only [nfw, nfwDens, gt_iff_lt, not_lt.mpr hx, if_false]
  obtain ⟨x, rfl⟩ : ∃ x, r = x * a := ⟨r / a, by field_simp⟩
  have hxa : x * a / a = x := by field_simp
  rw [hxa] at hx ⊢
  have hx0 : 0 < x := by by_contra hn; nlinarith
  have hx1 : x ≤ 7e-4 := by rw [nfwSwitch] at hx; exact hx
  have e : (-mass * ((2 / 3 - x * 3 / 2) / a ^ 3) + 2 * (mass * ((1 / 2 + x * (-2 / 3 + x * 3 / 4)) / a ^ 2)) / (x * a)) / (4 * π) -
      1 / 4 / π * mass / (x * a) / (x * a + a) ^ 2 = (x ^ 3 * (4 + 3 * x)) * (1 / 4 / π * mass / (x * a) / (x * a + a) ^ 2) := by
    have : x * a + a = a * (x + 1) := by ring
    rw [this]
    have : x + 1 ≠ 0 := by positivity
    field_simp
    ring
  rw [e, abs_mul, abs_of_pos (by positivity)]
  gcongr
  have h3 : x ^ 3 ≤ (7e-4 : ℝ) ^ 3 := pow_le_pow_left₀ hx0.le hx1 3
  calc x ^ 3 * (4 + 3 * x) ≤ (7e-4 : ℝ) ^ 3 * (4 + 3 * 7e-4) := by gcongr
    _ ≤ 2e-9 := by norm_num

/-! ## a concrete case: a Plummer sphere of unit mass and radius at distance 1 from the centre along x -/

example : RadialOk (plummer 1 1) 1 := C62_plummer 1 1 1 (by norm_num)
example : RadialOk (isochrone 2 3) 4 := C62_isochrone 2 3 4 (by norm_num) (by norm_num)
example : RadialOk (nfw 1 2) 3 := C62_nfw_outer 1 2 3 (by norm_num) (by norm_num [nfwSwitch])
example : RadialOk (nfw 1 2) 0 := C62_nfw_inner 1 2 0 (by norm_num) (by norm_num [nfwSwitch])
example : ∃ H, sphHessCar (plummer 1 1 1).der (plummer 1 1 1).der2 ⟨1, 0, 0⟩ = some H ∧
    plummerDens 1 1 1 = (H.dx2 + H.dy2 + H.dz2) / (4 * π) := by
  have h1 : √((1 : ℝ) ^ 2 + 0 ^ 2 + 0 ^ 2) = 1 := by norm_num
  obtain ⟨_, H, hH, _⟩ := C62_sph_car (plummer 1 1) ⟨1, 0, 0⟩ (by rw [h1]; norm_num) (by rw [h1]; exact C62_plummer 1 1 1 (by norm_num))
  simp only [h1] at hH
  exact ⟨H, hH, C63_plummer 1 1 (by norm_num) _ H 1 h1.symm hH⟩

end Verif.Pot
