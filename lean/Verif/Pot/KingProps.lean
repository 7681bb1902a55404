import Verif.Pot.King
import Mathlib.Analysis.SpecialFunctions.Pow.Deriv
import Mathlib.MeasureTheory.Integral.IntervalIntegral.FundThmCalculus
import Mathlib.MeasureTheory.Integral.IntegralEqImproper
import Mathlib.Analysis.Calculus.Deriv.MeanValue

/-!
# C115: the King model
-/
namespace Verif.Pot.King
open Real MeasureTheory

/-! ## the density as a function of the potential -/

/-- specification: the lower incomplete gamma function -/
noncomputable def lower (a x : ℝ) : ℝ := ∫ t in (0:ℝ)..x, exp (-t) * t ^ (a - 1)

theorem cont_integrand (a : ℝ) (ha : 1 ≤ a) : Continuous (fun t : ℝ => exp (-t) * t ^ (a - 1)) := by
  have := continuous_rpow_const (q := a - 1) (by linarith)
  fun_prop

theorem gamma_sub (a x : ℝ) (ha : 1 ≤ a) (hx : 0 ≤ x) : Gamma a - gammainc a x = lower a x := by
  unfold gammainc lower
  rw [Gamma_eq_integral (by linarith)]
  have hi := GammaIntegral_convergent (s := a) (by linarith)
  have h := intervalIntegral.integral_interval_add_Ioi (a := 0) (b := x) hi
    (hi.mono_set (Set.Ioi_subset_Ioi hx))
  linarith

theorem lower_deriv (a x : ℝ) (ha : 1 ≤ a) : HasDerivAt (lower a) (exp (-x) * x ^ (a - 1)) x :=
  intervalIntegral.integral_hasDerivAt_right ((cont_integrand a ha).intervalIntegrable _ _)
    ((cont_integrand a ha).stronglyMeasurableAtFilter _ _) (cont_integrand a ha).continuousAt

theorem lower_pos (a x : ℝ) (ha : 1 ≤ a) (hx : 0 < x) : 0 < lower a x := by
  apply intervalIntegral.intervalIntegral_pos_of_pos_on ((cont_integrand a ha).intervalIntegrable _ _) _ hx
  intro t ht
  have := rpow_pos_of_pos ht.1 (a - 1)
  have := exp_pos (-t)
  positivity

theorem lower_zero (a : ℝ) : lower a 0 = 0 := by simp [lower]

theorem lower_succ (a x : ℝ) (ha : 1 ≤ a) : lower (a + 1) x = a * lower a x - x ^ a * exp (-x) := by
  have key : ∀ t ∈ Set.uIcc 0 x, HasDerivAt (fun t : ℝ => t ^ a * exp (-t)) (a * (exp (-t) * t ^ (a - 1)) - exp (-t) * t ^ (a + 1 - 1)) t := by
    intro t _
    have h1 := (Real.hasDerivAt_rpow_const (x := t) (p := a) (Or.inr ha)).mul ((hasDerivAt_neg t).exp)
    refine h1.congr_deriv ?_
    rw [show a + 1 - 1 = a by ring]; ring
  have c1 := cont_integrand a ha
  have c2 := cont_integrand (a + 1) (by linarith)
  have h := intervalIntegral.integral_eq_sub_of_hasDerivAt key (((c1.const_mul a).sub c2).intervalIntegrable _ _)
  rw [intervalIntegral.integral_sub ((c1.const_mul a).intervalIntegrable _ _) (c2.intervalIntegrable _ _),
    intervalIntegral.integral_const_mul, zero_rpow (by linarith)] at h
  unfold lower
  linarith

theorem lower_le (a x : ℝ) (ha : 1 ≤ a) (hx : 0 ≤ x) : lower (a + 1) x ≤ x * lower a x := by
  unfold lower
  rw [← intervalIntegral.integral_const_mul]
  apply intervalIntegral.integral_mono_on hx ((cont_integrand (a+1) (by linarith)).intervalIntegrable _ _)
    (((cont_integrand a ha).const_mul x).intervalIntegrable _ _)
  intro t ht
  rcases eq_or_lt_of_le ht.1 with h | h
  · rw [← h, show a + 1 - 1 = a by ring, zero_rpow (by linarith)]
    have := rpow_nonneg (le_refl (0:ℝ)) (a - 1)
    have := exp_pos (-(0:ℝ))
    simp only [mul_zero]; positivity
  · rw [show a + 1 - 1 = 1 + (a - 1) by ring, rpow_add h, rpow_one]
    have h1 := rpow_pos_of_pos h (a - 1)
    have h2 := exp_pos (-t)
    have := mul_pos h2 h1
    nlinarith [ht.2]

/-- the exact density, as a function of the potential: `exp(φ) γ(g+3/2, φ)` normalized to 1 at `W0` -/
noncomputable def exactRho (W0 trunc phi : ℝ) : ℝ :=
  exp (phi - W0) * lower (trunc + 3/2) phi / lower (trunc + 3/2) W0

theorem norm_eq (W0 trunc : ℝ) (hW : 0 < W0) (ht : 0 ≤ trunc) : norm W0 trunc = exp (-W0) / lower (trunc + 3/2) W0 := by
  unfold norm
  rw [show (1.5:ℝ) = 3/2 by norm_num, gamma_sub _ _ (by linarith) hW.le]

theorem norm_pos (W0 trunc : ℝ) (hW : 0 < W0) (ht : 0 ≤ trunc) : 0 < norm W0 trunc := by
  rw [norm_eq W0 trunc hW ht]
  exact div_pos (exp_pos _) (lower_pos _ _ (by linarith) hW)

theorem rho_exact (W0 trunc phi : ℝ) (hW : 0 < W0) (ht : 0 ≤ trunc) (h0 : 0 < phi) (hp : phicrit trunc < phi) :
    rho W0 trunc phi = exactRho W0 trunc phi := by
  unfold rho exactRho
  rw [if_neg (not_le.mpr h0), if_pos hp, norm_eq W0 trunc hW ht, show (1.5:ℝ) = 3/2 by norm_num,
    gamma_sub _ _ (by linarith) h0.le, sub_eq_add_neg, exp_add]
  ring

/-- the series: the difference from the exact density in terms of the remainder -/
theorem rho_series (W0 trunc phi : ℝ) (hW : 0 < W0) (ht : 0 ≤ trunc) (h0 : 0 < phi) (hp : phi ≤ phicrit trunc) :
    exactRho W0 trunc phi - rho W0 trunc phi =
      norm W0 trunc * exp phi * lower (trunc + 3/2 + 1 + 1) phi / ((trunc + 3/2) * (trunc + 3/2 + 1)) := by
  unfold rho exactRho
  rw [if_neg (not_le.mpr h0), if_neg (not_lt.mpr hp), norm_eq W0 trunc hW ht, show (1.5:ℝ) = 3/2 by norm_num,
    show (2.5:ℝ) = 3/2 + 1 by norm_num, ← add_assoc]
  have ha : 1 ≤ trunc + 3/2 := by linarith
  rw [lower_succ (trunc + 3/2 + 1) phi (by linarith), lower_succ (trunc + 3/2) phi ha, sub_eq_add_neg phi W0, exp_add]
  have hL := lower_pos (trunc + 3/2) W0 ha hW
  have e1 : phi ^ (trunc + 3/2 + 1) = phi ^ (trunc + 3/2) * phi := by rw [rpow_add h0, rpow_one]
  have e2 : exp phi * exp (-phi) = 1 := by rw [← exp_add]; simp
  rw [e1]
  generalize lower (trunc + 3/2) W0 = L at hL ⊢
  generalize lower (trunc + 3/2) phi = G
  generalize phi ^ (trunc + 3/2) = P
  generalize trunc + 3/2 = a at ha ⊢
  generalize exp (-W0) = w
  generalize exp phi = E at e2 ⊢
  generalize exp (-phi) = e at e2 ⊢
  have : a ≠ 0 := by linarith
  have : a + 1 ≠ 0 := by linarith
  field_simp
  linear_combination w * (a * P + P * phi + P) * e2

theorem exactRho_deriv (W0 trunc phi : ℝ) (ht : 0 ≤ trunc) :
    HasDerivAt (exactRho W0 trunc) ((exp (phi - W0) * lower (trunc + 3/2) phi + exp (phi - W0) * (exp (-phi) * phi ^ (trunc + 3/2 - 1)))
      / lower (trunc + 3/2) W0) phi := by
  have h1 : HasDerivAt (fun p : ℝ => exp (p - W0)) (exp (phi - W0)) phi := by
    refine (((hasDerivAt_id phi).sub_const W0).exp).congr_deriv ?_
    simp
  exact (h1.mul (lower_deriv _ _ (by linarith))).div_const _

theorem exactRho_mono (W0 trunc : ℝ) (hW : 0 < W0) (ht : 0 ≤ trunc) : StrictMonoOn (exactRho W0 trunc) (Set.Ici 0) := by
  apply strictMonoOn_of_deriv_pos (convex_Ici 0)
  · exact fun x _ => (exactRho_deriv W0 trunc x ht).continuousAt.continuousWithinAt
  · intro x hx
    rw [interior_Ici] at hx
    have hx' : 0 < x := hx
    rw [(exactRho_deriv W0 trunc x ht).deriv]
    have h1 := lower_pos (trunc + 3/2) W0 (by linarith) hW
    have h2 := lower_pos (trunc + 3/2) x (by linarith) hx'
    have h3 := rpow_pos_of_pos hx' (trunc + 3/2 - 1)
    positivity

/-- **C115** The density as a function of the potential is positive inside the model and zero outside; it is the exact one
(lower incomplete gamma function, normalized to 1 at the centre) above the threshold; below it the truncated series
underestimates it, with the relative error at most φ²/(a(a+1)), a=trunc+3/2, i.e. at most the value at the threshold. -/
theorem C115_density (W0 trunc phi : ℝ) (hW : 0 < W0) (ht : 0 ≤ trunc) :
    (phi ≤ 0 → rho W0 trunc phi = 0) ∧
    (0 < phi → 0 < rho W0 trunc phi) ∧
    (0 < phi → phicrit trunc < phi → rho W0 trunc phi = exactRho W0 trunc phi) ∧
    (0 < phi → phi ≤ phicrit trunc → rho W0 trunc phi < exactRho W0 trunc phi ∧
      exactRho W0 trunc phi - rho W0 trunc phi ≤ phi ^ 2 / ((trunc + 3/2) * (trunc + 5/2)) * exactRho W0 trunc phi) ∧
    (phicrit trunc < W0 → rho W0 trunc W0 = 1) := by
  have hn := norm_pos W0 trunc hW ht
  refine ⟨fun h => by simp [rho, h], ?_, fun h hp => rho_exact W0 trunc phi hW ht h hp, ?_, ?_⟩
  · intro h
    unfold rho
    rw [if_neg (not_le.mpr h)]
    split_ifs
    · rw [show (1.5:ℝ) = 3/2 by norm_num, gamma_sub _ _ (by linarith) h.le]
      have := lower_pos (trunc + 3/2) phi (by linarith) h
      positivity
    · have h1 : 0 < trunc + 1.5 := by norm_num; linarith
      have h2 : 0 < trunc + 2.5 := by norm_num; linarith
      have := rpow_pos_of_pos h (trunc + 1.5)
      positivity
  · intro h hp
    have hs := rho_series W0 trunc phi hW ht h hp
    have h0 := lower_pos (trunc + 3/2 + 1 + 1) phi (by linarith) h
    have ha : 0 < trunc + 3/2 := by linarith
    constructor
    · have : 0 < norm W0 trunc * exp phi * lower (trunc + 3/2 + 1 + 1) phi / ((trunc + 3/2) * (trunc + 3/2 + 1)) := by positivity
      linarith
    · rw [hs, show trunc + 5/2 = trunc + 3/2 + 1 by ring]
      have e : exactRho W0 trunc phi = norm W0 trunc * exp phi * lower (trunc + 3/2) phi := by
        unfold exactRho
        rw [norm_eq W0 trunc hW ht, sub_eq_add_neg, exp_add]; ring
      have h1 := lower_le (trunc + 3/2) phi (by linarith) h.le
      have h2 := lower_le (trunc + 3/2 + 1) phi (by linarith) h.le
      have h3 : lower (trunc + 3/2 + 1 + 1) phi ≤ phi ^ 2 * lower (trunc + 3/2) phi := by nlinarith
      rw [e, div_mul_eq_mul_div]
      apply div_le_div_of_nonneg_right _ (by positivity)
      have : 0 < norm W0 trunc * exp phi := by positivity
      nlinarith
  · intro h
    rw [rho_exact W0 trunc W0 hW ht hW h]
    unfold exactRho
    rw [sub_self, exp_zero, one_mul]
    exact div_self (lower_pos _ _ (by linarith) hW).ne'

/-- **C115** The density grows with the potential. -/
theorem C115_monotone (W0 trunc : ℝ) (hW : 0 < W0) (ht : 0 ≤ trunc) (p q : ℝ) (hp : 0 ≤ p) (hpq : p < q) :
    rho W0 trunc p < rho W0 trunc q := by
  obtain ⟨z, -, -, s, -⟩ := C115_density W0 trunc p hW ht
  obtain ⟨-, pos, e, -, -⟩ := C115_density W0 trunc q hW ht
  have hq : 0 < q := lt_of_le_of_lt hp hpq
  rcases eq_or_lt_of_le hp with h | h
  · rw [z h.ge]; exact pos hq
  · have hm := exactRho_mono W0 trunc hW ht (Set.mem_Ici.mpr hp) (Set.mem_Ici.mpr hq.le) hpq
    by_cases hq1 : phicrit trunc < q
    · rw [e hq hq1]
      by_cases hp1 : phicrit trunc < p
      · rw [rho_exact W0 trunc p hW ht h hp1]; exact hm
      · exact lt_trans (s h (not_lt.mp hp1)).1 hm
    · have hp1 : ¬ phicrit trunc < p := fun hc => hq1 (lt_trans hc hpq)
      unfold rho
      rw [if_neg (not_le.mpr h), if_neg (not_le.mpr hq), if_neg hp1, if_neg hq1]
      have h1 : 0 < trunc + 1.5 := by norm_num; linarith
      have h2 : 0 < trunc + 2.5 := by norm_num; linarith
      have hn := norm_pos W0 trunc hW ht
      have h3 := rpow_lt_rpow hp hpq h1
      have h4 := rpow_pos_of_pos h (trunc + 1.5)
      have h5 : p / (trunc + 2.5) < q / (trunc + 2.5) := div_lt_div_of_pos_right hpq h2
      have h6 : 0 < p / (trunc + 2.5) := div_pos h h2
      apply mul_lt_mul
      · exact div_lt_div_of_pos_right (mul_lt_mul_of_pos_left h3 hn) h1
      · linarith
      · linarith
      · have := lt_trans h4 h3; positivity

/-- **C115, refuted part** The density is not a continuous function of the potential: it jumps at the threshold. -/
theorem C115_refuted_continuous (W0 trunc : ℝ) (hW : 0 < W0) (ht : 0 ≤ trunc) :
    ¬ ContinuousAt (rho W0 trunc) (phicrit trunc) := by
  intro h
  have hc : 0 < phicrit trunc := by
    unfold phicrit
    have : (0:ℝ) < trunc + 0.1 := by norm_num; linarith
    positivity
  obtain ⟨-, -, -, s, -⟩ := C115_density W0 trunc (phicrit trunc) hW ht
  have h1 : Filter.Tendsto (rho W0 trunc) (nhdsWithin (phicrit trunc) (Set.Ioi (phicrit trunc))) (nhds (rho W0 trunc (phicrit trunc))) :=
    h.tendsto.mono_left nhdsWithin_le_nhds
  have h2 : Filter.Tendsto (exactRho W0 trunc) (nhdsWithin (phicrit trunc) (Set.Ioi (phicrit trunc))) (nhds (exactRho W0 trunc (phicrit trunc))) :=
    (exactRho_deriv W0 trunc _ ht).continuousAt.tendsto.mono_left nhdsWithin_le_nhds
  have h3 : rho W0 trunc =ᶠ[nhdsWithin (phicrit trunc) (Set.Ioi (phicrit trunc))] exactRho W0 trunc := by
    filter_upwards [self_mem_nhdsWithin] with x hx
    exact rho_exact W0 trunc x hW ht (lt_trans hc hx) hx
  have := tendsto_nhds_unique (h1.congr' h3) h2
  have := (s hc le_rfl).1
  linarith

example : (0:ℝ) < 7 ∧ (0:ℝ) ≤ 1 := by norm_num

/-! ## the differential equation and the scaling -/

/-- specification: the pair of functions solves the differential equation which is given to the solver, for a < r < b -/
structure Solves (density : ℝ → ℝ) (sol dsol : ℝ → ℝ) (a b : ℝ) : Prop where
  der : ∀ r, a < r → r < b → HasDerivAt sol (eval density r (sol r, dsol r)).1 r
  der2 : ∀ r, a < r → r < b → HasDerivAt dsol (eval density r (sol r, dsol r)).2 r

/-- the potential of the scaled model -/
noncomputable def scaledPhi (sol : ℝ → ℝ) (M rs m add : ℝ) (r : ℝ) : ℝ := -(sol (r / rs) + add) * M / rs / m

/-- **C115** The scaled arrays are the values, at the scaled radius, of a potential, of its radial derivative, and of the
density which corresponds to it by the Poisson equation (Φ'' + 2 Φ'/r = 4πρ); this holds for any dependence of the density
on the potential. -/
theorem C115_poisson (density sol dsol : ℝ → ℝ) (a b : ℝ) (ha : 0 ≤ a) (hs : Solves density sol dsol a b) (M rs m add : ℝ) (hrs : 0 < rs)
    (hm : m ≠ 0) (r : ℝ) (hra : a < r) (hrb : r < b) :
    let q := scaleRow M rs m add ⟨r, sol r, dsol r, density (sol r)⟩
    q.phi = scaledPhi sol M rs m add q.r ∧
    HasDerivAt (scaledPhi sol M rs m add) q.dphidr q.r ∧
    ∃ (d1 : ℝ → ℝ) (d2 : ℝ), (∀ x, a * rs < x → x < b * rs → HasDerivAt (scaledPhi sol M rs m add) (d1 x) x) ∧ HasDerivAt d1 d2 q.r ∧
      d2 + 2 * q.dphidr / q.r = 4 * π * q.rho := by
  have hpi := pi_pos
  have hr : 0 < r := lt_of_le_of_lt ha hra
  have hd : ∀ x, a * rs < x → x < b * rs → HasDerivAt (scaledPhi sol M rs m add) (-(dsol (x / rs) * (1 / rs)) * M / rs / m) x := by
    intro x hx1 hx2
    have h1 : HasDerivAt (fun x : ℝ => x / rs) (1 / rs) x := (hasDerivAt_id x).div_const rs
    have h2 := (hs.der (x / rs) ((lt_div_iff₀ hrs).mpr hx1) ((div_lt_iff₀ hrs).mpr hx2)).comp x h1
    exact ((((h2.add_const add).neg).mul_const M).div_const rs).div_const m
  have hx : r * rs / rs = r := by field_simp
  intro q
  have hq : q.r = r * rs := rfl
  refine ⟨?_, ?_, fun x => -(dsol (x / rs) * (1 / rs)) * M / rs / m,
    -((-9 * density (sol r) - 2 / r * dsol r) * (1 / rs) * (1 / rs)) * M / rs / m, hd, ?_, ?_⟩
  · simp only [q, scaleRow, scaledPhi, hx]
  · refine (hd q.r (by rw [hq]; exact mul_lt_mul_of_pos_right hra hrs) (by rw [hq]; exact mul_lt_mul_of_pos_right hrb hrs)).congr_deriv ?_
    simp only [q, scaleRow, hx]
    field_simp
  · have h1 : HasDerivAt (fun x : ℝ => x / rs) (1 / rs) q.r := (hasDerivAt_id q.r).div_const rs
    have e : q.r / rs = r := by rw [hq, hx]
    have h0 := hs.der2 r hra hrb
    simp only [eval, if_neg hr.ne'] at h0
    rw [← e] at h0
    have h2 := h0.comp q.r h1
    have h3 := ((((h2.mul_const (1 / rs)).neg).mul_const M).div_const rs).div_const m
    rw [e] at h3
    exact h3
  · simp only [q, scaleRow]
    field_simp
    ring

theorem solves_const (c W0 : ℝ) : Solves (fun _ => c) (fun r => W0 - 3 / 2 * c * r ^ 2) (fun r => -3 * c * r) 0 5 := by
  constructor
  · intro r _ _
    refine HasDerivAt.congr_deriv (((hasDerivAt_pow 2 r).const_mul (3 / 2 * c)).const_sub W0) ?_
    simp [eval]; ring
  · intro r h _
    refine HasDerivAt.congr_deriv ((hasDerivAt_id r).const_mul (-3 * c)) ?_
    simp only [eval, if_neg h.ne']
    field_simp
    ring

/-- a case for `C115_poisson`: constant density -/
example : Solves (fun _ => (2:ℝ)) (fun r => 7 - 3 / 2 * 2 * r ^ 2) (fun r => -3 * 2 * r) 0 5 := solves_const 2 7

/-- **C115** At the truncation radius (where the dimensionless potential is zero), the scaled potential and its derivative
are those of a point mass `M`: the model is joined to the Keplerian potential of its total mass. -/
theorem C115_truncation (M rs : ℝ) (hrs : 0 < rs) (q : Row) (hr : 0 < q.r) (hphi : q.phi = 0) (hd : q.dphidr < 0) :
    let m := -q.dphidr * q.r ^ 2
    let o := scaleRow M rs m (m / q.r) q
    o.r = q.r * rs ∧ o.phi = -M / o.r ∧ o.dphidr = M / o.r ^ 2 := by
  have hne : q.dphidr ≠ 0 := hd.ne
  refine ⟨rfl, ?_, ?_⟩
  · simp only [scaleRow, hphi]
    field_simp
    ring
  · simp only [scaleRow]
    field_simp

example : (0:ℝ) < 3 ∧ (0:ℝ) < (⟨3, 0, -1/9, 0⟩ : Row).r ∧ (⟨3, 0, -1/9, 0⟩ : Row).phi = 0 ∧ (⟨3, 0, -1/9, 0⟩ : Row).dphidr < 0 := by norm_num

/-- **C115** The value used by the integrator at the origin is the only one for which the second derivative of a solution
with dφ/dr = 0 is continuous there. -/
theorem C115_centre (density sol dsol : ℝ → ℝ) (W0 b d : ℝ) (hs : Solves density sol dsol 0 b) (h0 : sol 0 = W0) (hd0 : dsol 0 = 0)
    (hc : ContinuousAt density W0) (hsol : ContinuousAt sol 0) (hd : HasDerivAt dsol d 0)
    (hlim : ∀ D : ℝ → ℝ, (∀ r, 0 < r → r < b → HasDerivAt dsol (D r) r) → Filter.Tendsto D (nhdsWithin 0 (Set.Ioi 0)) (nhds d)) :
    d = (eval density 0 (sol 0, dsol 0)).2 := by
  have h1 : Filter.Tendsto (fun r => dsol r / r) (nhdsWithin 0 (Set.Ioi 0)) (nhds d) := by
    have := (hasDerivAt_iff_tendsto_slope.mp hd).mono_left (nhdsWithin_mono 0 (fun x (hx : 0 < x) => (hx.ne' : x ≠ 0)))
    refine this.congr' ?_
    filter_upwards [self_mem_nhdsWithin] with x hx
    simp [slope_def_field, hd0]
  have hsol' : Filter.Tendsto sol (nhdsWithin 0 (Set.Ioi 0)) (nhds W0) := by
    rw [← h0]; exact hsol.tendsto.mono_left nhdsWithin_le_nhds
  have h2 : Filter.Tendsto (fun r => -9 * density (sol r) - 2 * (dsol r / r)) (nhdsWithin 0 (Set.Ioi 0)) (nhds (-9 * density W0 - 2 * d)) :=
    ((hc.tendsto.comp hsol').const_mul (-9)).sub (h1.const_mul 2)
  have h3 : (fun r => -9 * density (sol r) - 2 * (dsol r / r)) =ᶠ[nhdsWithin 0 (Set.Ioi 0)] (fun r => (eval density r (sol r, dsol r)).2) := by
    filter_upwards [self_mem_nhdsWithin] with x hx
    have hx' : x ≠ 0 := (hx : 0 < x).ne'
    simp only [eval, if_neg hx']
    ring
  have := tendsto_nhds_unique (h2.congr' h3) (hlim _ (fun r h h' => hs.der2 r h h'))
  simp only [eval, if_true, h0]
  linarith

/-- a case for `C115_centre`: constant density -/
example : Solves (fun _ => (2:ℝ)) (fun r => 7 - 3 / 2 * 2 * r ^ 2) (fun r => -3 * 2 * r) 0 5 ∧ (7 - 3 / 2 * 2 * (0:ℝ) ^ 2) = 7 ∧
    HasDerivAt (fun r : ℝ => -3 * 2 * r) (-6) 0 ∧
    (∀ D : ℝ → ℝ, (∀ r, 0 < r → r < 5 → HasDerivAt (fun r : ℝ => -3 * 2 * r) (D r) r) → Filter.Tendsto D (nhdsWithin 0 (Set.Ioi 0)) (nhds (-6))) := by
  have hder : ∀ r : ℝ, HasDerivAt (fun r : ℝ => -3 * 2 * r) (-6) r := by
    intro r
    refine HasDerivAt.congr_deriv ((hasDerivAt_id r).const_mul (-3 * 2 : ℝ)) ?_
    norm_num
  refine ⟨solves_const 2 7, by norm_num, hder 0, ?_⟩
  intro D hD
  have : (fun _ => (-6:ℝ)) =ᶠ[nhdsWithin 0 (Set.Ioi 0)] D := by
    filter_upwards [Ioo_mem_nhdsGT (show (0:ℝ) < 5 by norm_num)] with x hx
    exact (hder x).unique (hD x hx.1 hx.2)
  exact (tendsto_const_nhds).congr' this

end Verif.Pot.King
