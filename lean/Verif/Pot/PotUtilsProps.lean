import Verif.Pot.PotUtils
import Mathlib.Analysis.SpecialFunctions.Pow.Deriv
import Mathlib.Analysis.SpecialFunctions.ExpDeriv
import Mathlib.Analysis.SpecialFunctions.Log.Deriv
import Mathlib.Analysis.SpecialFunctions.Sqrt
import Mathlib.Analysis.Calculus.Deriv.MeanValue
import Mathlib.Analysis.Complex.ExponentialBounds
import Mathlib.Tactic

/-!
# C118: orbit-related functions of a potential
-/
namespace Verif.Pot.PotUtils
open Real
noncomputable section

/-! ## energy scaling -/

/-- **C118** scaling of energy: if E<0 and E>Φ(0) (given through `p` = 1/Φ(0), zero for an infinite Φ(0)), unscaling
inverts scaling, and the derivatives agree. -/
theorem C118_scale (p E : ℝ) (hE : E < 0) (h0 : 0 < p - 1 / E) :
    let x := (scaleE E p).1
    (unscaleE x p).1 = E ∧ (unscaleE x p).2.1 = (scaleE E p).2 ∧ 0 < (scaleE E p).2 := by
  intro x
  have e : exp x = p - 1 / E := exp_log h0
  have e2 : p - (p - 1 / E) = 1 / E := by ring
  unfold unscaleE scaleE
  simp only
  rw [e, e2, one_div_one_div]
  exact ⟨rfl, rfl, mul_pos (mul_pos_of_neg_of_neg hE hE) h0⟩

/-- **C118** the condition of `C118_scale` is Φ(0) < E -/
theorem C118_scale_range (Phi0 E : ℝ) (hE : E < 0) (h0 : Phi0 < 0) : 0 < 1 / Phi0 - 1 / E ↔ Phi0 < E := by
  rw [sub_pos, one_div_lt_one_div_of_neg hE h0]

/-- **C118** unscaling: for any argument, the energy is between Φ(0) and 0, scaling it gives the argument, and the three derivatives are exact. -/
theorem C118_unscale (p x : ℝ) (hp : p ≤ 0) :
    (unscaleE x p).1 < 0 ∧ 0 < p - 1 / (unscaleE x p).1 ∧ (scaleE (unscaleE x p).1 p).1 = x ∧
    HasDerivAt (fun x => (unscaleE x p).1) (unscaleE x p).2.1 x ∧ HasDerivAt (fun x => (unscaleE x p).2.1) (unscaleE x p).2.2 x ∧
    HasDerivAt (fun x => (unscaleE x p).2.2) (unscaleE3 x p) x := by
  have u := exp_pos x
  have hn : p - exp x < 0 := by linarith
  have hne := hn.ne
  have e : p - 1 / (unscaleE x p).1 = exp x := by
    unfold unscaleE; simp only [one_div_one_div]; ring
  have he := Real.hasDerivAt_exp x
  have h1 : HasDerivAt (fun x => (unscaleE x p).1) (unscaleE x p).2.1 x := by
    have := ((hasDerivAt_const x p).sub he).inv hne
    refine (this.congr_of_eventuallyEq (Filter.Eventually.of_forall fun y => by simp [unscaleE])).congr_deriv ?_
    simp only [unscaleE, Pi.sub_apply]
    field_simp
    ring
  have h2 : HasDerivAt (fun x => (unscaleE x p).2.1) (unscaleE x p).2.2 x := by
    have := (h1.mul h1).mul he
    refine (this.congr_of_eventuallyEq (Filter.Eventually.of_forall fun y => by simp [unscaleE])).congr_deriv ?_
    simp only [unscaleE, Pi.mul_apply]
    field_simp
    ring
  have h3 : HasDerivAt (fun x => (unscaleE x p).2.2) (unscaleE3 x p) x := by
    have := (h1.mul h2).mul (he.const_add p)
    refine (this.congr_of_eventuallyEq (Filter.Eventually.of_forall fun y => by simp [unscaleE])).congr_deriv ?_
    simp only [unscaleE, unscaleE3, Pi.mul_apply]
    field_simp
    ring
  refine ⟨?_, by rw [e]; exact u, ?_, h1, h2, h3⟩
  · unfold unscaleE; exact one_div_neg.mpr hn
  · unfold scaleE; simp only; rw [e, log_exp]

/-- **C118** the difference of two energies is the difference of the unscaled values -/
theorem C118_deltaE (p x y : ℝ) (hp : p ≤ 0) :
    (unscaleDeltaE x y p).1 = (unscaleE x p).1 ∧ (unscaleDeltaE x y p).2.1 = (unscaleE y p).1 ∧
    (unscaleDeltaE x y p).2.2.1 = (unscaleE x p).1 - (unscaleE y p).1 ∧ (unscaleDeltaE x y p).2.2.2 = (unscaleE x p).2.1 := by
  have h1 : p - exp x ≠ 0 := by have := exp_pos x; intro h; linarith
  have h2 : p - exp y ≠ 0 := by have := exp_pos y; intro h; linarith
  refine ⟨rfl, rfl, ?_, rfl⟩
  simp only [unscaleDeltaE, unscaleE]
  field_simp
  ring

/-! ## root functions -/

/-- **C118** The functions whose roots are searched vanish exactly at the radius with the given property, and their derivatives
are exact: the radius with Φ=E; of the circular orbit with energy E; of the circular orbit with angular momentum L
(v² = R dΦ/dR); the turning points of the orbit with E, L. -/
theorem C118_roots (P P1 P2 : ℝ → ℝ) (h1 : ∀ r, 0 < r → HasDerivAt P (P1 r) r) (h2 : ∀ r, 0 < r → HasDerivAt P1 (P2 r) r)
    (E L t : ℝ) :
    ((rmaxRoot P P1 E t).1 = 0 ↔ P (exp t) = E) ∧
    ((rcircRoot P P1 P2 E t).1 = 0 ↔ P (exp t) + (exp t * P1 (exp t)) / 2 = E) ∧
    ((rfromLRoot P1 P2 L t).1 = 0 ↔ (exp t) ^ 2 * (exp t * P1 (exp t)) = L ^ 2) ∧
    (∀ R, 0 < R → ((periApo P P1 E L R).1 = 0 ↔ 2 * (E - P R) - L ^ 2 / R ^ 2 = 0)) ∧
    HasDerivAt (fun t => (rmaxRoot P P1 E t).1) (rmaxRoot P P1 E t).2 t ∧
    HasDerivAt (fun t => (rcircRoot P P1 P2 E t).1) (rcircRoot P P1 P2 E t).2 t ∧
    HasDerivAt (fun t => (rfromLRoot P1 P2 L t).1) (rfromLRoot P1 P2 L t).2 t ∧
    (∀ R, 0 < R → HasDerivAt (fun R => (periApo P P1 E L R).1) (periApo P P1 E L R).2 R) := by
  have hR := exp_pos t
  have he := Real.hasDerivAt_exp t
  have c1 : HasDerivAt (fun t => P (exp t)) (P1 (exp t) * exp t) t := (h1 _ hR).comp t he
  have c2 : HasDerivAt (fun t => P1 (exp t)) (P2 (exp t) * exp t) t := (h2 _ hR).comp t he
  refine ⟨?_, ?_, ?_, ?_, ?_, ?_, ?_, ?_⟩
  · simp only [rmaxRoot, sub_eq_zero]
  · simp only [rcircRoot]
    constructor <;> intro h <;> linarith
  · simp only [rfromLRoot]
    constructor <;> intro h <;> nlinarith
  · intro R hR
    simp only [periApo, if_pos (show R > 0 from hR)]
    have : 2 * (E - P R) - L ^ 2 / R ^ 2 = 2 / R ^ 2 * ((E - P R) * R * R - L * L / 2) := by field_simp
    rw [this, mul_eq_zero]
    have : (2:ℝ) / R ^ 2 ≠ 0 := by positivity
    tauto
  · exact c1.sub_const E
  · simp only [rcircRoot]
    refine ((c1.sub_const E).add (((he.const_mul 0.5)).mul c2)).congr_deriv ?_
    ring
  · simp only [rfromLRoot]
    refine (((he.pow 3).mul c2).sub_const (L * L)).congr_deriv ?_
    simp only [Pi.pow_apply]
    norm_num
    ring
  · intro R hR
    have hev : (fun R => (periApo P P1 E L R).1) =ᶠ[nhds R] fun R => (E - P R) * R * R - L * L / 2 := by
      filter_upwards [lt_mem_nhds hR] with y hy
      simp only [periApo, if_pos (show y > 0 from hy)]
    refine HasDerivAt.congr_of_eventuallyEq ?_ hev
    refine (((((h1 R hR).const_sub E).mul (hasDerivAt_id R)).mul (hasDerivAt_id R)).sub_const (L * L / 2)).congr_deriv ?_
    simp only [periApo, id, Pi.mul_apply]
    ring

/-! ## power-law potential near the origin -/

/-- **C118** In the potential Φ0 + coef r^s with positive slope: the radius used is that of the circular orbit with energy E, `lcircPL` is
its angular momentum R·√(R dΦ/dR), and for any positive `x` the radius x·Rcirc is a turning point of the orbit with E, L iff
`x` is a root of the function given to the root-finder. -/
theorem C118_powerlaw (E Phi0 coef s L x : ℝ) (hs : 0 < s) (hc : 0 < coef) (hE : Phi0 < E) (hx : 0 < x) :
    let Rc := rcircPL E Phi0 coef s
    let Lc := lcircPL coef s Rc
    0 < Rc ∧ Phi0 + coef * Rc ^ s + (Rc * (coef * (s * Rc ^ (s - 1)))) / 2 = E ∧ 0 < Lc ∧
    Lc = Rc * √(Rc * (coef * (s * Rc ^ (s - 1)))) ∧
    (2 * (E - (Phi0 + coef * (x * Rc) ^ s)) - L ^ 2 / (x * Rc) ^ 2 = 0 ↔ (periApoPL s ((L / Lc) ^ 2) x).1 = 0) := by
  intro Rc Lc
  have hq : 0 < (E - Phi0) / (coef * (1 + 0.5 * s)) := by
    apply div_pos (by linarith); positivity
  have hRc : 0 < Rc := rpow_pos_of_pos hq _
  have hRs : Rc ^ s = (E - Phi0) / (coef * (1 + 0.5 * s)) := by
    change (_ ^ (1 / s)) ^ s = _
    rw [← rpow_mul hq.le, one_div, inv_mul_cancel₀ hs.ne', rpow_one]
  have hE' : E = Phi0 + coef * (1 + 0.5 * s) * Rc ^ s := by rw [hRs]; field_simp; ring
  have hA := rpow_pos_of_pos hRc s
  have hm : Rc * (coef * (s * Rc ^ (s - 1))) = coef * s * Rc ^ s := by
    rw [rpow_sub_one hRc.ne']; field_simp
  have hL2 : Lc = Rc * √(coef * s * Rc ^ s) := by
    change Rc * (√(coef * s) * Rc ^ (0.5 * s)) = _
    rw [sqrt_mul (show 0 ≤ coef * s by positivity) (Rc ^ s), sqrt_eq_rpow (Rc ^ s), ← rpow_mul hRc.le]
    norm_num [mul_comm]
  have hLp : 0 < Lc := by rw [hL2]; positivity
  have hLsq : Lc ^ 2 = Rc ^ 2 * (coef * s * Rc ^ s) := by rw [hL2, mul_pow, sq_sqrt (by positivity)]
  refine ⟨hRc, by rw [hm, hE']; ring, hLp, by rw [hm, hL2], ?_⟩
  simp only [periApoPL, if_pos hs.ne']
  rw [mul_rpow hx.le hRc.le, rpow_add hx]
  norm_num
  rw [div_pow, hLsq, hE']
  have hB := rpow_pos_of_pos hx s
  have e : 2 * (Phi0 + coef * (1 + 0.5 * s) * Rc ^ s - (Phi0 + coef * (x ^ s * Rc ^ s))) - L ^ 2 / (x * Rc) ^ 2 =
      coef * Rc ^ s / x ^ 2 * ((2 + s) * x * x - 2 * (x ^ 2 * x ^ s) - L ^ 2 / (Rc ^ 2 * (coef * s * Rc ^ s)) * s) := by
    field_simp
    ring
  have e' : (1 / 2 : ℝ) = 0.5 := by norm_num
  try rw [e']
  rw [e, mul_eq_zero]
  have : coef * Rc ^ s / x ^ 2 ≠ 0 := by positivity
  tauto

/-- **C118** the derivative of this function is exact -/
theorem C118_powerlaw_deriv (s v2 x : ℝ) (hx : 0 < x) :
    HasDerivAt (fun x => (periApoPL s v2 x).1) (periApoPL s v2 x).2 x := by
  by_cases hs : s = 0
  · have hev : (fun x => (periApoPL s v2 x).1) =ᶠ[nhds x] fun x => x * x * (1 - 2 * log x) - v2 := by
      filter_upwards [lt_mem_nhds hx] with y hy
      simp [periApoPL, hs, hy.ne']
    refine HasDerivAt.congr_of_eventuallyEq ?_ hev
    have hl := Real.hasDerivAt_log hx.ne'
    refine ((((hasDerivAt_id x).mul (hasDerivAt_id x)).mul ((hl.const_mul 2).const_sub 1)).sub_const v2).congr_deriv ?_
    simp only [periApoPL, hs, ne_eq, not_true_eq_false, if_false, id, Pi.mul_apply]
    field_simp
    ring
  · simp only [periApoPL, ne_eq, hs, not_false_eq_true, if_true]
    have hr := Real.hasDerivAt_rpow_const (x := x) (p := 2 + s) (Or.inl hx.ne')
    refine (((((hasDerivAt_id x).const_mul (2 + s)).mul (hasDerivAt_id x)).sub (hr.const_mul 2)).sub_const (v2 * s)).congr_deriv ?_
    rw [show 2 + s - 1 = 1 + s by ring]
    simp only [id]
    ring

/-- **C118** For a positive slope and 0 ≤ L ≤ Lcirc, the intervals in which the roots are searched, [0,1] and [1,2], each contain exactly one root
(of a function negative or zero at the outer ends and nonnegative at 1). -/
theorem C118_powerlaw_brackets (s v2 : ℝ) (hs : 0 < s) (h0 : 0 ≤ v2) (h1 : v2 ≤ 1) :
    (∃! x, x ∈ Set.Icc (0:ℝ) 1 ∧ (periApoPL s v2 x).1 = 0) ∧ (∃! x, x ∈ Set.Icc (1:ℝ) 2 ∧ (periApoPL s v2 x).1 = 0) := by
  have f : (fun x => (periApoPL s v2 x).1) = fun x : ℝ => (2 + s) * x * x - 2 * x ^ (2 + s) - v2 * s := by
    funext x; simp only [periApoPL, if_pos hs.ne']
  have hcont : Continuous (fun x => (periApoPL s v2 x).1) := by
    rw [f]
    have := continuous_id.rpow_const (p := 2 + s) (fun x : ℝ => Or.inr (by linarith))
    simp only [id] at this
    fun_prop
  have v0 : (periApoPL s v2 0).1 ≤ 0 := by
    rw [congrFun f 0]
    rw [zero_rpow (by linarith)]
    nlinarith
  have v1 : 0 ≤ (periApoPL s v2 1).1 := by
    rw [congrFun f 1]; simp only [one_rpow]
    nlinarith
  have v2' : (periApoPL s v2 2).1 ≤ 0 := by
    rw [congrFun f 2]
    have e : (2:ℝ) ^ (2 + s) = 4 * 2 ^ s := by rw [rpow_add (by norm_num)]; norm_num
    have hb : 1 + 0.6931471803 * s ≤ (2:ℝ) ^ s := by
      rw [rpow_def_of_pos (by norm_num)]
      have := add_one_le_exp (log 2 * s)
      have := Real.log_two_gt_d9
      nlinarith
    rw [e]
    nlinarith
  have mono : StrictMonoOn (fun x => (periApoPL s v2 x).1) (Set.Icc 0 1) := by
    apply strictMonoOn_of_deriv_pos (convex_Icc 0 1) hcont.continuousOn
    intro x hx
    rw [interior_Icc] at hx
    rw [(C118_powerlaw_deriv s v2 x hx.1).deriv]
    simp only [periApoPL, if_pos hs.ne']
    have : x ^ (1 + s) < x ^ (1:ℝ) := rpow_lt_rpow_of_exponent_gt hx.1 hx.2 (by linarith)
    rw [rpow_one] at this
    have : 0 < x - x ^ (1 + s) := by linarith
    positivity
  have anti : StrictAntiOn (fun x => (periApoPL s v2 x).1) (Set.Icc 1 2) := by
    apply strictAntiOn_of_deriv_neg (convex_Icc 1 2) hcont.continuousOn
    intro x hx
    rw [interior_Icc] at hx
    have x0 : 0 < x := by linarith [hx.1]
    rw [(C118_powerlaw_deriv s v2 x x0).deriv]
    simp only [periApoPL, if_pos hs.ne']
    have : x ^ (1:ℝ) < x ^ (1 + s) := rpow_lt_rpow_of_exponent_lt hx.1 (by linarith)
    rw [rpow_one] at this
    exact mul_neg_of_pos_of_neg (by linarith) (by linarith)
  constructor
  · obtain ⟨x, hx, hx0⟩ := intermediate_value_Icc (by norm_num : (0:ℝ) ≤ 1) hcont.continuousOn (Set.mem_Icc.mpr ⟨v0, v1⟩)
    exact ⟨x, ⟨hx, hx0⟩, fun y hy => mono.injOn hy.1 hx (hy.2.trans hx0.symm)⟩
  · obtain ⟨x, hx, hx0⟩ := intermediate_value_Icc' (by norm_num : (1:ℝ) ≤ 2) hcont.continuousOn (Set.mem_Icc.mpr ⟨v2', v1⟩)
    exact ⟨x, ⟨hx, hx0⟩, fun y hy => anti.injOn hy.1 hx (hy.2.trans hx0.symm)⟩

/-- **C118** `innerSlope` recovers the parameters of a power-law potential at any radius -/
theorem C118_innerSlope (Phi0 coef s r : ℝ) (hr : 0 < r) (hc : coef ≠ 0) (hs : s ≠ 0) :
    innerSlope (fun r => Phi0 + coef * r ^ s) (fun r => coef * (s * r ^ (s - 1))) (fun r => coef * (s * ((s - 1) * r ^ (s - 1 - 1)))) r =
      (s, Phi0, coef) := by
  have hA := rpow_pos_of_pos hr s
  have e1 : 1 + r * (coef * (s * ((s - 1) * r ^ (s - 1 - 1)))) / (coef * (s * r ^ (s - 1))) = s := by
    rw [rpow_sub_one hr.ne' (s - 1)]
    have := rpow_pos_of_pos hr (s - 1)
    field_simp
    ring
  unfold innerSlope
  simp only [e1, if_neg hs]
  have e2 : r ^ (1 - s) = r / r ^ s := by rw [rpow_sub hr, rpow_one]
  rw [rpow_sub_one hr.ne', e2]
  refine Prod.ext rfl (Prod.ext ?_ ?_)
  · simp only; field_simp; ring
  · simp only; field_simp

/-- **C118** and of a logarithmic one -/
theorem C118_innerSlope_log (Phi0 coef r : ℝ) (hr : 0 < r) (hc : coef ≠ 0) :
    innerSlope (fun r => Phi0 + coef * log r) (fun r => coef / r) (fun r => -coef / r ^ 2) r = (0, Phi0, coef) := by
  have e1 : 1 + r * (-coef / r ^ 2) / (coef / r) = 0 := by field_simp; ring
  unfold innerSlope
  simp only [e1, if_true]
  refine Prod.ext rfl (Prod.ext ?_ ?_)
  · simp only; field_simp; ring
  · simp only; field_simp

/-! ## circular orbits and epicycles -/

/-- **C118** the epicyclic frequencies at R>0: Ω = v/R, and κ² = d(L²)/dR / R³ with L the angular momentum of the circular orbit,
which is also the second derivative of the effective potential Φ + L²/(2R²) for the angular momentum of that orbit. -/
theorem C118_epicycle (P P1 P2 : ℝ → ℝ) (h1 : ∀ r, 0 < r → HasDerivAt P (P1 r) r) (h2 : ∀ r, 0 < r → HasDerivAt P1 (P2 r) r)
    (nu2 R : ℝ) (hR : 0 < R) (hp : 0 ≤ P1 R) (hk : 0 ≤ P2 R + 3 * (P1 R / R)) (hn : 0 ≤ nu2) :
    let k := (epicycleFreqs (P1 R) (P2 R) nu2 R).1
    let L2 := fun r => r ^ 2 * (r * P1 r)
    (epicycleFreqs (P1 R) (P2 R) nu2 R).2.1 ^ 2 = nu2 ∧
    (epicycleFreqs (P1 R) (P2 R) nu2 R).2.2 * R = √(R * P1 R) ∧
    HasDerivAt L2 (R ^ 3 * k ^ 2) R ∧
    (∀ r, 0 < r → HasDerivAt (fun r => P r + L2 R / (2 * r ^ 2)) (P1 r - L2 R / r ^ 3) r) ∧
    P1 R - L2 R / R ^ 3 = 0 ∧ HasDerivAt (fun r => P1 r - L2 R / r ^ 3) (k ^ 2) R := by
  intro k L2
  have hk2 : k ^ 2 = P2 R + 3 * (P1 R / R) := by
    simp only [k, epicycleFreqs, hR.ne', false_and, if_false]
    exact sq_sqrt hk
  have hne := hR.ne'
  refine ⟨?_, ?_, ?_, ?_, ?_, ?_⟩
  · simp only [epicycleFreqs]; exact sq_sqrt hn
  · simp only [epicycleFreqs, hR.ne', false_and, if_false]
    rw [show R * P1 R = P1 R / R * R ^ 2 by field_simp, sqrt_mul (by positivity), sqrt_sq hR.le]
  · rw [hk2]
    refine (((hasDerivAt_id R).pow 2).mul ((hasDerivAt_id R).mul (h2 R hR))).congr_deriv ?_
    simp only [id, Pi.pow_apply]
    norm_num
    field_simp
    ring
  · intro r hr
    have hr' := hr.ne'
    have := (((hasDerivAt_id r).pow 2).const_mul 2).inv (by simp only [id, Pi.pow_apply]; positivity)
    refine ((h1 r hr).add (this.const_mul (L2 R))).congr_of_eventuallyEq ?_ |>.congr_deriv ?_
    · exact Filter.Eventually.of_forall fun y => by simp [div_eq_mul_inv]
    · simp only [id, Pi.pow_apply]
      norm_num
      field_simp
      ring
  · simp only [L2]; field_simp; ring
  · rw [hk2]
    have := ((hasDerivAt_id R).pow 3).inv (by simp only [id, Pi.pow_apply]; positivity)
    refine ((h2 R hR).sub (this.const_mul (L2 R))).congr_of_eventuallyEq ?_ |>.congr_deriv ?_
    · exact Filter.Eventually.of_forall fun y => by simp [div_eq_mul_inv]
    · simp only [L2, id, Pi.pow_apply]
      norm_num
      field_simp
      ring

/-- **C118** at the origin, where dΦ/dR = 0, the frequencies are the limits of those at R→0 (the case distinction is needed for that) -/
theorem C118_epicycle_origin (P1 P2 nu2 : ℝ → ℝ) (h0 : P1 0 = 0) (h1 : HasDerivAt P1 (P2 0) 0) (h2 : ContinuousAt P2 0) (h3 : ContinuousAt nu2 0) :
    Filter.Tendsto (fun R => epicycleFreqs (P1 R) (P2 R) (nu2 R) R) (nhdsWithin 0 (Set.Ioi 0)) (nhds (epicycleFreqs (P1 0) (P2 0) (nu2 0) 0)) ∧
    epicycleFreqs (P1 0) (P2 0) (nu2 0) 0 = (√(P2 0 + 3 * P2 0), √(nu2 0), √(P2 0)) := by
  have e0 : epicycleFreqs (P1 0) (P2 0) (nu2 0) 0 = (√(P2 0 + 3 * P2 0), √(nu2 0), √(P2 0)) := by
    simp [epicycleFreqs, h0]
  refine ⟨?_, e0⟩
  rw [e0]
  have hle : nhdsWithin (0:ℝ) (Set.Ioi 0) ≤ nhds 0 := nhdsWithin_le_nhds
  have t2 := h2.tendsto.mono_left hle
  have t3 := h3.tendsto.mono_left hle
  have tg : Filter.Tendsto (fun R => P1 R / R) (nhdsWithin 0 (Set.Ioi 0)) (nhds (P2 0)) := by
    have := (hasDerivAt_iff_tendsto_slope_zero.mp h1).mono_left (nhdsWithin_mono 0 (fun x hx => ne_of_gt hx) : nhdsWithin (0:ℝ) (Set.Ioi 0) ≤ nhdsWithin 0 {0}ᶜ)
    refine this.congr fun R => ?_
    simp only [zero_add, h0, sub_zero, smul_eq_mul]
    ring
  have T := ((t2.add (tg.const_mul 3)).sqrt).prodMk_nhds (t3.sqrt.prodMk_nhds tg.sqrt)
  refine T.congr' ?_
  filter_upwards [self_mem_nhdsWithin] with R hR
  have hR' : R ≠ 0 := ne_of_gt hR
  simp only [epicycleFreqs, hR', false_and, if_false]

/-- **C118** the tables of the interpolator: at each radius, with t = ln R, the derivative of the scaled potential is `phider`, that of ln Lcirc is
the reciprocal of `rder`, and that of the scaled energy of the circular orbit is the reciprocal of `rder·lder`. -/
theorem C118_tables (P P1 P2 : ℝ → ℝ) (h1 : ∀ r, 0 < r → HasDerivAt P (P1 r) r) (h2 : ∀ r, 0 < r → HasDerivAt P1 (P2 r) r)
    (p R : ℝ) (hR : 0 < R) (hp : 0 < P1 R) (hk : 0 < P2 R + 3 * P1 R / R)
    (hE : P R + 0.5 * R * P1 R < 0) (hs : 0 < p - 1 / P R) (hsE : 0 < p - 1 / (P R + 0.5 * R * P1 R)) :
    HasDerivAt (fun t => (node P P1 P2 p (exp t)).phi) (node P P1 P2 p R).phider (log R) ∧
    HasDerivAt (fun t => (node P P1 P2 p (exp t)).l) (1 / (node P P1 P2 p R).rder) (log R) ∧
    HasDerivAt (fun t => (node P P1 P2 p (exp t)).e) (1 / ((node P P1 P2 p R).rder * (node P P1 P2 p R).lder)) (log R) := by
  have hxR : exp (log R) = R := exp_log hR
  have he : HasDerivAt (fun t => exp t) R (log R) := by
    have := Real.hasDerivAt_exp (log R); rwa [hxR] at this
  have c1 : HasDerivAt (fun t => P (exp t)) (P1 R * R) (log R) := by
    have := (h1 _ (exp_pos (log R))).comp (log R) he; rwa [hxR] at this
  have c2 : HasDerivAt (fun t => P1 (exp t)) (P2 R * R) (log R) := by
    have := (h2 _ (exp_pos (log R))).comp (log R) he; rwa [hxR] at this
  have hPneg : P R < 0 := by nlinarith [mul_pos hR hp]
  have hne := hR.ne'
  have hPne := hPneg.ne
  set O := √(P1 R / R) with hO
  have hOp : 0 < O := sqrt_pos.mpr (div_pos hp hR)
  have hO2 : O ^ 2 = P1 R / R := sq_sqrt (div_pos hp hR).le
  have hP1 : P1 R = O ^ 2 * R := by rw [hO2]; field_simp
  have hsc : ∀ (g : ℝ → ℝ) (g' : ℝ), HasDerivAt g g' (log R) → g (log R) ≠ 0 → 0 < p - 1 / g (log R) →
      HasDerivAt (fun t => (scaleE (g t) p).1) (g' / (scaleE (g (log R)) p).2) (log R) := by
    intro g g' hg h0 h3
    simp only [scaleE]
    have := ((hg.inv h0).const_sub p).log (by simpa [one_div] using h3.ne')
    refine (this.congr_of_eventuallyEq (Filter.Eventually.of_forall fun y => by simp [one_div])).congr_deriv ?_
    rw [one_div] at h3 ⊢
    simp only [Pi.inv_apply]
    have := h3.ne'
    generalize p - (g (log R))⁻¹ = q at *
    field_simp
  refine ⟨?_, ?_, ?_⟩
  · simp only [node]
    have := hsc (fun t => P (exp t)) _ c1 (by simp only [hxR]; exact hPne) (by simpa only [hxR] using hs)
    simpa only [hxR] using this
  · simp only [node]
    have hev : (fun t => log (√(P1 (exp t) / exp t) * exp t * exp t)) =ᶠ[nhds (log R)]
        fun t => log (P1 (exp t)) / 2 + 3 / 2 * t := by
      have : ∀ᶠ t in nhds (log R), 0 < P1 (exp t) := c2.continuousAt.eventually (lt_mem_nhds (by simpa only [hxR] using hp))
      filter_upwards [this] with t ht
      have ht' := exp_pos t
      rw [mul_assoc, log_mul (sqrt_pos.mpr (div_pos ht ht')).ne' (by positivity), log_sqrt (div_pos ht ht').le,
        log_div ht.ne' ht'.ne', log_mul ht'.ne' ht'.ne', log_exp]
      ring
    refine HasDerivAt.congr_of_eventuallyEq ?_ hev
    have := ((c2.log (by rw [hxR]; exact hp.ne')).div_const 2).add ((hasDerivAt_id (log R)).const_mul (3 / 2))
    refine this.congr_deriv ?_
    rw [hxR, ← hO]
    have hk' := hk.ne'
    have hk3 : P2 R * R + 3 * P1 R ≠ 0 := by
      have : P2 R * R + 3 * P1 R = (P2 R + 3 * P1 R / R) * R := by field_simp
      rw [this]; positivity
    have e : 2 * O / ((P2 R + 3 * P1 R / R) * R) * (O * R * R) / R = 2 * (O ^ 2 * R) / (P2 R * R + 3 * P1 R) * 1 := by
      field_simp
    rw [e, ← hP1, mul_one]
    have := hp.ne'
    field_simp
  · simp only [node]
    have cE : HasDerivAt (fun t => P (exp t) + 0.5 * exp t * P1 (exp t)) (P1 R * R + (0.5 * R * P1 R + 0.5 * R * (P2 R * R))) (log R) := by
      have := c1.add ((he.const_mul 0.5).mul c2)
      refine this.congr_deriv ?_
      rw [hxR]
    have := hsc _ _ cE (by simp only [hxR]; exact hE.ne) (by simpa only [hxR] using hsE)
    simp only [hxR] at this
    refine this.congr_deriv ?_
    rw [← hO]
    have hd : 0 < (scaleE (P R + 0.5 * R * P1 R) p).2 := by
      simp only [scaleE]
      exact mul_pos (mul_pos_of_neg_of_neg hE hE) hsE
    generalize (scaleE (P R + 0.5 * R * P1 R) p).2 = D at *
    have hk' := hk.ne'
    have e : P1 R * R + (0.5 * R * P1 R + 0.5 * R * (P2 R * R)) = 0.5 * R ^ 2 * (P2 R + 3 * P1 R / R) := by
      field_simp; ring
    rw [e]
    generalize P2 R + 3 * P1 R / R = K at *
    have := hd.ne'
    field_simp
    norm_num

/-! ## the interpolated potential -/

theorem exp_mul_log (R s : ℝ) (hR : 0 < R) : exp (log R * s) = R ^ s := (rpow_def_of_pos hR s).symm

/-- **C118** the derivatives of the extrapolated potential are exact, for any parameters -/
theorem C118_extrap_derivs (o : ℝ × ℝ × ℝ) (R : ℝ) (hR : 0 < R) :
    HasDerivAt (fun r => (extrap o r).1) (extrap o R).2.1 R ∧ HasDerivAt (fun r => (extrap o r).2.1) (extrap o R).2.2.1 R ∧
    HasDerivAt (fun r => (extrap o r).2.2.1) (extrap o R).2.2.2 R := by
  obtain ⟨s, c, M⟩ := o
  have hne := hR.ne'
  have hE : HasDerivAt (fun r => exp (log r * s)) (exp (log R * s) * (1 / R * s)) R := by
    have := ((Real.hasDerivAt_log hne).mul_const s).exp
    rwa [← one_div] at this
  have hG : HasDerivAt (fun r => if s = -1 then log r else (r * exp (log r * s) - 1) / (s + 1)) (exp (log R * s)) R := by
    by_cases h : s = -1
    · simp only [if_pos h]
      refine (Real.hasDerivAt_log hne).congr_deriv ?_
      rw [h, mul_neg, mul_one, exp_neg, exp_log hR]
    · simp only [if_neg h]
      have h' : s + 1 ≠ 0 := fun h2 => h (by linarith)
      refine ((((hasDerivAt_id R).mul hE).sub_const 1).div_const (s + 1)).congr_deriv ?_
      simp only [id]
      field_simp
      ring
  have h1 : HasDerivAt (fun r => (extrap (s, c, M) r).1) (extrap (s, c, M) R).2.1 R := by
    simp only [extrap]
    refine (((hG.mul_const c).const_add (-M)).div (hasDerivAt_id R) hne).congr_deriv ?_
    simp only [id]
    field_simp
    ring
  have h2 : HasDerivAt (fun r => (extrap (s, c, M) r).2.1) (extrap (s, c, M) R).2.2.1 R := by
    have := (h1.neg.add (hE.const_mul c)).div (hasDerivAt_id R) hne
    refine (this.congr_of_eventuallyEq (Filter.Eventually.of_forall fun y => by simp [extrap])).congr_deriv ?_
    simp only [extrap, id, Pi.add_apply, Pi.neg_apply]
    field_simp
    ring
  have h3 : HasDerivAt (fun r => (extrap (s, c, M) r).2.2.1) (extrap (s, c, M) R).2.2.2 R := by
    have := ((h1.const_mul 2).add ((hE.const_mul c).mul_const (s - 2))).div ((hasDerivAt_id R).pow 2) (by simp [hne])
    refine (this.congr_of_eventuallyEq (Filter.Eventually.of_forall fun y => by simp [extrap])).congr_deriv ?_
    simp only [extrap, id, Pi.add_apply, Pi.pow_apply]
    norm_num
    field_simp
    ring
  exact ⟨h1, h2, h3⟩

/-- **C118** if the outer asymptotics is used (nonzero coefficient), the extrapolated potential has at the last node the value and the first
derivative of the potential, and the second derivative too unless the slope was rounded to -1; the slope is negative. -/
theorem C118_outer_match (T p p1 p2 R : ℝ) (hR : 0 < R) (hc : (outer T p p1 p2 R).2.1 ≠ 0) :
    let o := outer T p p1 p2 R
    (extrap o R).1 = p ∧ (extrap o R).2.1 = p1 ∧ o.1 < 0 ∧
    (o.1 = (2 * p1 + R * p2) / (p1 + p / R) → (extrap o R).2.2.1 = p2) ∧
    (o.1 = (2 * p1 + R * p2) / (p1 + p / R) ∨ o.1 = -1 ∧ |(2 * p1 + R * p2) / (p1 + p / R) + 1| < T) := by
  intro o
  have hne := hR.ne'
  have hsl : (2 * p1 - -R * p2) / (p1 - -p / R) = (2 * p1 + R * p2) / (p1 + p / R) := by
    congr 1 <;> ring
  simp only [o]
  unfold outer at hc ⊢
  simp only [hsl] at hc ⊢
  set S := (2 * p1 + R * p2) / (p1 + p / R) with hS
  generalize hs : (if |S + 1| < T then -1 else S) = s at hc ⊢
  by_cases h0 : |2 * p1 - -R * p2| < max |2 * p1| |-R * p2| * T ∨ |p1 - -p / R| < max |p1| |-p / R| * T ∨ S ≥ 0
  · rw [if_pos h0] at hc; simp at hc
  rw [if_neg h0] at hc ⊢
  rw [not_or, not_or, not_le] at h0
  simp only at hc ⊢
  have hq : p + R * p1 ≠ 0 := fun h => hc (by rw [h, zero_mul])
  have hneg : s < 0 := by
    rw [← hs]; split_ifs
    · norm_num
    · exact h0.2.2
  have hRs := rpow_pos_of_pos hR s
  have hcR : (p + R * p1) * R ^ (-s) * exp (log R * s) = p + R * p1 := by
    rw [exp_mul_log R s hR, rpow_neg hR.le]; field_simp
  have hv : (extrap (s, (p + R * p1) * R ^ (-s), -R * p + (p + R * p1) * R ^ (-s) *
      (if s = -1 then log R else (R ^ (s + 1) - 1) / (s + 1))) R).1 = p := by
    simp only [extrap]
    rw [exp_mul_log R s hR, show R * R ^ s = R ^ (s + 1) by rw [rpow_add_one hne]; ring]
    field_simp
    ring
  have hd : (extrap (s, (p + R * p1) * R ^ (-s), -R * p + (p + R * p1) * R ^ (-s) *
      (if s = -1 then log R else (R ^ (s + 1) - 1) / (s + 1))) R).2.1 = p1 := by
    have : ∀ o : ℝ × ℝ × ℝ, (extrap o R).2.1 = (-(extrap o R).1 + o.2.1 * exp (log R * o.1)) / R := fun o => rfl
    rw [this, hv]
    simp only
    rw [hcR]
    field_simp
    ring
  refine ⟨hv, hd, hneg, ?_, ?_⟩
  · intro h
    have : ∀ o : ℝ × ℝ × ℝ, (extrap o R).2.2.1 = (2 * (extrap o R).1 + o.2.1 * exp (log R * o.1) * (o.1 - 2)) / R ^ 2 := fun o => rfl
    rw [this, hv]
    simp only
    rw [hcR, h, hS]
    have h2 : p1 + p / R ≠ 0 := by
      have : p1 + p / R = (p + R * p1) / R := by field_simp; ring
      rw [this]; exact div_ne_zero hq hne
    have h3 : p1 * R + p ≠ 0 := fun h => hq (by linarith)
    have : p1 + p / R = (p1 * R + p) / R := by field_simp
    rw [this]
    have h4 : p + R * p1 ≠ 0 := hq
    rw [show p1 * R + p = p + R * p1 by ring]
    field_simp
    ring
  · rw [← hs]
    split_ifs with h
    · exact Or.inr ⟨rfl, h⟩
    · exact Or.inl rfl

/-- **C118** the derivatives of the interpolated potential up to the third are exact, if those of the spline are -/
theorem C118_interp_derivs (S S1 S2 S3 : ℝ → ℝ) (p R : ℝ) (hR : 0 < R) (hp : p ≤ 0)
    (h1 : ∀ t, HasDerivAt S (S1 t) t) (h2 : ∀ t, HasDerivAt S1 (S2 t) t) (h3 : ∀ t, HasDerivAt S2 (S3 t) t) :
    let F := fun r => fromScaled (S (log r), S1 (log r), S2 (log r), S3 (log r)) p r
    HasDerivAt (fun r => (F r).1) (F R).2.1 R ∧ HasDerivAt (fun r => (F r).2.1) (F R).2.2.1 R ∧
    HasDerivAt (fun r => (F r).2.2.1) (F R).2.2.2 R := by
  intro F
  have hne := hR.ne'
  have hl := Real.hasDerivAt_log hne
  have g0 := (h1 (log R)).comp R hl
  have g1 := (h2 (log R)).comp R hl
  have g2 := (h3 (log R)).comp R hl
  obtain ⟨-, -, -, u1, u2, u3⟩ := C118_unscale p (S (log R)) hp
  have w1 := u1.comp R g0
  have w2 := u2.comp R g0
  have w3 := u3.comp R g0
  simp only [Function.comp_def] at g0 g1 g2 w1 w2 w3
  simp only [F, fromScaled]
  refine ⟨?_, ?_, ?_⟩
  · refine w1.congr_deriv ?_
    field_simp
  · refine ((w2.mul g1).div (hasDerivAt_id R) hne).congr_deriv ?_
    simp only [id, Pi.mul_apply]
    field_simp
    ring
  · refine (((w2.mul (g2.sub g1)).add (w3.mul (g1.pow 2))).div ((hasDerivAt_id R).pow 2) (by simp [hne])).congr_deriv ?_
    simp only [id, Pi.add_apply, Pi.mul_apply, Pi.pow_apply, Pi.sub_apply]
    norm_num
    field_simp
    ring

/-- **C118** the frequencies from the interpolator and their derivatives in R -/
theorem C118_interp_epicycle (P1 P2 P3 n n1 : ℝ → ℝ) (R : ℝ) (hR : 0 < R)
    (h1 : HasDerivAt P1 (P2 R) R) (h2 : HasDerivAt P2 (P3 R) R) (hn : HasDerivAt n (n1 (log R)) (log R))
    (hp : 0 < P1 R) (hk : 0 < P2 R + 3 * (P1 R / R)) (hnu : 0 < n (log R)) :
    let F := fun r => epicycleInterp (P1 r) (P2 r) (P3 r) (n (log r)) (n1 (log r)) r
    HasDerivAt (fun r => (F r).1.1) (F R).2.1 R ∧ HasDerivAt (fun r => (F r).1.2.1) (F R).2.2.1 R ∧
    HasDerivAt (fun r => (F r).1.2.2) (F R).2.2.2 R ∧
    (F R).1 = epicycleFreqs (P1 R) (P2 R) (n (log R) * (P1 R / R)) R := by
  intro F
  have hne := hR.ne'
  have hg : HasDerivAt (fun r => P1 r / r) ((P2 R - P1 R / R) / R) R := by
    refine (h1.div (hasDerivAt_id R) hne).congr_deriv ?_
    simp only [id]
    field_simp
  have hl := hn.comp R (Real.hasDerivAt_log hne)
  simp only [Function.comp_def] at hl
  have hg0 : 0 < P1 R / R := div_pos hp hR
  simp only [F, epicycleInterp]
  refine ⟨?_, ?_, ?_, ?_⟩
  · refine ((h2.add (hg.const_mul 3)).sqrt hk.ne').congr_deriv ?_
    have := (sqrt_pos.mpr hk).ne'
    simp only [Pi.add_apply]
    generalize √(P2 R + 3 * (P1 R / R)) = k at *
    generalize P1 R / R = g at *
    field_simp
    norm_num
    try ring
  · refine ((hl.mul hg).sqrt (mul_pos hnu hg0).ne').congr_deriv ?_
    have := (sqrt_pos.mpr (mul_pos hnu hg0)).ne'
    simp only [Pi.mul_apply]
    generalize √(n (log R) * (P1 R / R)) = k at *
    generalize P1 R / R = g at *
    field_simp
    norm_num
    ring
  · refine (hg.sqrt hg0.ne').congr_deriv ?_
    have := (sqrt_pos.mpr hg0).ne'
    generalize √(P1 R / R) = k at *
    generalize P1 R / R = g at *
    field_simp
    norm_num
    try ring
  · simp only [epicycleFreqs, hne, false_and, if_false]

/-! ## examples -/

/-- the hypotheses of `C118_powerlaw` and `C118_powerlaw_brackets` are met by a harmonic potential -/
example : ∃! x, x ∈ Set.Icc (0:ℝ) 1 ∧ (periApoPL 2 (1 / 4) x).1 = 0 := (C118_powerlaw_brackets 2 (1 / 4) (by norm_num) (by norm_num) (by norm_num)).1

/-- the Kepler potential meets the hypotheses of `C118_epicycle` and `C118_tables` at R=1, Φ(0) infinite -/
example : (0:ℝ) < 1 ∧ (0:ℝ) < (fun r : ℝ => 1 / r ^ 2) 1 ∧ (0:ℝ) < (fun r : ℝ => -2 / r ^ 3) 1 + 3 * (fun r : ℝ => 1 / r ^ 2) 1 / 1 ∧
    (fun r : ℝ => -1 / r) 1 + 0.5 * 1 * (fun r : ℝ => 1 / r ^ 2) 1 < 0 ∧ (0:ℝ) < 0 - 1 / ((fun r : ℝ => -1 / r) 1) := by norm_num

/-- a potential at whose last node (R=1) the outer asymptotics is used: Φ=-1, dΦ/dR=1/2, d²Φ/dR²=-1/2 -/
example : (outer (1 / 100) (-1) (1 / 2) (-3 / 4) 1).2.1 ≠ 0 := by
  simp only [outer]
  norm_num [abs_of_pos, abs_of_neg]

end
end Verif.Pot.PotUtils
