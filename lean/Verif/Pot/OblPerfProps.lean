import Verif.Pot.OblPerf
import Mathlib.Analysis.SpecialFunctions.Trigonometric.ArctanDeriv
import Mathlib.Analysis.SpecialFunctions.Sqrt
import Mathlib.Analysis.Calculus.MeanValue
import Mathlib.Tactic

/-! # C120: oblate perfect ellipsoid -/

namespace Verif.Pot.OblPerf
open Real Verif.Coord Verif.Pot Filter Topology
noncomputable section
namespace Obl

/-- the function G of the model -/
def G (P : Obl) (tau : ℝ) : ℝ := P.fac * (arctan (√tau / P.c) / (√tau / P.c))

theorem sqrt_tauc (P : Obl) (hc : 0 < P.c) (tau : ℝ) (_ht : 0 ≤ tau) : √(tau / P.c ^ 2) = √tau / P.c := by
  rw [sqrt_div' _ (by positivity), sqrt_sq hc.le]

/-- **C120** G(τ) is the documented function (de Zeeuw 1985, eq. 27: (2M/πc)·√(c²/τ)·arctan√(τ/c²)) above the threshold -/
theorem C120_G (P : Obl) (hc : 0 < P.c) (tau : ℝ) (ht : 1e-16 < tau / P.c ^ 2) : (P.evalDeriv tau).1 = P.G tau := by
  have : 0 ≤ tau := by
    by_contra h
    have := div_neg_of_neg_of_pos (not_le.mp h) (pow_pos hc 2)
    linarith [show (0:ℝ) < 1e-16 by norm_num]
  simp only [evalDeriv, arct, if_pos (show tau / P.c ^ 2 > 1e-16 from ht), G, P.sqrt_tauc hc tau this]

theorem hasDeriv_G (P : Obl) (hc : 0 < P.c) (tau : ℝ) (ht : 0 < tau) :
    HasDerivAt P.G (P.fac * 0.5 * (1 / (1 + tau / P.c ^ 2) - arctan (√tau / P.c) / (√tau / P.c)) / tau) tau := by
  have hs := sqrt_pos.mpr ht
  have e := sq_sqrt ht.le
  have h1 : HasDerivAt (fun t => √t / P.c) (1 / (2 * √tau) / P.c) tau := (Real.hasDerivAt_sqrt ht.ne').div_const P.c
  have h2 := h1.arctan
  have h3 := (h2.div h1 (div_pos hs hc).ne').const_mul P.fac
  refine h3.congr_deriv ?_
  rw [div_pow, e]
  generalize arctan (√tau / P.c) = A
  generalize hS : √tau = S at *
  rw [← e]
  have : 1 + S ^ 2 / P.c ^ 2 ≠ 0 := by positivity
  have h4 : P.c ^ 2 + S ^ 2 ≠ 0 := by positivity
  have h5 : 1 + S ^ 2 / P.c ^ 2 = (P.c ^ 2 + S ^ 2) / P.c ^ 2 := by field_simp
  rw [h5]
  field_simp
  ring

theorem hasDeriv_G2 (P : Obl) (hc : 0 < P.c) (tau : ℝ) (ht : 0 < tau) :
    HasDerivAt (fun t => P.fac * 0.5 * (1 / (1 + t / P.c ^ 2) - arctan (√t / P.c) / (√t / P.c)) / t)
      (P.fac * 0.75 * (arctan (√tau / P.c) / (√tau / P.c) - (1 + 5 / 3 * (tau / P.c ^ 2)) / (1 + tau / P.c ^ 2) ^ 2) / tau ^ 2) tau := by
  have hs := sqrt_pos.mpr ht
  have e := sq_sqrt ht.le
  have h1 : HasDerivAt (fun t => √t / P.c) (1 / (2 * √tau) / P.c) tau := (Real.hasDerivAt_sqrt ht.ne').div_const P.c
  have h2 := h1.arctan
  have h3 := h2.div h1 (div_pos hs hc).ne'
  have h0 : (1 + tau / P.c ^ 2) ≠ 0 := by positivity
  have h4 : HasDerivAt (fun t => 1 / (1 + t / P.c ^ 2)) (-(1 / P.c ^ 2) / (1 + tau / P.c ^ 2) ^ 2) tau := by
    have := (((hasDerivAt_id tau).div_const (P.c ^ 2)).const_add 1).inv h0
    refine (this.congr_of_eventuallyEq (Eventually.of_forall fun y => by simp)).congr_deriv ?_
    simp
  have h5 := ((h4.sub h3).const_mul (P.fac * 0.5)).div (hasDerivAt_id tau) ht.ne'
  refine h5.congr_deriv ?_
  simp only [id, Pi.sub_apply, Pi.div_apply]
  rw [div_pow (√tau), e]
  generalize arctan (√tau / P.c) = A
  generalize hS : √tau = S at *
  rw [← e]
  have h5 : 1 + S ^ 2 / P.c ^ 2 = (P.c ^ 2 + S ^ 2) / P.c ^ 2 := by field_simp
  have h6 : P.c ^ 2 + S ^ 2 ≠ 0 := by positivity
  rw [h5]
  field_simp
  ring

/-- **C120** the derivatives of G returned by the code are exact above the thresholds below which expansions are used -/
theorem C120_G_derivs (P : Obl) (hc : 0 < P.c) (tau : ℝ) (ht : 1e-5 < tau / P.c ^ 2) :
    HasDerivAt (fun t => (P.evalDeriv t).1) (P.evalDeriv tau).2.1 tau ∧ HasDerivAt (fun t => (P.evalDeriv t).2.1) (P.evalDeriv tau).2.2 tau := by
  have hc2 := pow_pos hc 2
  have t0 : 0 < tau := by
    have : 0 < tau / P.c ^ 2 := lt_trans (by norm_num) ht
    exact (div_pos_iff_of_pos_right hc2).mp this
  have ev : ∀ᶠ t in 𝓝 tau, 0 < t ∧ 1e-5 < t / P.c ^ 2 := by
    have h1 : ContinuousAt (fun t : ℝ => t / P.c ^ 2) tau := by fun_prop
    exact (lt_mem_nhds t0).and (h1.eventually (lt_mem_nhds ht))
  have a16 : ∀ x : ℝ, 1e-5 < x → x > 1e-16 := fun x h => lt_trans (by norm_num) h
  have a8 : ∀ x : ℝ, 1e-5 < x → x > 1e-8 := fun x h => lt_trans (by norm_num) h
  have d1 : ∀ t, 0 < t → 1e-5 < t / P.c ^ 2 → (P.evalDeriv t).2.1 = P.fac * 0.5 * (1 / (1 + t / P.c ^ 2) - arctan (√t / P.c) / (√t / P.c)) / t := by
    intro t h0 h
    simp only [evalDeriv, arct, if_pos (a16 _ h), if_pos (a8 _ h), P.sqrt_tauc hc t h0.le]
  constructor
  · rw [d1 tau t0 ht]
    refine (P.hasDeriv_G hc tau t0).congr_of_eventuallyEq ?_
    filter_upwards [ev] with t ht
    exact P.C120_G hc t (a16 _ ht.2)
  · have : (P.evalDeriv tau).2.2 = P.fac * 0.75 * (arctan (√tau / P.c) / (√tau / P.c) - (1 + 5 / 3 * (tau / P.c ^ 2)) / (1 + tau / P.c ^ 2) ^ 2) / tau ^ 2 := by
      simp only [evalDeriv, arct, if_pos (a16 _ ht), if_pos (show tau / P.c ^ 2 > 1e-5 from ht), P.sqrt_tauc hc tau t0.le]
    rw [this]
    refine (P.hasDeriv_G2 hc tau t0).congr_of_eventuallyEq ?_
    filter_upwards [ev] with t ht
    exact d1 t ht.1 ht.2

/-- the potential in terms of an arbitrary G, as a function of lambda and |nu| -/
def V (g : ℝ → ℝ) (l n : ℝ) : ℝ := (n * g n - l * g l) / (l - n)

theorem V_derivs (g g1 g2 : ℝ → ℝ) (l n : ℝ) (hln : n < l) (hl : HasDerivAt g (g1 l) l) (hn : HasDerivAt g (g1 n) n)
    (hl2 : HasDerivAt g1 (g2 l) l) (hn2 : HasDerivAt g1 (g2 n) n) :
    HasDerivAt (fun l => V g l n) ((g l - g n) / (l - n) ^ 2 * n - g1 l * l / (l - n)) l ∧
    HasDerivAt (fun n => V g l n) (-((g l - g n) / (l - n) ^ 2) * l + g1 n * n / (l - n)) n ∧
    HasDerivAt (fun l => (g l - g n) / (l - n) ^ 2 * n - g1 l * l / (l - n))
      ((2 * n * (-((g l - g n) / (l - n) ^ 2) + g1 l / (l - n)) - g2 l * l) / (l - n)) l ∧
    HasDerivAt (fun n => -((g l - g n) / (l - n) ^ 2) * l + g1 n * n / (l - n))
      ((2 * l * (-((g l - g n) / (l - n) ^ 2) + g1 n / (l - n)) + g2 n * n) / (l - n)) n ∧
    HasDerivAt (fun n => (g l - g n) / (l - n) ^ 2 * n - g1 l * l / (l - n))
      (((l + n) * ((g l - g n) / (l - n) ^ 2) - (l * g1 l + n * g1 n) / (l - n)) / (l - n)) n := by
  have h0 : l - n ≠ 0 := (sub_pos.mpr hln).ne'
  have il := hasDerivAt_id l
  have i_n := hasDerivAt_id n
  have dl : HasDerivAt (fun l => l - n) 1 l := il.sub_const n
  have dn : HasDerivAt (fun n => l - n) (-1) n := i_n.const_sub l
  have h02 : (l - n) ^ 2 ≠ 0 := pow_ne_zero 2 h0
  refine ⟨?_, ?_, ?_, ?_, ?_⟩
  · refine (((il.mul hl).const_sub (n * g n)).div dl h0).congr_deriv ?_
    simp only [id, Pi.mul_apply]
    field_simp
    ring
  · refine (((i_n.mul hn).sub_const (l * g l)).div dn h0).congr_deriv ?_
    simp only [id, Pi.mul_apply]
    field_simp
    ring
  · refine ((((hl.sub_const (g n)).div (dl.pow 2) h02).mul_const n).sub ((hl2.mul il).div dl h0)).congr_deriv ?_
    simp only [id, Pi.mul_apply, Pi.pow_apply]
    norm_num
    field_simp
    ring
  · refine (((((hn.const_sub (g l)).div (dn.pow 2) h02).neg).mul_const l).add ((hn2.mul i_n).div dn h0)).congr_deriv ?_
    simp only [id, Pi.mul_apply, Pi.pow_apply]
    norm_num
    field_simp
    ring
  · refine ((((hn.const_sub (g l)).div (dn.pow 2) h02).mul i_n).sub ((dn.inv h0).const_mul (g1 l * l))).congr_deriv ?_
    simp only [id, Pi.pow_apply, Pi.div_apply]
    norm_num
    field_simp
    ring

/-- the value and the derivatives, by name -/
def value (P : Obl) (l n : ℝ) : ℝ := ((P.evalScalar l n).map (·.1)).getD 0
def dlambda (P : Obl) (l n : ℝ) : ℝ := ((P.evalScalar l n).map (·.2.1.1)).getD 0
def dnu (P : Obl) (l n : ℝ) : ℝ := ((P.evalScalar l n).map (·.2.1.2)).getD 0
def dlambda2 (P : Obl) (l n : ℝ) : ℝ := ((P.evalScalar l n).map (·.2.2.1)).getD 0
def dnu2 (P : Obl) (l n : ℝ) : ℝ := ((P.evalScalar l n).map (·.2.2.2.1)).getD 0
def dlambdadnu (P : Obl) (l n : ℝ) : ℝ := ((P.evalScalar l n).map (·.2.2.2.2)).getD 0

/-- **C120** the constructor accepts exactly oblate shapes with a positive minor axis, and Δ² = a² - c² is then positive -/
theorem C120_create (mass a c : ℝ) : (∀ P, create mass a c = some P → P = ⟨mass, a, c⟩ ∧ P.D2 = a ^ 2 - c ^ 2 ∧ 0 < P.D2) ∧
    ((create mass a c).isSome ↔ 0 < c ∧ c < a) := by
  unfold create
  constructor
  · intro P h
    split_ifs at h with hc
    rw [not_or, not_le, ge_iff_le, not_le] at hc
    injection h with h
    subst h
    have : 0 < a ^ 2 - c ^ 2 := by nlinarith [hc.1, hc.2]
    exact ⟨rfl, by simp only [D2]; rw [sq_sqrt this.le], by simp only [D2]; rw [sq_sqrt this.le]; exact this⟩
  · split_ifs with h
    · simp only [Option.isSome_none, Bool.false_eq_true, false_iff]
      rintro ⟨h1, h2⟩
      rcases h with h | h <;> linarith
    · rw [not_or, not_le, ge_iff_le, not_le] at h
      simpa using h

/-- **C120** an exception is thrown exactly for impossible coordinates -/
theorem C120_domain (P : Obl) (l n : ℝ) : P.evalScalar l n = none ↔ ¬ (|n| ≤ P.D2 ∧ P.D2 ≤ l) := by
  simp only [evalScalar]
  split_ifs with h
  · simp only [true_iff]
    rintro ⟨h1, h2⟩
    rcases h with h | h <;> linarith
  · simp only [false_iff, not_not]
    rw [not_or, not_lt, not_lt] at h
    exact h

theorem in_domain (P : Obl) (l n : ℝ) (h1 : |n| ≤ P.D2) (h2 : P.D2 ≤ l) :
    let g := fun t => (P.evalDeriv t).1
    let g1 := fun t => (P.evalDeriv t).2.1
    let g2 := fun t => (P.evalDeriv t).2.2
    let m := |n|
    let sg : ℝ := if n ≥ 0 then 1 else -1
    P.value l n = V g l m ∧ P.dlambda l n = (g l - g m) / (l - m) ^ 2 * m - g1 l * l / (l - m) ∧
    P.dnu l n = (-((g l - g m) / (l - m) ^ 2) * l + g1 m * m / (l - m)) * sg ∧
    P.dlambda2 l n = (2 * m * (-((g l - g m) / (l - m) ^ 2) + g1 l / (l - m)) - g2 l * l) / (l - m) ∧
    P.dnu2 l n = (2 * l * (-((g l - g m) / (l - m) ^ 2) + g1 m / (l - m)) + g2 m * m) / (l - m) ∧
    P.dlambdadnu l n = ((l + m) * ((g l - g m) / (l - m) ^ 2) - (l * g1 l + m * g1 m) / (l - m)) / (l - m) * sg := by
  have h : ¬ (|n| > P.D2 ∨ l < P.D2) := by rw [not_or, not_lt, not_lt]; exact ⟨h1, h2⟩
  simp only [value, dlambda, dnu, dlambda2, dnu2, dlambdadnu, evalScalar, if_neg h, Option.map_some, Option.getD_some, V]
  trivial

/-- **C120** All first and second derivatives returned by `evalScalar` are exact inside the domain, at points at both sides of the equatorial
plane and away from it (above the thresholds for the expansions of G). -/
theorem C120_derivatives (P : Obl) (hc : 0 < P.c) (l n : ℝ) (h1 : |n| < P.D2) (h2 : P.D2 < l) (h3 : 1e-5 < |n| / P.c ^ 2) :
    HasDerivAt (fun l => P.value l n) (P.dlambda l n) l ∧ HasDerivAt (fun n => P.value l n) (P.dnu l n) n ∧
    HasDerivAt (fun l => P.dlambda l n) (P.dlambda2 l n) l ∧ HasDerivAt (fun n => P.dnu l n) (P.dnu2 l n) n ∧
    HasDerivAt (fun n => P.dlambda l n) (P.dlambdadnu l n) n := by
  have hn0 : n ≠ 0 := by rintro rfl; norm_num at h3
  have hml : |n| < l := h1.trans h2
  have h3' : 1e-5 < l / P.c ^ 2 := h3.trans (by gcongr)
  obtain ⟨a1, a2⟩ := P.C120_G_derivs hc l h3'
  obtain ⟨b1, b2⟩ := P.C120_G_derivs hc |n| h3
  obtain ⟨v1, v2, v3, v4, v5⟩ := V_derivs (fun t => (P.evalDeriv t).1) (fun t => (P.evalDeriv t).2.1) (fun t => (P.evalDeriv t).2.2) l |n| hml a1 b1 a2 b2
  have evl : ∀ᶠ x in 𝓝 l, P.D2 < x := lt_mem_nhds h2
  have evn : ∀ᶠ x in 𝓝 n, |x| < P.D2 ∧ (if x ≥ 0 then (1:ℝ) else -1) = (if n ≥ 0 then 1 else -1) := by
    refine (continuous_abs.continuousAt.eventually (gt_mem_nhds h1)).and ?_
    rcases lt_or_gt_of_ne hn0 with h | h
    · filter_upwards [gt_mem_nhds h] with x hx
      rw [if_neg (not_le.mpr hx), if_neg (not_le.mpr h)]
    · filter_upwards [lt_mem_nhds h] with x hx
      rw [if_pos (le_of_lt hx), if_pos (le_of_lt h)]
  have ha : HasDerivAt (fun x : ℝ => |x|) (if n ≥ 0 then 1 else -1) n := by
    rcases lt_or_gt_of_ne hn0 with h | h
    · rw [if_neg (not_le.mpr h)]
      refine (hasDerivAt_id n).neg.congr_of_eventuallyEq ?_
      filter_upwards [gt_mem_nhds h] with x hx using abs_of_neg hx
    · rw [if_pos h.le]
      refine (hasDerivAt_id n).congr_of_eventuallyEq ?_
      filter_upwards [lt_mem_nhds h] with x hx using abs_of_pos hx
  have hsg : (if n ≥ 0 then (1:ℝ) else -1) * (if n ≥ 0 then 1 else -1) = 1 := by split_ifs <;> norm_num
  obtain ⟨e1, e2, e3, e4, e5, e6⟩ := P.in_domain l n h1.le h2.le
  rw [e2, e3, e4, e5, e6]
  refine ⟨v1.congr_of_eventuallyEq ?_, ?_, v3.congr_of_eventuallyEq ?_, ?_, ?_⟩
  · filter_upwards [evl] with x hx using (P.in_domain x n h1.le hx.le).1
  · refine (v2.comp n ha).congr_of_eventuallyEq ?_
    filter_upwards [evn] with x hx using (P.in_domain l x hx.1.le h2.le).1
  · filter_upwards [evl] with x hx using (P.in_domain x n h1.le hx.le).2.1
  · have := (v4.comp n ha).mul_const (if n ≥ 0 then 1 else -1)
    rw [mul_assoc, hsg, mul_one] at this
    refine this.congr_of_eventuallyEq ?_
    filter_upwards [evn] with x hx
    rw [(P.in_domain l x hx.1.le h2.le).2.2.1, hx.2]
    rfl
  · refine (v5.comp n ha).congr_of_eventuallyEq ?_
    filter_upwards [evn] with x hx using (P.in_domain l x hx.1.le h2.le).2.1

theorem arctan_bounds {x : ℝ} (hx : 0 ≤ x) : x - x ^ 3 / 3 ≤ arctan x ∧ arctan x ≤ x := by
  have D : ∀ y : ℝ, HasDerivAt (fun y => arctan y - (y - y ^ 3 / 3)) (1 / (1 + y ^ 2) - (1 - y ^ 2)) y := fun y => by
    refine ((Real.hasDerivAt_arctan y).sub ((hasDerivAt_id y).sub ((hasDerivAt_pow 3 y).div_const 3))).congr_deriv ?_
    norm_num
  have E : ∀ y : ℝ, HasDerivAt (fun y => y - arctan y) (1 - 1 / (1 + y ^ 2)) y := fun y =>
    (hasDerivAt_id y).sub (Real.hasDerivAt_arctan y)
  have m1 : Monotone fun y => arctan y - (y - y ^ 3 / 3) := monotone_of_deriv_nonneg (fun y => (D y).differentiableAt) fun y => by
    rw [(D y).deriv]
    have : 1 / (1 + y ^ 2) - (1 - y ^ 2) = y ^ 4 / (1 + y ^ 2) := by field_simp; ring
    rw [this]; positivity
  have m2 : Monotone fun y => y - arctan y := monotone_of_deriv_nonneg (fun y => (E y).differentiableAt) fun y => by
    rw [(E y).deriv]
    have : 1 - 1 / (1 + y ^ 2) = y ^ 2 / (1 + y ^ 2) := by field_simp; ring
    rw [this]; positivity
  have a := m1 hx
  have b := m2 hx
  simp only [arctan_zero] at a b
  constructor <;> linarith

/-- **C120** below the threshold the value of G is replaced by its limit; the relative error is at most a third of the threshold -/
theorem C120_G_small (P : Obl) (hc : 0 < P.c) (tau : ℝ) (h0 : 0 < tau) : |(P.evalDeriv tau).1 - P.G tau| ≤ |P.fac| * (1e-16 / 3) := by
  by_cases ht : 1e-16 < tau / P.c ^ 2
  · rw [P.C120_G hc tau ht, sub_self, abs_zero]; positivity
  · simp only [evalDeriv, arct, if_neg ht, G]
    rw [← mul_sub, abs_mul]
    refine mul_le_mul_of_nonneg_left ?_ (abs_nonneg _)
    have hx : 0 < √tau / P.c := div_pos (sqrt_pos.mpr h0) hc
    have hx2 : (√tau / P.c) ^ 2 ≤ 1e-16 := by rw [div_pow, sq_sqrt h0.le]; exact not_lt.mp ht
    obtain ⟨a, b⟩ := arctan_bounds hx.le
    generalize √tau / P.c = x at *
    have a' : 1 - x ^ 2 / 3 ≤ arctan x / x := by rw [le_div_iff₀ hx]; linarith
    have b' : arctan x / x ≤ 1 := by rw [div_le_one hx]; exact b
    rw [abs_le]
    constructor <;> linarith

/-- **C120** The two implementations of the oblate perfect ellipsoid agree: at the point with spheroidal coordinates rho, nu the value is that of
the class `PerfectEllipsoid` (lambda = rho²+Δ², |nu| = Δ² cos²), at or away from the equatorial plane. -/
theorem C120_agree (P : Obl) (hc : 0 < P.c) (hca : P.c < P.a) (rho sinnu cosnu : ℝ) (hsc : sinnu ^ 2 + cosnu ^ 2 = 1)
    (ht : cosnu = 0 ∨ 1e-16 < P.D2 * cosnu ^ 2 / P.c ^ 2) (hl : 1e-16 < (rho ^ 2 + P.D2) / P.c ^ 2) (sg : ℝ) (hsg : sg = 1 ∨ sg = -1) :
    P.value (rho ^ 2 + P.D2) (sg * (P.D2 * cosnu ^ 2)) = (PerfEll.aux ⟨P.mass, P.a, P.c⟩ P.D2 rho sinnu cosnu).Phi := by
  have hD : 0 < P.D2 := by
    simp only [D2]
    have : 0 < P.a ^ 2 - P.c ^ 2 := by nlinarith
    rw [sq_sqrt this.le]; exact this
  have habs : |sg * (P.D2 * cosnu ^ 2)| = P.D2 * cosnu ^ 2 := by
    rw [abs_mul, abs_of_nonneg (by positivity : 0 ≤ P.D2 * cosnu ^ 2)]
    rcases hsg with h | h <;> simp [h]
  have hle : P.D2 * cosnu ^ 2 ≤ P.D2 := by nlinarith [sq_nonneg sinnu]
  obtain ⟨e, -⟩ := P.in_domain (rho ^ 2 + P.D2) (sg * (P.D2 * cosnu ^ 2)) (by rw [habs]; exact hle) (by nlinarith [sq_nonneg rho])
  rw [e, habs, V]
  rw [P.C120_G hc _ hl]
  have hG : ∀ x : ℝ, 0 < x → x ^ 2 * P.G (x ^ 2) = P.fac * P.c * (x * arctan (x / P.c)) := by
    intro x hx
    simp only [G]
    rw [sqrt_sq hx.le]
    field_simp
  have hpsi : 0 < √(rho ^ 2 + P.D2) := sqrt_pos.mpr (by positivity)
  have hsD := sqrt_pos.mpr hD
  have hN : P.D2 * cosnu ^ 2 * (P.evalDeriv (P.D2 * cosnu ^ 2)).1 = P.fac * P.c * (cosnu * (√P.D2 * arctan (√P.D2 / P.c * cosnu))) := by
    rcases ht with h | h
    · simp [h]
    · have hcn : cosnu ≠ 0 := by rintro rfl; norm_num at h
      rw [P.C120_G hc _ h]
      have h1 := hG (√P.D2 * |cosnu|) (mul_pos hsD (abs_pos.mpr hcn))
      rw [mul_pow, sq_sqrt hD.le, sq_abs] at h1
      rw [h1]
      rcases abs_choice cosnu with h | h
      · rw [h]; ring_nf
      · rw [h, show √P.D2 * -cosnu / P.c = -(√P.D2 / P.c * cosnu) by ring, arctan_neg]; ring
  have hL := hG _ hpsi
  rw [sq_sqrt (by positivity)] at hL
  rw [hL, hN]
  simp only [PerfEll.aux, if_pos (show P.D2 ≥ 0 from hD.le), abs_of_pos hD]
  have hden : rho ^ 2 + P.D2 * sinnu ^ 2 = rho ^ 2 + P.D2 - P.D2 * cosnu ^ 2 := by
    rw [show sinnu ^ 2 = 1 - cosnu ^ 2 by linarith]; ring
  rw [hden]
  have hfac : P.fac * P.c = 2 / π * P.mass := by simp only [fac]; field_simp
  rw [hfac]
  ring

/-- the hypotheses of `C120_derivatives` and `C120_agree` are met -/
example : HasDerivAt (fun l => (⟨1, 2, 1⟩ : Obl).value l (-1)) ((⟨1, 2, 1⟩ : Obl).dlambda 4 (-1)) 4 := by
  have hD : (⟨1, 2, 1⟩ : Obl).D2 = 3 := by simp only [D2]; rw [sq_sqrt (by norm_num)]; norm_num
  exact (C120_derivatives ⟨1, 2, 1⟩ one_pos 4 (-1) (by rw [hD]; norm_num) (by rw [hD]; norm_num) (by norm_num)).1

end Obl
end
end Verif.Pot.OblPerf
