import Verif.Core.Scaling
import Mathlib.Analysis.SpecialFunctions.Log.Deriv
import Mathlib.Analysis.SpecialFunctions.Integrals.Basic
import Mathlib.Analysis.Calculus.Deriv.ZPow
import Mathlib.Analysis.Calculus.Deriv.Shift

/-! Model of the function adapters of /repo/src/math_core.h:185-295 and /repo/src/math_core.cpp:389-470
(FncProduct, FncShifted, LogLogScaledFnc, ScaledFnc, Monomial, Gaussian), exact real arithmetic, and C45. -/
namespace Verif.Adapters
open Set

/-- What `evalDeriv` of a function object reports at a point: value and two derivatives. -/
structure Jet where
  (val der der2 : ℝ)

/-- math_core.cpp:389-403: FncProduct::evalDeriv. -/
def product (f g : ℝ → Jet) (x : ℝ) : Jet :=
  let a := f x
  let b := g x
  ⟨a.val * b.val, a.val * b.der + b.val * a.der, a.val * b.der2 + 2 * a.der * b.der + b.val * a.der2⟩

/-- math_core.h:273-276: FncShifted::evalDeriv. -/
def shifted (f : ℝ → Jet) (dx dy : ℝ) (x : ℝ) : Jet :=
  let a := f (x - dx)
  { a with val := a.val - dy }

/-- math_core.cpp:405-425: LogLogScaledFnc::evalDeriv; `tiny` is DBL_MIN. -/
noncomputable def logLog (tiny : ℝ) (f : ℝ → Jet) (logx : ℝ) : Jet :=
  let x := Real.exp logx
  let a := f x
  let logder := a.der * x / a.val
  let fder := a.der * (logder - 1)
  ⟨Real.log a.val, logder, if |fder| < tiny ∨ |a.der2| < tiny then 0 else (a.der2 * x - fder) * x / a.val⟩

/-- math_core.cpp:428-436: Monomial::evalDeriv. -/
noncomputable def monomial (m : ℤ) (x : ℝ) : Jet :=
  ⟨x ^ m, if m = 0 then 0 else m * x ^ (m - 1), if m = 0 ∨ m = 1 then 0 else m * (m - 1) * x ^ (m - 2)⟩

/-- math_core.cpp:438-441: Monomial::integrate. -/
noncomputable def monomialInt (m : ℤ) (x1 x2 : ℝ) (n : ℤ) : ℝ :=
  if m + n + 1 = 0 then Real.log (x2 / x1) else (x2 ^ (m + n + 1) - x1 ^ (m + n + 1)) / (m + n + 1)

/-- math_core.cpp:443-452: Gaussian::evalDeriv. -/
noncomputable def gaussian (sigma x : ℝ) : Jet :=
  let v := 1 / Real.sqrt 2 / Real.sqrt Real.pi / sigma * Real.exp (-(1/2) * (x / sigma) ^ 2)
  ⟨v, -x / sigma ^ 2 * v, ((x / sigma) ^ 2 - 1) / sigma ^ 2 * v⟩

/-- math_core.cpp:454-496: Gaussian::integrate for the odd orders n = 1, 3, 5, 7 (which do not involve the error
function) and nonzero sigma. -/
noncomputable def gaussianInt (sigma x1 x2 : ℝ) (n : Nat) : Option ℝ :=
  if x1 + x2 = 0 ∧ n % 2 = 1 then some 0 else
  let y1 := x1 / sigma
  let y2 := x2 / sigma
  let e1 := Real.exp (-(1/2) * y1 * y1)
  let e2 := Real.exp (-(1/2) * y2 * y2)
  let fin (v : ℝ) := some (v * sigma ^ n / (Real.sqrt Real.pi * Real.sqrt 2))
  match n with
  | 1 => fin (e1 - e2)
  | 3 => fin ((2 + y1 * y1) * e1 - (2 + y2 * y2) * e2)
  | 5 => fin ((8 + y1 * y1 * (4 + y1 * y1)) * e1 - (8 + y2 * y2 * (4 + y2 * y2)) * e2)
  | 7 => fin ((48 + y1 * y1 * (24 + y1 * y1 * (6 + y1 * y1))) * e1 - (48 + y2 * y2 * (24 + y2 * y2 * (6 + y2 * y2))) * e2)
  | _ => none

/-! ## Specification -/

/-- The object reports its true value and derivatives on the set `S`. -/
structure Faithful (f : ℝ → Jet) (S : Set ℝ) : Prop where
  d1 : ∀ x ∈ S, HasDerivAt (fun x => (f x).val) (f x).der x
  d2 : ∀ x ∈ S, HasDerivAt (fun x => (f x).der) (f x).der2 x

/-- C45, product. -/
theorem C45_product (f g : ℝ → Jet) (S : Set ℝ) (hf : Faithful f S) (hg : Faithful g S) :
    (∀ x, (product f g x).val = (f x).val * (g x).val) ∧ Faithful (product f g) S := by
  refine ⟨fun x => rfl, fun x hx => ?_, fun x hx => ?_⟩
  · exact ((hf.d1 x hx).mul (hg.d1 x hx)).congr_deriv (by simp [product]; ring)
  · exact (((hf.d1 x hx).mul (hg.d2 x hx)).add ((hg.d1 x hx).mul (hf.d2 x hx))).congr_deriv (by simp [product]; ring)

/-- C45, shift. -/
theorem C45_shifted (f : ℝ → Jet) (S : Set ℝ) (hf : Faithful f S) (dx dy : ℝ) :
    (∀ x, (shifted f dx dy x).val = (f (x - dx)).val - dy) ∧ Faithful (shifted f dx dy) {x | x - dx ∈ S} := by
  refine ⟨fun x => rfl, fun x hx => ?_, fun x hx => ?_⟩
  · exact ((hf.d1 _ hx).comp_sub_const x dx).sub_const dy
  · exact (hf.d2 _ hx).comp_sub_const x dx

/-- C45, doubly-logarithmic scaling: value and first derivative always, the second derivative unless one of the two
quantities compared with DBL_MIN is that small (in particular exactly zero). -/
theorem C45_loglog_partial (tiny : ℝ) (f : ℝ → Jet) (hf : Faithful f (Ioi 0)) (hpos : ∀ x, 0 < x → 0 < (f x).val) (y : ℝ) :
    (logLog tiny f y).val = Real.log (f (Real.exp y)).val ∧
    HasDerivAt (fun y => (logLog tiny f y).val) (logLog tiny f y).der y ∧
    (let x := Real.exp y
     tiny ≤ |(f x).der * ((f x).der * x / (f x).val - 1)| → tiny ≤ |(f x).der2| →
      HasDerivAt (fun y => (logLog tiny f y).der) (logLog tiny f y).der2 y) := by
  have hx : Real.exp y ∈ Ioi (0:ℝ) := Real.exp_pos y
  have hv := (hpos _ hx).ne'
  have c1 : HasDerivAt (fun y => (f (Real.exp y)).val) ((f (Real.exp y)).der * Real.exp y) y :=
    HasDerivAt.comp y (hf.d1 _ hx) (Real.hasDerivAt_exp y)
  have c2 : HasDerivAt (fun y => (f (Real.exp y)).der) ((f (Real.exp y)).der2 * Real.exp y) y :=
    HasDerivAt.comp y (hf.d2 _ hx) (Real.hasDerivAt_exp y)
  refine ⟨rfl, ?_, ?_⟩
  · exact c1.log hv
  · intro x h1 h2
    have := (c2.mul (Real.hasDerivAt_exp y)).div c1 hv
    refine this.congr_deriv ?_
    simp only [logLog]
    rw [if_neg (by rintro (k | k) <;> linarith)]
    simp only [Pi.mul_apply]
    field_simp
    ring

/-- The second derivative of the doubly-logarithmic scaling is wrong for every function whose second derivative
vanishes: for f(x) = x+1 the adapter reports zero at log x = 0, the true value is 1/4. -/
theorem C45_refuted_loglog (tiny : ℝ) (ht : 0 < tiny) :
    let f : ℝ → Jet := fun x => ⟨x + 1, 1, 0⟩
    Faithful f univ ∧ (logLog tiny f 0).der2 = 0 ∧ HasDerivAt (fun y => (logLog tiny f y).der) (1/4) 0 := by
  intro f
  refine ⟨⟨fun x _ => ?_, fun x _ => ?_⟩, ?_, ?_⟩
  · exact (hasDerivAt_id x).add_const 1
  · exact hasDerivAt_const x 1
  · simp only [logLog, f]
    rw [if_pos]
    right; simpa using ht
  · simp only [logLog, f]
    have h1 : HasDerivAt (fun y => 1 * Real.exp y) (Real.exp 0) 0 := by
      simpa using Real.hasDerivAt_exp 0
    have h2 : HasDerivAt (fun y => Real.exp y + 1) (Real.exp 0) 0 := (Real.hasDerivAt_exp 0).add_const 1
    have := h1.div h2 (by simp)
    refine this.congr_deriv ?_
    simp; norm_num

/-- math_core.h:199-207: ScaledFnc::evalDeriv reports df/ds = df/du du/ds. -/
noncomputable def scaled (un du : ℝ → ℝ) (f : ℝ → Jet) (s : ℝ) : ℝ × ℝ := ((f (un s)).val, (f (un s)).der * du s)

/-- C45, scaled argument (any of the scalings of C17). -/
theorem C45_scaled (un du : ℝ → ℝ) (f : ℝ → Jet) (s : ℝ) (hu : HasDerivAt un (du s) s)
    (hf : HasDerivAt (fun x => (f x).val) (f (un s)).der (un s)) :
    HasDerivAt (fun s => (scaled un du f s).1) (scaled un du f s).2 s :=
  HasDerivAt.comp s hf hu

/-- C45, monomial: derivatives for every integer power at every nonzero point (at every point if m ≥ 0). -/
theorem C45_monomial (m : ℤ) : Faithful (monomial m) {x | x ≠ 0 ∨ 0 ≤ m} := by
  have key : ∀ (k : ℤ) (x : ℝ), x ≠ 0 ∨ 0 ≤ k → HasDerivAt (fun x : ℝ => x ^ k) (if k = 0 then 0 else k * x ^ (k - 1)) x := by
    intro k x h
    by_cases hk : k = 0
    · rw [if_pos hk, hk]; simpa using hasDerivAt_const x (1:ℝ)
    · rw [if_neg hk]; exact hasDerivAt_zpow k x h
  refine ⟨fun x hx => ?_, fun x hx => ?_⟩
  · exact key m x hx
  · simp only [monomial]
    by_cases hm : m = 0
    · simp only [hm, if_true, true_or]
      exact hasDerivAt_const x 0
    · simp only [if_neg hm]
      have hx' : x ≠ 0 ∨ 0 ≤ m - 1 := by
        rcases hx with h | h
        · left; exact h
        · right; omega
      refine ((key (m - 1) x hx').const_mul (m : ℝ)).congr_deriv ?_
      by_cases h1 : m = 1
      · rw [if_pos (by omega), if_pos (Or.inr h1)]; simp
      · rw [if_neg (by omega), if_neg (by omega)]
        push_cast
        rw [show m - 1 - 1 = m - 2 by ring]; ring

/-- C45, monomial: the integral of x^m x^n over an interval that does not contain zero. -/
theorem C45_monomial_integral (m n : ℤ) (x1 x2 : ℝ) (h : (0:ℝ) ∉ uIcc x1 x2) :
    monomialInt m x1 x2 n = ∫ x in x1..x2, x ^ n * (monomial m x).val := by
  have e : ∫ x in x1..x2, x ^ n * (monomial m x).val = ∫ x in x1..x2, x ^ (m + n) := by
    apply intervalIntegral.integral_congr
    intro x hx
    have hx0 : x ≠ 0 := fun h0 => h (h0 ▸ hx)
    simp only [monomial]
    rw [← zpow_add₀ hx0, add_comm]
  rw [e, monomialInt]
  by_cases hk : m + n + 1 = 0
  · rw [if_pos hk]
    have : m + n = -1 := by omega
    rw [this]
    simp only [zpow_neg_one]
    rw [integral_inv h]
  · rw [if_neg hk, integral_zpow (Or.inr ⟨by omega, h⟩)]
    push_cast; rfl

/-- C45, Gaussian: derivatives. -/
theorem C45_gaussian (sigma : ℝ) : Faithful (gaussian sigma) univ := by
  have hv : ∀ x, HasDerivAt (fun x => (gaussian sigma x).val) (gaussian sigma x).der x := by
    intro x
    have h1 : HasDerivAt (fun x : ℝ => -(1/2) * (x / sigma) ^ 2) (-x / sigma ^ 2) x := by
      have := ((((hasDerivAt_id x).div_const sigma).pow 2).const_mul (-(1/2)))
      refine this.congr_deriv ?_
      simp; ring
    have := h1.exp.const_mul (1 / Real.sqrt 2 / Real.sqrt Real.pi / sigma)
    refine this.congr_deriv ?_
    simp only [gaussian]; ring
  refine ⟨fun x _ => hv x, fun x _ => ?_⟩
  have h1 : HasDerivAt (fun x : ℝ => -x / sigma ^ 2) (-1 / sigma ^ 2) x := (hasDerivAt_id x).neg.div_const _
  have := h1.mul (hv x)
  refine this.congr_deriv ?_
  simp only [gaussian]
  ring

/-- C45, Gaussian: the odd moments over any interval. -/
theorem C45_gaussian_integral (sigma x1 x2 : ℝ) (hs : sigma ≠ 0) (n : Nat) (hn : n = 1 ∨ n = 3 ∨ n = 5 ∨ n = 7) :
    gaussianInt sigma x1 x2 n = some (∫ x in x1..x2, x ^ n * (gaussian sigma x).val) := by
  -- antiderivative  -(c) * P(y) exp(-y^2/2)
  have gen : ∀ (P dP : ℝ → ℝ), (∀ y, HasDerivAt P (dP y) y) → (∀ y, y * P y - dP y = y ^ n) →
      ∫ x in x1..x2, x ^ n * (gaussian sigma x).val =
        (P (x1 / sigma) * Real.exp (-(1/2) * (x1 / sigma) * (x1 / sigma)) -
         P (x2 / sigma) * Real.exp (-(1/2) * (x2 / sigma) * (x2 / sigma))) * sigma ^ n / (Real.sqrt Real.pi * Real.sqrt 2) := by
    intro P dP hP hid
    have hder : ∀ x, HasDerivAt (fun x => -(P (x / sigma) * Real.exp (-(1/2) * (x / sigma) * (x / sigma))) * sigma ^ n / (Real.sqrt Real.pi * Real.sqrt 2))
        (x ^ n * (gaussian sigma x).val) x := by
      intro x
      have hy : HasDerivAt (fun x : ℝ => x / sigma) (1 / sigma) x := (hasDerivAt_id x).div_const sigma
      have h1 : HasDerivAt (fun y : ℝ => -(1/2) * y * y) (-(x / sigma)) (x / sigma) := by
        have := ((hasDerivAt_id (x / sigma)).const_mul (-(1/2))).mul (hasDerivAt_id (x / sigma))
        refine this.congr_deriv ?_
        simp; ring
      have h2 := HasDerivAt.comp x ((hP (x / sigma)).mul h1.exp) hy
      have h3 := (h2.neg.mul_const (sigma ^ n)).div_const (Real.sqrt Real.pi * Real.sqrt 2)
      refine h3.congr_deriv ?_
      have hx : x = x / sigma * sigma := by field_simp
      simp only [gaussian]
      generalize hyy : x / sigma = y at *
      rw [hx, mul_pow, ← hid y]
      have : Real.exp (-(1/2) * y * y) = Real.exp (-(1/2) * y ^ 2) := by congr 1; ring
      rw [this]
      field_simp
      ring
    have hcont : Continuous fun x => x ^ n * (gaussian sigma x).val := by
      simp only [gaussian]; fun_prop
    rw [intervalIntegral.integral_eq_sub_of_hasDerivAt (fun x _ => hder x) (hcont.intervalIntegrable _ _)]
    ring
  have even : ∀ (P : ℝ → ℝ), (∀ y, P (-y) = P y) → x1 + x2 = 0 →
      (P (x1 / sigma) * Real.exp (-(1/2) * (x1 / sigma) * (x1 / sigma)) -
         P (x2 / sigma) * Real.exp (-(1/2) * (x2 / sigma) * (x2 / sigma))) * sigma ^ n / (Real.sqrt Real.pi * Real.sqrt 2) = 0 := by
    intro P hP h
    have hx : x2 / sigma = -(x1 / sigma) := by rw [show x2 = -x1 by linarith, neg_div]
    rw [hx, hP]
    rw [show -(1/2) * -(x1 / sigma) * -(x1 / sigma) = -(1/2) * (x1 / sigma) * (x1 / sigma) by ring]
    ring
  have odd : n % 2 = 1 := by omega
  have fin : ∀ (P dP : ℝ → ℝ), (∀ y, HasDerivAt P (dP y) y) → (∀ y, y * P y - dP y = y ^ n) → (∀ y, P (-y) = P y) →
      (¬(x1 + x2 = 0 ∧ n % 2 = 1) → gaussianInt sigma x1 x2 n = some ((P (x1 / sigma) * Real.exp (-(1/2) * (x1 / sigma) * (x1 / sigma)) -
         P (x2 / sigma) * Real.exp (-(1/2) * (x2 / sigma) * (x2 / sigma))) * sigma ^ n / (Real.sqrt Real.pi * Real.sqrt 2))) →
      gaussianInt sigma x1 x2 n = some (∫ x in x1..x2, x ^ n * (gaussian sigma x).val) := by
    intro P dP hP hid he hm
    rw [gen P dP hP hid]
    by_cases h : x1 + x2 = 0
    · rw [even P he h, gaussianInt, if_pos ⟨h, odd⟩]
    · exact hm (fun k => h k.1)
  rcases hn with rfl | rfl | rfl | rfl
  · refine fin (fun _ => 1) (fun _ => 0) (fun y => hasDerivAt_const _ _) (fun y => by ring) (fun y => rfl) ?_
    intro h
    rw [gaussianInt, if_neg h]
    simp only [one_mul]
  · refine fin (fun y => 2 + y * y) (fun y => 2 * y) (fun y => ?_) (fun y => by ring) (fun y => by ring) ?_
    · exact (((hasDerivAt_id y).mul (hasDerivAt_id y)).const_add 2).congr_deriv (by simp; ring)
    · intro h
      rw [gaussianInt, if_neg h]; rfl
  · refine fin (fun y => 8 + y * y * (4 + y * y)) (fun y => 8 * y + 4 * y ^ 3) (fun y => ?_) (fun y => by ring) (fun y => by ring) ?_
    · have q : HasDerivAt (fun y : ℝ => y * y) (2 * y) y :=
        ((hasDerivAt_id y).mul (hasDerivAt_id y)).congr_deriv (by simp; ring)
      exact ((q.mul (q.const_add 4)).const_add 8).congr_deriv (by ring)
    · intro h
      rw [gaussianInt, if_neg h]; rfl
  · refine fin (fun y => 48 + y * y * (24 + y * y * (6 + y * y))) (fun y => 48 * y + 24 * y ^ 3 + 6 * y ^ 5) (fun y => ?_) (fun y => by ring) (fun y => by ring) ?_
    · have q : HasDerivAt (fun y : ℝ => y * y) (2 * y) y :=
        ((hasDerivAt_id y).mul (hasDerivAt_id y)).congr_deriv (by simp; ring)
      exact ((q.mul ((q.mul (q.const_add 6)).const_add 24)).const_add 48).congr_deriv (by simp only [Pi.mul_apply]; ring)
    · intro h
      rw [gaussianInt, if_neg h]; rfl

/-- Non-vacuity: the product of a Gaussian and a monomial is faithful away from zero. -/
example : Faithful (product (gaussian 2) (monomial (-3))) {x | x ≠ 0 ∨ (0:ℤ) ≤ -3} :=
  (C45_product _ _ _ ⟨fun x _ => (C45_gaussian 2).d1 x trivial, fun x _ => (C45_gaussian 2).d2 x trivial⟩ (C45_monomial (-3))).2

end Verif.Adapters
