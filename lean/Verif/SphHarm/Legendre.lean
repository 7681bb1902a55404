import Mathlib.Analysis.SpecialFunctions.Trigonometric.Deriv
import Mathlib.Analysis.SpecialFunctions.Sqrt
import Mathlib.Analysis.Calculus.Deriv.Inv
import Mathlib.Analysis.Calculus.Deriv.Pow
import Mathlib.Analysis.Calculus.Deriv.Comp
import Mathlib.Analysis.SpecialFunctions.Pow.Deriv
import Mathlib.Data.Nat.Factorial.DoubleFactorial
import Mathlib.Tactic

/-! Model of `legendrePmm` and `sphHarmArray` (/repo/src/math_sphharm.cpp:16-131) in exact real arithmetic: the
normalised associated Legendre functions and their first two derivatives, and C48. -/
namespace Verif.SphHarm
open Real

/-- One element of the output arrays: value, first and second derivative by theta. -/
structure LegOut where
  val : ℝ
  der : ℝ
  der2 : ℝ

/-- math_sphharm.cpp:38: the prefactor. For m ≤ 16 the code takes it from a table of decimal constants
(math_sphharm.cpp:26-31), which is replaced here by the formula used for larger m. -/
noncomputable def prefact0 (m : ℕ) : ℝ := (1/2) / √π * √((2 * m + 1) / (Nat.factorial (2 * m) : ℝ))

/-- math_sphharm.cpp:22-60: `legendrePmm`. The tabulated constants (lines 32-36) are replaced by the formula. -/
noncomputable def legendrePmm (m : ℕ) (ct st : ℝ) : LegOut :=
  let prefact := prefact0 m
  if m = 0 then ⟨prefact, 0, 0⟩
  else if m = 1 then ⟨-st * prefact, -ct * prefact, st * prefact⟩
  else
    let coef := prefact * (Nat.doubleFactorial (2 * m - 1) : ℝ) * (if m % 2 = 1 then -1 else 1)
    let sinm2 := st ^ (m - 2)
    ⟨coef * sinm2 * st ^ 2, m * coef * sinm2 * st * ct, m * coef * sinm2 * (m * ct ^ 2 - 1)⟩

/-- Local variables of the loop math_sphharm.cpp:91-130. -/
structure LegState where
  prefact : ℝ
  plm : ℝ
  plm1 : ℝ
  plm2 : ℝ
  d2plm : ℝ
  d2plm1 : ℝ
  d2plm2 : ℝ

/-- math_sphharm.cpp:89: threshold in sin(theta). -/
noncomputable def EPS : ℝ := 1 / 10 ^ 8

/-- math_sphharm.cpp:100-108: derivative of the un-normalized function. -/
noncomputable def dPlm (l m : ℕ) (ct st plm plm1 : ℝ) : ℝ :=
  if st ≥ EPS ∨ (m > 2 ∧ st > 0) then (l * ct * plm - (l + m) * plm1) / st
  else if m = 0 then -(l * (l + 1)) / 2 * st * (if ct > 0 ∨ l % 2 = 1 then 1 else -1)
  else if m = 1 then -(l * (l + 1)) / 2 * (if ct > 0 ∨ l % 2 = 0 then 1 else -1)
  else if m = 2 then ((l : ℝ) * (l + 1) * (l + 2) * (l - 1)) / 4 * st * (if ct > 0 ∨ l % 2 = 1 then 1 else -1)
  else 0

/-- math_sphharm.cpp:91-130: one iteration of the loop, for the given l. The integer quotients l(l+1)/2 and
(l-1)l(l+1)(l+2)/4 are exact, and the int overflow of the latter for l > 214 is not modelled. -/
noncomputable def legStep (l m : ℕ) (ct st : ℝ) (s : LegState) : LegState × LegOut :=
  let plm := if l > m + 1 then (ct * (2 * l - 1) * s.plm1 - (l + m - 1) * s.plm2) / (l - m) else s.plm
  let prefact := s.prefact * √((2 * l + 1) / (2 * l - 1) * (l - m) / (l + m))
  let val := plm * prefact
  let der := prefact * dPlm l m ct st plm s.plm1
  let small := ¬ (st ≥ EPS ∨ (m > 2 ∧ st > 0))
  -- lines 117-122
  let d2plm := if l > m + 1 then
      ((2 * l - 1) * (ct * (s.d2plm1 - s.plm1) - st * (-(l * (l - 1)) * (if ct > 0 ∨ l % 2 = 1 then 1 else -1)))
        - l * s.d2plm2) / (l - 1)
    else s.d2plm
  open Classical in
  let der2 :=
    if ¬ small then ct * der / (-st) - (l * (l + 1) - (m / st) ^ 2) * val
    else if m = 0 then -(l * (l + 1)) / 2 * prefact * (if ct > 0 ∨ l % 2 = 0 then 1 else -1)
    else if m = 1 then prefact * d2plm
    else if m = 2 then ((l : ℝ) * (l + 1) * (l + 2) * (l - 1)) / 4 * prefact * (if ct > 0 ∨ l % 2 = 0 then 1 else -1)
    else 0
  open Classical in
  (if small ∧ m = 1 then ⟨prefact, plm, plm, s.plm1, d2plm, d2plm, s.d2plm1⟩
   else ⟨prefact, plm, plm, s.plm1, s.d2plm, s.d2plm1, s.d2plm2⟩, ⟨val, der, der2⟩)

/-- math_sphharm.cpp:91: the loop, `k` more iterations starting from `l`. -/
noncomputable def legLoop (m : ℕ) (ct st : ℝ) : ℕ → ℕ → LegState → List LegOut
  | 0, _, _ => []
  | k + 1, l, s => (legStep l m ct st s).2 :: legLoop m ct st k (l + 1) (legStep l m ct st s).1

/-- math_sphharm.cpp:62-131: `sphHarmArray` with all three output arrays given; `none` stands for an exception. -/
noncomputable def sphHarmArray (lmax m : ℕ) (tau : ℝ) : Option (List LegOut) :=
  if m > lmax then none
  else if lmax = 0 then some [⟨(1/2) / √π, 0, 0⟩]
  else
    let ct := 2 * tau / (1 + tau * tau)
    let st := (1 - tau * tau) / (1 + tau * tau)
    let first := legendrePmm m ct st
    let prefact := prefact0 m
    if lmax = m then some [first]
    else
      let plm1 := first.val / prefact
      some (first :: legLoop m ct st (lmax - m) (m + 1)
        ⟨prefact, ct * (2 * m + 1) * plm1, plm1, 0, 12 * ct * st, st, 0⟩)

/-! ## The polynomials behind the recurrence -/

/-- The polynomial factor: P_l^m = (-1)^m (2m-1)!! sin^m(theta) Q(cos theta), l = m+n. -/
noncomputable def Q (m : ℕ) (x : ℝ) : ℕ → ℝ
  | 0 => 1
  | 1 => (2 * m + 1) * x
  | n + 2 => (x * (2 * (m + n + 2 : ℕ) - 1) * Q m x (n + 1) - ((m + n + 2 : ℕ) + m - 1) * Q m x n) / (n + 2)

noncomputable def dQ (m : ℕ) (x : ℝ) : ℕ → ℝ
  | 0 => 0
  | 1 => 2 * m + 1
  | n + 2 => ((2 * (m + n + 2 : ℕ) - 1) * (Q m x (n + 1) + x * dQ m x (n + 1)) - ((m + n + 2 : ℕ) + m - 1) * dQ m x n)
      / (n + 2)

theorem hasDerivAt_Q (m : ℕ) (x : ℝ) : ∀ n, HasDerivAt (fun y => Q m y n) (dQ m x n) x
  | 0 => by simp only [Q, dQ]; exact hasDerivAt_const x 1
  | 1 => by simp only [Q, dQ]; simpa using (hasDerivAt_id x).const_mul (2 * (m : ℝ) + 1)
  | n + 2 => by
    have h1 := hasDerivAt_Q m x (n + 1)
    have h0 := hasDerivAt_Q m x n
    simp only [Q, dQ]
    have := ((((hasDerivAt_id x).mul_const (2 * ((m + n + 2 : ℕ) : ℝ) - 1)).mul h1).sub
      (h0.const_mul (((m + n + 2 : ℕ) : ℝ) + m - 1))).div_const ((n : ℝ) + 2)
    refine this.congr_deriv ?_
    simp only [id]; ring

theorem differentiable_dQ (m : ℕ) (x : ℝ) : ∀ n, DifferentiableAt ℝ (fun y => dQ m y n) x
  | 0 => by simp only [dQ]; exact differentiableAt_const _
  | 1 => by simp only [dQ]; exact differentiableAt_const _
  | n + 2 => by
    have h1 := differentiable_dQ m x (n + 1)
    have h0 := differentiable_dQ m x n
    have q := (hasDerivAt_Q m x (n + 1)).differentiableAt
    simp only [dQ]
    exact ((((q.add (differentiableAt_id.mul h1)).const_mul _)).sub (h0.const_mul _)).div_const _

theorem Q_rec (m : ℕ) (x : ℝ) (n : ℕ) : ((n : ℝ) + 2) * Q m x (n + 2) =
    x * (2 * m + 2 * n + 3) * Q m x (n + 1) - (2 * m + n + 1) * Q m x n := by
  have : ((n : ℝ) + 2) ≠ 0 := by positivity
  rw [Q]; push_cast; field_simp; ring

theorem dQ_rec (m : ℕ) (x : ℝ) (n : ℕ) : ((n : ℝ) + 2) * dQ m x (n + 2) =
    (2 * m + 2 * n + 3) * (Q m x (n + 1) + x * dQ m x (n + 1)) - (2 * m + n + 1) * dQ m x n := by
  have : ((n : ℝ) + 2) ≠ 0 := by positivity
  rw [dQ]; push_cast; field_simp; ring

/-- (x²-1) Q' by the two neighbours. -/
theorem dQ_ident (m : ℕ) (x : ℝ) : ∀ n : ℕ,
    (x ^ 2 - 1) * dQ m x (n + 1) = (n + 1) * x * Q m x (n + 1) - (n + 1 + 2 * m) * Q m x n ∧
    (x ^ 2 - 1) * dQ m x n = (n + 1) * Q m x (n + 1) - (n + 1 + 2 * m) * x * Q m x n
  | 0 => by
    constructor
    · simp only [Q, dQ]; push_cast; ring
    · simp only [Q, dQ]; push_cast; ring
  | n + 1 => by
    obtain ⟨h1, h2⟩ := dQ_ident m x n
    have r := Q_rec m x n
    have dr := dQ_rec m x n
    have hn : ((n : ℝ) + 2) ≠ 0 := by positivity
    constructor
    · apply mul_left_cancel₀ hn
      rw [show n + 1 + 1 = n + 2 from rfl]
      push_cast
      linear_combination (x ^ 2 - 1) * dr + (2 * m + 2 * n + 3) * x * h1 - (2 * m + n + 1) * h2 -
        ((n : ℝ) + 2) * x * r
    · rw [show n + 1 + 1 = n + 2 from rfl]
      push_cast
      linear_combination h1 - r

theorem Q_neg (m : ℕ) (x : ℝ) : ∀ n, Q m (-x) n = (-1) ^ n * Q m x n
  | 0 => by simp [Q]
  | 1 => by simp [Q]
  | n + 2 => by
    have h1 := Q_neg m x (n + 1)
    have h0 := Q_neg m x n
    rw [Q, Q, h1, h0, pow_succ, pow_succ]; ring

theorem dQ_neg (m : ℕ) (x : ℝ) : ∀ n, dQ m (-x) n = (-1) ^ (n + 1) * dQ m x n
  | 0 => by simp [dQ]
  | 1 => by simp [dQ]
  | n + 2 => by
    have h1 := dQ_neg m x (n + 1)
    have h0 := dQ_neg m x n
    have q := Q_neg m x (n + 1)
    rw [dQ, dQ, h1, h0, q, pow_succ, pow_succ, pow_succ]; ring

/-- Values at the pole: Q(1) = binomial(l+m, 2m). -/
theorem Q_one (m : ℕ) : ∀ n, Q m 1 n = (Nat.choose (2 * m + n) (2 * m) : ℝ)
  | 0 => by simp [Q]
  | 1 => by simp [Q]
  | n + 2 => by
    have h1 := Q_one m (n + 1)
    have h0 := Q_one m n
    have r := Q_rec m 1 n
    have hn : ((n : ℝ) + 2) ≠ 0 := by positivity
    apply mul_left_cancel₀ hn
    rw [r, h1, h0]
    have a : ∀ k : ℕ, ((k : ℝ) + 1) * (Nat.choose (2 * m + (k + 1)) (2 * m) : ℝ) =
        (2 * m + k + 1) * (Nat.choose (2 * m + k) (2 * m) : ℝ) := by
      intro k
      have := Nat.add_one_mul_choose_eq (2 * m + k) k
      have e1 : Nat.choose (2 * m + k) k = Nat.choose (2 * m + k) (2 * m) := by
        rw [← Nat.choose_symm (show k ≤ 2 * m + k by omega)]; congr 1; omega
      have e2 : Nat.choose (2 * m + k).succ k.succ = Nat.choose (2 * m + (k + 1)) (2 * m) := by
        rw [← Nat.choose_symm (show k.succ ≤ (2 * m + k).succ by omega)]; congr 1; omega
      rw [e1, e2] at this
      have h : (((2 * m + k).succ * (2 * m + k).choose (2 * m) : ℕ) : ℝ) =
        (((2 * m + (k + 1)).choose (2 * m) * k.succ : ℕ) : ℝ) := by rw [this]
      push_cast at h
      linarith
    have a1 := a (n + 1)
    have a0 := a n
    push_cast at a1
    rw [show 2 * m + (n + 2) = 2 * m + (n + 1 + 1) by ring]
    linear_combination (-1 : ℝ) * a1 + a0

theorem dQ_one_zero : ∀ n, dQ 0 1 n = n * (n + 1) / 2
  | 0 => by simp [dQ]
  | 1 => by simp [dQ]
  | n + 2 => by
    have h1 := dQ_one_zero (n + 1)
    have h0 := dQ_one_zero n
    have r := dQ_rec 0 1 n
    have q := Q_one 0 (n + 1)
    have hn : ((n : ℝ) + 2) ≠ 0 := by positivity
    apply mul_left_cancel₀ hn
    rw [r, h1, h0, q]
    push_cast
    simp
    ring

end Verif.SphHarm
