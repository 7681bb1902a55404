import Mathlib.Analysis.SpecialFunctions.Pow.Real
import Mathlib.Data.Real.Sqrt
import Mathlib.Data.Real.Archimedean
import Mathlib.Algebra.BigOperators.Group.List.Basic
import Mathlib.Tactic.Ring
import Mathlib.Tactic.FieldSimp
import Mathlib.Tactic.Linarith
import Mathlib.Tactic.NormNum

/-! Elementary routines of /repo/src/math_core.{h,cpp}: integer powers, angle wrapping, running average,
linear and quadratic equations, approximate comparison. Numbers are exact (E). -/
namespace Verif.Core

/-! ### C12: integer powers -/

section Pow
variable {K : Type} [Field K]

/-- math_core.cpp:123-127, the do-while loop on a (32-bit) integer `n`; `n%2` is the C remainder
(sign of the dividend), `n >>= 1` the arithmetic shift; `none` if the loop has not ended after `fuel`
iterations. -/
def powLoop : Nat → K → Int → K → Option K
  | 0, _, _, _ => none
  | fuel+1, x, n, result =>
    let result := if n.tmod 2 ≠ 0 then result * x else result
    let n := n >>> (1 : Nat)
    let x := x * x
    if n ≠ 0 then powLoop fuel x n result else some result

/-- `-n` in 32-bit two's complement: wraps for `INT_MIN` (formally undefined behaviour). -/
def neg32 (n : Int) : Int := if n = -2147483648 then n else -n

/-- math_core.cpp:116-129, `pow(double x, int n)`. -/
def powInt (fuel : Nat) (x : K) (n : Int) : Option K :=
  if n < 0 then powLoop fuel (1/x) (neg32 n) 1 else powLoop fuel x n 1

theorem powLoop_nat (fuel : Nat) (x r : K) (n : Nat) (hf : n < 2 ^ fuel) (hf0 : 0 < fuel) :
    powLoop fuel x n r = some (r * x ^ n) := by
  induction fuel generalizing x r n with
  | zero => omega
  | succ fuel ih =>
    unfold powLoop
    simp only
    have hshift : (n : Int) >>> (1 : Nat) = ((n / 2 : Nat) : Int) := by
      rw [Int.shiftRight_eq_div_pow]; norm_num
    have hmod : (n : Int).tmod 2 = ((n % 2 : Nat) : Int) := by
      rw [Int.tmod_eq_emod_of_nonneg (by omega)]; norm_num
    rw [hshift, hmod]
    by_cases h2 : n / 2 = 0
    · rw [if_neg (by simp [h2])]
      have hn : n = 0 ∨ n = 1 := by omega
      rcases hn with rfl | rfl <;> simp
    · rw [if_pos (by exact_mod_cast h2)]
      have hfp : 0 < fuel := by
        rcases Nat.eq_zero_or_pos fuel with h | h
        · subst h; omega
        · exact h
      rw [ih (x * x) _ (n / 2) (by rw [pow_succ] at hf; omega) hfp]
      congr 1
      rcases Nat.mod_two_eq_zero_or_one n with h | h
      · rw [if_neg (by simp [h])]
        conv_rhs => rw [← Nat.div_add_mod n 2, h, add_zero, pow_mul, pow_two]
      · rw [if_pos (by simp [h])]
        conv_rhs => rw [← Nat.div_add_mod n 2, h, pow_succ, pow_mul, pow_two]
        ring

/-- C12. For every 32-bit integer `n` other than `INT_MIN`, and every `x` (non-zero if `n<0`), the loop
ends within 32 iterations and gives `x^n`. -/
theorem C12_pow_partial (x : K) (n : Int) (h1 : -2147483648 < n) (h2 : n ≤ 2147483647) (_hx : n < 0 → x ≠ 0) :
    powInt 32 x n = some (x ^ n) := by
  unfold powInt
  by_cases hn : n < 0
  · rw [if_pos hn]
    unfold neg32
    rw [if_neg (by omega)]
    obtain ⟨m, rfl⟩ : ∃ m : Nat, n = -(m : Int) := ⟨n.natAbs, by omega⟩
    rw [neg_neg, powLoop_nat 32 (1/x) 1 m (by omega) (by omega)]
    congr 1
    rw [one_mul, one_div, inv_pow, zpow_neg, zpow_natCast]
  · rw [if_neg hn]
    obtain ⟨m, rfl⟩ : ∃ m : Nat, n = (m : Int) := ⟨n.toNat, by omega⟩
    rw [powLoop_nat 32 x 1 m (by omega) (by omega)]
    simp

example : powInt 32 (2 : ℚ) (-3) = some (1/8) := by
  rw [C12_pow_partial 2 (-3) (by omega) (by omega) (by norm_num)]; norm_num

theorem powLoop_neg (fuel : Nat) (x r : K) (n : Int) (hn : n < 0) : powLoop fuel x n r = none := by
  induction fuel generalizing x r n with
  | zero => rfl
  | succ fuel ih =>
    unfold powLoop
    simp only
    have hs : n >>> (1 : Nat) < 0 := by
      rw [Int.shiftRight_eq_div_pow]; norm_num; omega
    rw [if_pos (by omega)]
    exact ih _ _ _ hs

/-- C12, the remaining case: for `n = INT_MIN` the negation wraps around and the loop never ends. -/
theorem C12_refuted_intmin (x : K) (fuel : Nat) : powInt fuel x (-2147483648) = none := by
  unfold powInt neg32
  rw [if_pos (by norm_num), if_pos rfl]
  exact powLoop_neg _ _ _ _ (by norm_num)

end Pow

/-- math_core.cpp:131-143, `pow(double, double)`, with `std::pow` as the real power. -/
noncomputable def powReal (x n : ℝ) : ℝ :=
  if n = 0 then 1 else if n = 1 then x else if n = -1 then 1/x else if n = 2 then x*x else
  if n = -2 then 1/(x*x) else if n = 0.5 then Real.sqrt x else if n = -0.5 then 1/Real.sqrt x else
  if n = 3 then x*x*x else if n = -3 then 1/(x*x*x) else x ^ n

/-- C12. The shortcuts of `pow(x, double n)` agree with the general formula for every positive base and
every exponent. -/
theorem C12_pow_shortcuts (x n : ℝ) (hx : 0 < x) : powReal x n = x ^ n := by
  unfold powReal
  split_ifs with h0 h1 h2 h3 h4 h5 h6 h7 h8
  · rw [h0, Real.rpow_zero]
  · rw [h1, Real.rpow_one]
  · rw [h2, Real.rpow_neg hx.le, Real.rpow_one, one_div]
  · rw [h3, Real.rpow_two]; ring
  · rw [h4, Real.rpow_neg hx.le, Real.rpow_two, one_div]; ring
  · rw [h5, Real.sqrt_eq_rpow]; norm_num
  · rw [h6, Real.sqrt_eq_rpow, Real.rpow_neg hx.le, one_div]; norm_num
  · rw [h7, show (3:ℝ) = ((3:ℕ):ℝ) by norm_num, Real.rpow_natCast]; ring
  · rw [h8, show (-3:ℝ) = -((3:ℕ):ℝ) by norm_num, Real.rpow_neg hx.le, Real.rpow_natCast, one_div]; ring
  · rfl

/-! ### C13: angles -/

/-- math_core.cpp:145-154 with arbitrary rounding: `rnd` gives the stored result of each floating-point operation on the
exact values (`none` = NaN, which compares false); `P` is the value of the constant `2*M_PI` and `invP` that of
`1/(2*M_PI)`. `floor` is exact. -/
noncomputable def wrapAngleR (rnd : ℝ → Option ℝ) (P invP x : ℝ) : ℝ :=
  let y : Option ℝ := (rnd (invP * x)).bind fun q => (rnd (P * ⌊q⌋)).bind fun d => rnd (x - d)
  match y with
  | some y => if 0 ≤ y ∧ y < P then y else 0
  | none => 0

/-- math_core.cpp:145-154 in exact arithmetic. -/
noncomputable def wrapAngle (P x : ℝ) : ℝ := wrapAngleR some P (1 / P) x

/-- math_core.cpp:156-165; `modf(d,&n)` stores the integer part truncated toward zero. -/
noncomputable def truncZ (y : ℝ) : Int := if 0 ≤ y then ⌊y⌋ else ⌈y⌉

noncomputable def unwrapAngle (P x xprev : ℝ) : ℝ :=
  let diff := (x - xprev) / P
  let nwraps : Int := if diff > 0.5 then truncZ (diff + 0.5) else if diff < -0.5 then truncZ (diff - 0.5) else 0
  x - P * nwraps

/-- C13. -/
theorem C13_wrapAngle (P x : ℝ) (hP : 0 < P) :
    0 ≤ wrapAngle P x ∧ wrapAngle P x < P ∧ ∃ n : Int, x - wrapAngle P x = n * P := by
  unfold wrapAngle wrapAngleR
  simp only [Option.bind_some]
  have e : 1 / P * x = x / P := by ring
  have h1 : (⌊x / P⌋ : ℝ) ≤ x / P := Int.floor_le _
  have h2 : x / P < ⌊x / P⌋ + 1 := Int.lt_floor_add_one _
  rw [e]
  have h3 : P * ⌊x / P⌋ ≤ x := by
    have := mul_le_mul_of_nonneg_left h1 hP.le
    rwa [mul_div_cancel₀ _ hP.ne'] at this
  have h4 : x < P * ⌊x / P⌋ + P := by
    have := mul_lt_mul_of_pos_left h2 hP
    rw [mul_div_cancel₀ _ hP.ne'] at this
    linarith
  rw [if_pos ⟨by linarith, by linarith⟩]
  exact ⟨by linarith, by linarith, ⌊x / P⌋, by ring⟩

/-- C13, robust form: however the floating-point operations are rounded, the result is in the documented range; and it
is either 0 or the rounded difference between the angle and a rounded whole number of periods. -/
theorem C13_wrapAngle_range_any_rounding (rnd : ℝ → Option ℝ) (P invP x : ℝ) (hP : 0 < P) :
    0 ≤ wrapAngleR rnd P invP x ∧ wrapAngleR rnd P invP x < P ∧
    (wrapAngleR rnd P invP x = 0 ∨
      ∃ (n : Int) (d : ℝ), rnd (P * n) = some d ∧ rnd (x - d) = some (wrapAngleR rnd P invP x)) := by
  unfold wrapAngleR
  simp only
  cases h1 : rnd (invP * x) with
  | none => exact ⟨le_rfl, hP, Or.inl rfl⟩
  | some q =>
    simp only [Option.bind_some]
    cases h2 : rnd (P * ⌊q⌋) with
    | none => exact ⟨le_rfl, hP, Or.inl rfl⟩
    | some d =>
      simp only [Option.bind_some]
      cases h3 : rnd (x - d) with
      | none => exact ⟨le_rfl, hP, Or.inl rfl⟩
      | some y =>
        simp only
        split_ifs with h
        · exact ⟨h.1, h.2, Or.inr ⟨_, d, h2, h3⟩⟩
        · exact ⟨le_rfl, hP, Or.inl rfl⟩

/-- C13. The unwrapped angle is within half a period of the previous one and differs from the input by
a whole number of periods; an input already within half a period is unchanged. -/
theorem C13_unwrapAngle (P x xprev : ℝ) (hP : 0 < P) :
    |unwrapAngle P x xprev - xprev| ≤ P / 2 ∧ (∃ n : Int, x - unwrapAngle P x xprev = n * P) ∧
    (|x - xprev| ≤ P / 2 → unwrapAngle P x xprev = x) := by
  have hdiff : x - xprev = P * ((x - xprev) / P) := by rw [mul_div_cancel₀ _ hP.ne']
  unfold unwrapAngle
  simp only
  generalize (x - xprev) / P = d at *
  have hx : x = xprev + P * d := by linarith
  refine ⟨?_, ⟨_, by rw [sub_sub_cancel, mul_comm]⟩, ?_⟩
  · have key : ∀ n : Int, |d - n| ≤ 1/2 → |x - P * n - xprev| ≤ P / 2 := by
      intro n hn
      have : x - P * n - xprev = P * (d - n) := by rw [hx]; ring
      rw [this, abs_mul, abs_of_pos hP]
      nlinarith
    split_ifs with h1 h2
    · apply key
      unfold truncZ
      rw [if_pos (by linarith)]
      obtain ⟨n, hn, a1, a2⟩ : ∃ n : ℤ, ⌊d + 0.5⌋ = n ∧ (n:ℝ) ≤ d + 0.5 ∧ d + 0.5 < n + 1 :=
        ⟨_, rfl, Int.floor_le _, Int.lt_floor_add_one _⟩
      rw [hn]
      rw [abs_le]; constructor <;> norm_num at * <;> linarith
    · apply key
      unfold truncZ
      rw [if_neg (by norm_num at *; linarith)]
      obtain ⟨n, hn, a1, a2⟩ : ∃ n : ℤ, ⌈d - 0.5⌉ = n ∧ d - 0.5 ≤ n ∧ (n:ℝ) < d - 0.5 + 1 :=
        ⟨_, rfl, Int.le_ceil _, Int.ceil_lt_add_one _⟩
      rw [hn]
      rw [abs_le]; constructor <;> norm_num at * <;> linarith
    · apply key
      rw [abs_le]; constructor <;> norm_num at * <;> linarith
  · intro h
    rw [hdiff, abs_mul, abs_of_pos hP] at h
    have hd : |d| ≤ 1/2 := by
      by_contra hc
      push Not at hc
      nlinarith
    rw [abs_le] at hd
    rw [if_neg (by norm_num at *; linarith), if_neg (by norm_num at *; linarith)]
    simp

example : (0 : ℝ) < 6.283 := by norm_num

/-! ### C14: running average -/

/-- math_core.h:88-109, class Averager. -/
structure Averager (K : Type) where
  avg : K
  ssq : K
  num : Nat

section Avg
variable {K : Type} [Field K] [CharZero K]

/-- math_core.h:90 -/
def Averager.init : Averager K := ⟨0, 0, 0⟩

/-- math_core.h:92-97 -/
def Averager.add (s : Averager K) (value : K) : Averager K :=
  let diff := value - s.avg
  let avg := s.avg + diff / ((s.num + 1 : ℕ) : K)
  ⟨avg, s.ssq + diff * (value - avg), s.num + 1⟩

/-- math_core.h:100, 103, 105 -/
def Averager.mean (s : Averager K) : K := s.avg
def Averager.disp (s : Averager K) : K := if s.num > 1 then s.ssq / ((s.num - 1 : ℕ) : K) else 0
def Averager.count (s : Averager K) : Nat := s.num

/-- Specification: the arithmetic mean of a list, and the sum of squared deviations from a value. -/
def meanOf (l : List K) : K := l.sum / (l.length : K)
def ssqOf (l : List K) (m : K) : K := (l.map (fun x => (x - m) ^ 2)).sum

theorem ssqOf_expand (l : List K) (m : K) :
    ssqOf l m = (l.map (fun x => x ^ 2)).sum - 2 * m * l.sum + l.length * m ^ 2 := by
  unfold ssqOf
  induction l with
  | nil => simp
  | cons a l ih => simp only [List.map_cons, List.sum_cons, List.length_cons]; rw [ih]; push_cast; ring

theorem avg_inv (l : List K) :
    let s := l.foldl Averager.add (Averager.init : Averager K)
    s.num = l.length ∧ s.avg * l.length = l.sum ∧ s.ssq = ssqOf l s.avg := by
  induction l using List.reverseRecOn with
  | nil => simp [Averager.init, ssqOf]
  | append_singleton l a ih =>
    rw [List.foldl_append]
    simp only [List.foldl_cons, List.foldl_nil]
    generalize List.foldl Averager.add (Averager.init : Averager K) l = s at ih
    obtain ⟨h1, h2, h3⟩ := ih
    have hn : ((s.num + 1 : ℕ) : K) ≠ 0 := Nat.cast_ne_zero.2 (Nat.succ_ne_zero _)
    have hn' : (s.num : K) + 1 ≠ 0 := by have := hn; push_cast at this; exact this
    rw [← h1] at h2
    refine ⟨by simp [Averager.add, h1], ?_, ?_⟩
    · simp only [Averager.add, List.length_append, List.length_cons, List.length_nil, List.sum_append,
        List.sum_cons, List.sum_nil, ← h1, ← h2]
      push_cast
      field_simp
      ring
    · simp only [Averager.add]
      rw [ssqOf_expand, h3, ssqOf_expand, ← h1, ← h2]
      simp only [List.map_append, List.map_cons, List.map_nil, List.sum_append, List.sum_cons, List.sum_nil,
        List.length_append, List.length_cons, List.length_nil, ← h1, ← h2]
      push_cast
      field_simp
      ring

/-- C14. After any sequence of additions: the count, the arithmetic mean, and the unbiased variance
(divided by N-1, not by N as the header comment says), zero for fewer than two numbers. -/
theorem C14_averager (l : List K) :
    let s := l.foldl Averager.add (Averager.init : Averager K)
    s.count = l.length ∧ (l ≠ [] → s.mean = meanOf l) ∧
    (2 ≤ l.length → s.disp = ssqOf l (meanOf l) / ((l.length - 1 : ℕ) : K)) ∧
    (l.length < 2 → s.disp = 0) := by
  intro s
  obtain ⟨h1, h2, h3⟩ := avg_inv l
  have hmean : l ≠ [] → s.avg = meanOf l := by
    intro hne
    have hl : (l.length : K) ≠ 0 := by
      have : l.length ≠ 0 := by simpa using hne
      exact_mod_cast this
    unfold meanOf
    rw [eq_div_iff hl]; exact h2
  refine ⟨h1, hmean, ?_, ?_⟩
  · intro h
    have hne : l ≠ [] := by rintro rfl; simp at h
    unfold Averager.disp
    rw [h1, if_pos (by omega), h3, hmean hne]
  · intro h
    unfold Averager.disp
    rw [h1, if_neg (by omega)]

example : ([1, 2, 6] : List ℚ).foldl Averager.add Averager.init = ⟨3, 14, 3⟩ := by
  simp [Averager.add, Averager.init]; norm_num

end Avg

/-! ### C15: linear and quadratic equations -/

/-- math_core.h:327-333, `solveLinear`: list of the stored roots. -/
noncomputable def solveLinear (a1 a0 : ℝ) : List ℝ :=
  if a1 = 0 ∧ a0 ≠ 0 then [] else [if a1 ≠ 0 then -a0 / a1 else 0]

/-- math_core.cpp:658-674, `solveQuadratic`. -/
noncomputable def solveQuadratic (a2 a1 a0 : ℝ) : List ℝ :=
  if a2 = 0 then solveLinear a1 a0 else
  let d := a1 * a1 - 4 * a0 * a2
  if ¬ (d ≥ 0) then [] else
  if d = 0 then [-0.5 * a1 / a2] else
  let t := -0.5 * (a1 + (if a1 ≥ 0 then 1 else -1) * Real.sqrt d)
  let r1 := t / a2
  let r2 := a0 / t
  [if r1 < r2 then r1 else r2, if r1 < r2 then r2 else r1]

theorem C15_linear (a1 a0 : ℝ) (h : a1 ≠ 0 ∨ a0 ≠ 0) :
    (solveLinear a1 a0).Pairwise (· < ·) ∧ ∀ x, x ∈ solveLinear a1 a0 ↔ a1 * x + a0 = 0 := by
  unfold solveLinear
  by_cases h1 : a1 = 0
  · have h0 : a0 ≠ 0 := by rcases h with h | h; exact absurd h1 h; exact h
    rw [if_pos ⟨h1, h0⟩]
    refine ⟨List.Pairwise.nil, fun x => ?_⟩
    rw [h1]; simp [h0]
  · rw [if_neg (by tauto), if_pos h1]
    refine ⟨by simp, fun x => ?_⟩
    rw [List.mem_singleton, eq_div_iff h1]
    constructor <;> intro h <;> linarith

/-- C15. Exactly the distinct real roots, in increasing order, for every equation that is not the
identity 0 = 0. -/
theorem C15_quadratic (a2 a1 a0 : ℝ) (h : a2 ≠ 0 ∨ a1 ≠ 0 ∨ a0 ≠ 0) :
    (solveQuadratic a2 a1 a0).Pairwise (· < ·) ∧
    ∀ x, x ∈ solveQuadratic a2 a1 a0 ↔ a2 * x ^ 2 + a1 * x + a0 = 0 := by
  unfold solveQuadratic
  by_cases h2 : a2 = 0
  · rw [if_pos h2, h2]
    have := C15_linear a1 a0 (by rcases h with h | h; exact absurd h2 h; exact h)
    refine ⟨this.1, fun x => ?_⟩
    rw [this.2]; constructor <;> intro h <;> linarith
  · rw [if_neg h2]
    simp only
    have hfac : ∀ x : ℝ, 4 * a2 * (a2 * x ^ 2 + a1 * x + a0) = (2 * a2 * x + a1) ^ 2 - (a1 * a1 - 4 * a0 * a2) := by
      intro x; ring
    have h4 : 4 * a2 ≠ 0 := by simpa using h2
    generalize hd : a1 * a1 - 4 * a0 * a2 = d at *
    by_cases hneg : ¬ (d ≥ 0)
    · rw [if_pos hneg]
      refine ⟨List.Pairwise.nil, fun x => ?_⟩
      simp only [List.not_mem_nil, false_iff]
      intro hx
      have := hfac x
      rw [hx, mul_zero] at this
      nlinarith [sq_nonneg (2 * a2 * x + a1)]
    · rw [if_neg hneg]
      rw [not_not] at hneg
      by_cases hz : d = 0
      · rw [if_pos hz]
        refine ⟨by simp, fun x => ?_⟩
        rw [List.mem_singleton]
        have hx := hfac x
        rw [hz, sub_zero] at hx
        constructor
        · intro he
          have : 2 * a2 * x + a1 = 0 := by rw [he]; field_simp; norm_num
          rw [this] at hx
          have : 4 * a2 * (a2 * x ^ 2 + a1 * x + a0) = 0 := by rw [hx]; norm_num
          exact (mul_eq_zero.1 this).resolve_left h4
        · intro he
          rw [he, mul_zero] at hx
          have : 2 * a2 * x + a1 = 0 := by
            have := hx.symm
            exact pow_eq_zero_iff (two_ne_zero) |>.1 this
          rw [eq_div_iff h2]; norm_num; linarith
      · rw [if_neg hz]
        have hdp : 0 < d := lt_of_le_of_ne hneg (Ne.symm hz)
        set s := Real.sqrt d with hs
        have hsp : 0 < s := Real.sqrt_pos.2 hdp
        have hss : s * s = d := Real.mul_self_sqrt hneg
        obtain ⟨σ, hσ, hσ2, ht⟩ : ∃ σ : ℝ, (if a1 ≥ 0 then (1:ℝ) else -1) = σ ∧ σ * σ = 1 ∧ a1 + σ * s ≠ 0 := by
          by_cases ha : a1 ≥ 0
          · exact ⟨1, by rw [if_pos ha], by norm_num, by nlinarith⟩
          · exact ⟨-1, by rw [if_neg ha], by norm_num, by push Not at ha; nlinarith⟩
        rw [hσ]
        have ht' : -0.5 * (a1 + σ * s) ≠ 0 := mul_ne_zero (by norm_num) ht
        have hr1 : -0.5 * (a1 + σ * s) / a2 = (-a1 - σ * s) / (2 * a2) := by field_simp; ring
        have hr2 : a0 / (-0.5 * (a1 + σ * s)) = (-a1 + σ * s) / (2 * a2) := by
          rw [div_eq_div_iff ht' (by simpa using h2)]
          have : (σ * s) * (σ * s) = d := by rw [← hss]; linear_combination (s * s) * hσ2
          rw [show (-0.5 : ℝ) = -(1/2) by norm_num]
          linear_combination (1/2 : ℝ) * this - (1/2:ℝ) * hd
        rw [hr1, hr2]
        have hne : (-a1 - σ * s) / (2 * a2) ≠ (-a1 + σ * s) / (2 * a2) := by
          intro he
          rw [div_left_inj' (by simpa using h2)] at he
          have : σ * s = 0 := by linarith
          rcases mul_eq_zero.1 this with h | h
          · rw [h] at hσ2; norm_num at hσ2
          · exact hsp.ne' h
        have hroots : ∀ x, (x = (-a1 - σ * s) / (2 * a2) ∨ x = (-a1 + σ * s) / (2 * a2)) ↔
            a2 * x ^ 2 + a1 * x + a0 = 0 := by
          intro x
          have hx := hfac x
          have e : (2 * a2 * x + a1) ^ 2 - d = (2 * a2 * x + a1 + σ * s) * (2 * a2 * x + a1 - σ * s) := by
            linear_combination hss + s * s * hσ2
          rw [e] at hx
          have h2a : 2 * a2 ≠ 0 := by simpa using h2
          constructor
          · rintro (h | h)
            · rw [eq_div_iff h2a] at h
              have h0 : 2 * a2 * x + a1 + σ * s = 0 := by linarith
              rw [h0, zero_mul] at hx
              exact (mul_eq_zero.1 hx).resolve_left h4
            · rw [eq_div_iff h2a] at h
              have h0 : 2 * a2 * x + a1 - σ * s = 0 := by linarith
              rw [h0, mul_zero] at hx
              exact (mul_eq_zero.1 hx).resolve_left h4
          · intro h0
            rw [h0, mul_zero] at hx
            rcases mul_eq_zero.1 hx.symm with h | h
            · left; rw [eq_div_iff h2a]; linarith
            · right; rw [eq_div_iff h2a]; linarith
        generalize (-a1 - σ * s) / (2 * a2) = r1 at *
        generalize (-a1 + σ * s) / (2 * a2) = r2 at *
        by_cases hlt : r1 < r2
        · rw [if_pos hlt, if_pos hlt]
          refine ⟨by simpa using hlt, fun x => ?_⟩
          rw [← hroots x]; simp
        · rw [if_neg hlt, if_neg hlt]
          refine ⟨by simpa using lt_of_le_of_ne (not_lt.1 hlt) (Ne.symm hne), fun x => ?_⟩
          rw [← hroots x]; simp [or_comm]

example : (1 : ℝ) * 2 ^ 2 + (-3) * 2 + 2 = 0 := by norm_num

/-! ### C39: approximate comparison -/

/-- gsl_fcmp (GSL, `gsl_sys`): compares the difference with `delta`, which GSL computes as
`eps * 2^k` with `k` the exponent of the larger magnitude: a nonnegative function symmetric in x,y. -/
noncomputable def gslFcmp (delta : ℝ → ℝ → ℝ) (x y : ℝ) : Int :=
  if x - y > delta x y then 1 else if x - y < -delta x y then -1 else 0

/-- math_core.cpp:103-114, `fcmp`; `none` is NaN (NaN compares unequal to zero). -/
noncomputable def fcmp (delta : ℝ → ℝ → ℝ) (eps : ℝ) (x y : Option ℝ) : Int :=
  if x = some 0 then (match y with | none => 0 | some y => if y < -eps then -1 else if y > eps then 1 else 0) else
  if y = some 0 then (match x with | none => 0 | some x => if x < -eps then -1 else if x > eps then 1 else 0) else
  match x, y with
  | none, _ => -2
  | _, none => 2
  | some x, some y => gslFcmp delta x y

/-- C39, for two nonzero numbers: the sign convention of the header, and antisymmetry. -/
theorem C39_nonzero_partial (delta : ℝ → ℝ → ℝ) (hd : ∀ x y, 0 ≤ delta x y) (hsym : ∀ x y, delta x y = delta y x)
    (eps x y : ℝ) (hx : x ≠ 0) (hy : y ≠ 0) :
    (fcmp delta eps (some x) (some y) = 1 ↔ y + delta x y < x) ∧
    (fcmp delta eps (some x) (some y) = -1 ↔ x + delta x y < y) ∧
    fcmp delta eps (some y) (some x) = - fcmp delta eps (some x) (some y) := by
  have h1 : ∀ a b : ℝ, a ≠ 0 → b ≠ 0 → fcmp delta eps (some a) (some b) = gslFcmp delta a b := by
    intro a b ha hb
    unfold fcmp
    rw [if_neg (by simpa using ha), if_neg (by simpa using hb)]
  rw [h1 x y hx hy, h1 y x hy hx]
  unfold gslFcmp
  rw [hsym y x]
  have := hd x y
  refine ⟨?_, ?_, ?_⟩
  · split_ifs <;> constructor <;> intro h <;> first | linarith | (exfalso; linarith) | simp at h | rfl | simp
  · split_ifs <;> constructor <;> intro h <;> first | linarith | (exfalso; linarith) | simp at h | rfl | simp
  · split_ifs <;> first | rfl | (exfalso; linarith) | simp

/-- C39, second argument zero: the documented sign. -/
theorem C39_second_zero_partial (delta : ℝ → ℝ → ℝ) (eps x : ℝ) (he : 0 ≤ eps) (hx : x ≠ 0) :
    (fcmp delta eps (some x) (some 0) = 1 ↔ eps < x) ∧ (fcmp delta eps (some x) (some 0) = -1 ↔ x < -eps) := by
  unfold fcmp
  rw [if_neg (by simpa using hx), if_pos rfl]
  simp only
  refine ⟨?_, ?_⟩ <;> split_ifs <;> constructor <;> intro h <;> first | linarith | (exfalso; linarith) | simp at h | rfl | simp

/-- C39, refutation: with a zero first argument the sign is reversed: `fcmp(0, 1)` is `+1` although
`0 < 1`, and the function is not antisymmetric. -/
theorem C39_refuted_first_zero (delta : ℝ → ℝ → ℝ) (eps y : ℝ) (he : 0 ≤ eps) (hy : eps < y) :
    fcmp delta eps (some 0) (some y) = 1 ∧ fcmp delta eps (some y) (some 0) = 1 := by
  unfold fcmp
  rw [if_pos rfl, if_neg (by simp; linarith), if_pos rfl]
  simp only
  rw [if_neg (by linarith), if_pos hy]
  exact ⟨rfl, rfl⟩

/-- C39. With a not-a-number argument (and a nonzero other argument) the result is distinct from all the results for
numbers: -2 if the first one is not a number, +2 if only the second one is. -/
theorem C39_nan (delta : ℝ → ℝ → ℝ) (eps x : ℝ) (hx : x ≠ 0) :
    fcmp delta eps none (some x) = -2 ∧ fcmp delta eps (some x) none = 2 ∧ fcmp delta eps none none = -2 := by
  unfold fcmp
  simp [hx]

end Verif.Core
