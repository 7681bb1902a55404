import Verif.Core.GaussLegendre
import Verif.Core.Legendre

/-! Model of /repo/src/math_core.cpp:1154-1205 (nodes and weights of the Gauss-Legendre rule computed on the fly, and the table
of nodes on an interval); C38, C53. Exact real arithmetic. -/
namespace Verif.GL

open Polynomial

noncomputable section

/-! ## getGLnodeAndWeight -/

/-- math_core.cpp:1161-1167: the recurrence; state (Pm1, P), l running from 3 to n. -/
def legLoop (x : ℝ) : ℕ → ℕ → ℝ × ℝ → ℝ × ℝ
  | 0, _, s => s
  | cnt + 1, l, (Pm1, P) => legLoop x cnt (l + 1) (P, x * P + (1 - 1 / (l : ℝ)) * (x * P - Pm1))

/-- math_core.cpp:1160-1170: (P, der, der2) at x. -/
def glEval (n : ℕ) (x : ℝ) : ℝ × ℝ × ℝ :=
  let s := legLoop x (n - 2) 3 (x, 3 / 2 * x * x - 1 / 2)
  let P := s.2
  let der := (s.1 - x * P) * n / (1 - x * x)
  let der2 := (2 * x * der - n * (n + 1) * P) / (1 - x * x)
  (P, der, der2)

/-- math_core.cpp:1159-1178: one iteration: the new x, the correction dx, and the weight that is returned if dx is small. -/
def glStep (n : ℕ) (x : ℝ) : ℝ × ℝ × ℝ :=
  let e := glEval n x
  let dx := -e.1 / (e.2.1 - 1 / 2 * e.1 * e.2.2 / e.2.1)
  let x' := x + dx
  (x', dx, 2 / ((1 - x' * x') * (e.2.1 + dx * e.2.2) ^ 2))

/-- math_core.cpp:1159-1179: `while(1)` with a bound on the number of iterations (none = not finished). -/
def glIterate (n : ℕ) : ℕ → ℝ → Option (ℝ × ℝ)
  | 0, _ => none
  | fuel + 1, x => if |(glStep n x).2.1| ≤ 1 / 10 ^ 10 then some ((glStep n x).1, (glStep n x).2.2)
    else glIterate n fuel (glStep n x).1

/-- math_core.cpp:1158: the initial guess. `n*n*n` is evaluated in 32-bit signed integers: none = overflow (undefined). -/
def glGuess (n k : ℕ) : Option ℝ :=
  if n = k * 2 + 1 then some 0
  else if n * n * n < 2 ^ 31 then
    some ((1 - 1 / 8 * ((n : ℝ) - 1) / (n * n * n : ℕ)) * Real.cos (Real.pi * (k + 3 / 4) / (n + 1 / 2)))
  else none

theorem legLoop_spec (x : ℝ) (cnt l : ℕ) (hl : 2 ≤ l) (a b : ℝ) (ha : a = (Leg.leg (l - 1)).eval x)
    (hb : b = (Leg.leg l).eval x) :
    legLoop x cnt (l + 1) (a, b) = ((Leg.leg (l + cnt - 1)).eval x, (Leg.leg (l + cnt)).eval x) := by
  induction cnt generalizing l a b with
  | zero => rw [legLoop, ha, hb]; rfl
  | succ cnt ih =>
    rw [legLoop, ih (l + 1) (by omega) _ _ (by rw [Nat.add_sub_cancel]; exact hb)]
    · rw [show l + 1 + cnt = l + (cnt + 1) by omega]
    · obtain ⟨m, rfl⟩ : ∃ m, l = m + 1 := ⟨l - 1, by omega⟩
      rw [ha, hb, Nat.add_sub_cancel, show m + 1 + 1 = m + 2 by omega, Leg.leg]
      simp only [eval_sub, eval_mul, eval_C, eval_X]
      have : (m : ℝ) + 2 ≠ 0 := by positivity
      push_cast
      have h2 : (m : ℝ) + 1 + 1 ≠ 0 := by positivity
      field_simp
      ring

/-- C53: the three numbers computed at each iteration are the value and the exact first two derivatives of the Legendre
polynomial of degree n at x, for every n >= 2 and every x except +-1. -/
theorem C53_values (n : ℕ) (hn : 2 ≤ n) (x : ℝ) (hx : 1 - x * x ≠ 0) :
    glEval n x = ((Leg.leg n).eval x, (derivative (Leg.leg n)).eval x, (derivative (derivative (Leg.leg n))).eval x) := by
  have h2 : (Leg.leg 2).eval x = 3 / 2 * x * x - 1 / 2 := by
    simp [Leg.leg]; ring
  have hl := legLoop_spec x (n - 2) 2 (le_refl _) x (3 / 2 * x * x - 1 / 2) (by simp [Leg.leg]) h2.symm
  rw [show 2 + (n - 2) = n by omega] at hl
  obtain ⟨m, rfl⟩ : ∃ m, n = m + 1 := ⟨n - 1, by omega⟩
  rw [Nat.add_sub_cancel] at hl
  have d1 := congrArg (eval x) (Leg.deriv_formula m)
  have d2 := congrArg (eval x) (Leg.legendre_ode m)
  simp only [eval_mul, eval_sub, eval_add, eval_one, eval_pow, eval_X, eval_C, eval_zero, eval_ofNat] at d1 d2
  have e1 : ((Leg.leg m).eval x - x * (Leg.leg (m + 1)).eval x) * ((m + 1 : ℕ) : ℝ) / (1 - x * x) =
      (derivative (Leg.leg (m + 1))).eval x := by
    rw [div_eq_iff hx]; push_cast; linarith
  rw [glEval, hl]
  simp only [e1]
  congr 2
  rw [div_eq_iff hx]; push_cast; linarith

/-- Consecutive Legendre polynomials have no common root. -/
theorem leg_no_common (n : ℕ) (x : ℝ) (h : (Leg.leg (n + 1)).eval x = 0) : (Leg.leg n).eval x ≠ 0 := by
  induction n with
  | zero => simp [Leg.leg]
  | succ n ih =>
    intro h0
    apply ih h0
    have hb := congrArg (eval x) (Leg.bonnet n)
    simp only [eval_mul, eval_sub, eval_X, eval_C] at hb
    rw [show n + 1 + 1 = n + 2 by omega] at h
    rw [h, h0] at hb
    have : ((n : ℝ) + 1) * (Leg.leg n).eval x = 0 := by linarith
    exact (mul_eq_zero.1 this).resolve_left (by positivity)

/-- Roots of Legendre polynomials are simple and differ from +-1. -/
theorem leg_simple (n : ℕ) (hn : 1 ≤ n) (x : ℝ) (h : (Leg.leg n).eval x = 0) :
    1 - x * x ≠ 0 ∧ (derivative (Leg.leg n)).eval x ≠ 0 := by
  obtain ⟨m, rfl⟩ : ∃ m, n = m + 1 := ⟨n - 1, by omega⟩
  have h0 := leg_no_common m x h
  have d1 := congrArg (eval x) (Leg.deriv_formula m)
  simp only [eval_mul, eval_sub, eval_one, eval_pow, eval_X, eval_C, h, mul_zero, sub_zero] at d1
  have : (1 - x ^ 2) * (derivative (Leg.leg (m + 1))).eval x ≠ 0 := by
    rw [d1]; exact mul_ne_zero (by positivity) h0
  rw [pow_two] at this
  exact ⟨left_ne_zero_of_mul this, right_ne_zero_of_mul this⟩

/-- C53: a point where the iteration stops with a zero correction is a root of the Legendre polynomial, and the weight is
2 / ((1-x^2) P_n'(x)^2); conversely at a simple root the iteration stops at once. -/
theorem C53_fixed_point (n : ℕ) (hn : 2 ≤ n) (x : ℝ) :
    ((Leg.leg n).eval x = 0 → ∀ fuel, glIterate n (fuel + 1) x =
      some (x, 2 / ((1 - x * x) * (derivative (Leg.leg n)).eval x ^ 2))) ∧
    (1 - x * x ≠ 0 → (glStep n x).2.1 = 0 →
      (glEval n x).2.1 - 1 / 2 * (glEval n x).1 * (glEval n x).2.2 / (glEval n x).2.1 ≠ 0 → (Leg.leg n).eval x = 0) := by
  constructor
  · intro h0 fuel
    obtain ⟨hx, hd⟩ := leg_simple n (by omega) x h0
    have hs : glStep n x = (x, 0, 2 / ((1 - x * x) * (derivative (Leg.leg n)).eval x ^ 2)) := by
      rw [glStep, C53_values n hn x hx, h0]; simp
    rw [glIterate, hs]
    simp
  · intro hx h hne
    rw [glStep] at h
    simp only at h
    rcases div_eq_zero_iff.1 h with h' | h'
    · rw [C53_values n hn x hx] at h'; simpa using h'
    · exact absurd h' hne

theorem leg_odd_zero (m : ℕ) : (Leg.leg (2 * m + 1)).eval 0 = 0 := by
  induction m with
  | zero => simp [Leg.leg]
  | succ m ih =>
    rw [show 2 * (m + 1) + 1 = (2 * m + 1) + 2 by ring, Leg.leg]
    simp [ih]

/-- C53: for an odd number of points the middle node is exactly zero. -/
theorem C53_middle (k : ℕ) (hk : 1 ≤ k) (fuel : ℕ) :
    (glGuess (2 * k + 1) k).bind (glIterate (2 * k + 1) (fuel + 1)) =
      some (0, 2 / (derivative (Leg.leg (2 * k + 1))).eval 0 ^ 2) := by
  have hg : glGuess (2 * k + 1) k = some 0 := by rw [glGuess, if_pos (by ring)]
  rw [hg, Option.bind_some, (C53_fixed_point (2 * k + 1) (by omega) 0).1 (leg_odd_zero k) fuel]
  simp

/-- C53: nodes and weights that the code returns with zero final correction form the exact Gauss-Legendre rule: if the n
starting points lead to n distinct points, all polynomials of degree below 2n are integrated exactly. -/
theorem C53_quadrature (n : ℕ) (hn : 1 ≤ n) (x : Fin (n + 1) → ℝ) (hinj : Function.Injective x)
    (hfix : ∀ i, (Leg.leg (n + 1)).eval (x i) = 0) (q : ℝ[X]) (hq : q.degree < ((2 * (n + 1) : ℕ) : WithBot ℕ)) :
    ∑ i, (((glIterate (n + 1) 1 (x i)).map Prod.snd).getD 0) * q.eval (((glIterate (n + 1) 1 (x i)).map Prod.fst).getD 0) =
      ∫ t in (-1 : ℝ)..1, q.eval t := by
  have hx := fun i => (leg_simple (n + 1) (by omega) (x i) (hfix i)).1
  have hd := fun i => (leg_simple (n + 1) (by omega) (x i) (hfix i)).2
  rw [← Leg.gauss n x hinj hfix hd (fun i => by rw [pow_two]; exact hx i) q hq]
  apply Finset.sum_congr rfl
  intro i _
  rw [(C53_fixed_point (n + 1) (by omega) (x i)).1 (hfix i) 0]
  simp only [Option.map_some, Option.getD_some, pow_two]

/-- C53 (refuted for large orders): the initial guess is well defined only up to n=1290 (apart from the middle node); above, the
integer product overflows. With the usual wrap-around the product is zero for n=2048 (and all multiples of 2048), which makes the guess infinite
and the loop endless. -/
theorem C53_refuted_overflow (n k : ℕ) (hk : n ≠ k * 2 + 1) :
    ((glGuess n k).isSome ↔ n ≤ 1290) ∧ ∀ j : ℕ, (BitVec.ofNat 32 ((2048 * j) * (2048 * j) * (2048 * j))) = 0#32 := by
  constructor
  · rw [glGuess, if_neg hk]
    have mono : n * n * n < 2 ^ 31 ↔ n ≤ 1290 := by
      constructor
      · intro h
        by_contra hc
        have : 1291 ≤ n := by omega
        have : 1291 * 1291 * 1291 ≤ n * n * n := Nat.mul_le_mul (Nat.mul_le_mul this this) this
        omega
      · intro h
        have : n * n * n ≤ 1290 * 1290 * 1290 := Nat.mul_le_mul (Nat.mul_le_mul h h) h
        omega
    split_ifs with h
    · exact ⟨fun _ => mono.1 h, fun _ => rfl⟩
    · exact ⟨fun h' => absurd h' (by simp), fun h' => absurd (mono.2 h') h⟩
  · intro j
    apply BitVec.eq_of_toNat_eq
    rw [BitVec.toNat_ofNat, show 2048 * j * (2048 * j) * (2048 * j) = 2 ^ 32 * (2 * (j * j * j)) by ring, Nat.mul_mod_right]
    rfl

/-- Non-vacuity: two points +-1/sqrt(3). -/
example : ∃ x : Fin 2 → ℝ, Function.Injective x ∧ ∀ i, (Leg.leg 2).eval (x i) = 0 := by
  have h3 : (0 : ℝ) < Real.sqrt 3 := Real.sqrt_pos.2 (by norm_num)
  have hs : Real.sqrt 3 * Real.sqrt 3 = 3 := Real.mul_self_sqrt (by norm_num)
  have hm : ∀ c : ℝ, c = 1 ∨ c = -1 → (c * (1 / Real.sqrt 3)) * (c * (1 / Real.sqrt 3)) = 1 / 3 := by
    rintro c (rfl | rfl)
    · field_simp; linarith
    · field_simp; linarith
  have hx : ∀ i : Fin 2, (![1, -1] i : ℝ) = 1 ∨ (![1, -1] i : ℝ) = -1 := by
    intro i; fin_cases i <;> simp
  refine ⟨fun i => ![1, -1] i * (1 / Real.sqrt 3), ?_, ?_⟩
  · intro i j h
    have h' := mul_right_cancel₀ (by positivity) h
    fin_cases i <;> fin_cases j <;> simp at h' ⊢ <;> linarith
  · intro i
    have e : (Leg.leg 2).eval (![1, -1] i * (1 / Real.sqrt 3)) =
        3 / 2 * ((![1, -1] i * (1 / Real.sqrt 3)) * (![1, -1] i * (1 / Real.sqrt 3))) - 1 / 2 := by
      simp [Leg.leg]
    rw [e, hm _ (hx i)]; norm_num

/-! ## prepareIntegrationTableGL -/

/-- The caller's arrays: contents (none = never written). -/
structure Tab where
  nodes : ℕ → Option ℝ
  weights : ℕ → Option ℝ

/-- math_core.cpp:1186-1190 and 1194-1199: the loop over i=0..N/2 (cnt more iterations), writing elements i and N-1-i of both arrays
(lo i, hi i, w i are the assigned values); an index outside 0..N-1 is undefined behaviour (none). -/
def fillTab (N : ℕ) (lo hi w : ℕ → ℝ) : ℕ → ℕ → Tab → Option Tab
  | 0, _, t => some t
  | cnt + 1, i, t =>
    if i < N then
      fillTab N lo hi w cnt (i + 1)
        ⟨Function.update (Function.update t.nodes i (some (lo i))) (N - 1 - i) (some (hi i)),
         Function.update (Function.update t.weights (N - 1 - i) (some (w i))) i (some (w i))⟩
    else none

/-- math_core.cpp:1182-1201: prepareIntegrationTableGL; `comp i` is the result of getGLnodeAndWeight(N,i). -/
def prepareTable (comp : ℕ → ℝ × ℝ) (x1 x2 : ℝ) (N : ℕ) (t : Tab) : Option Tab :=
  if N ≤ 40 ∧ points N ≠ [] then
    fillTab N (fun i => x1 + lit ((points N).getD i 0) * (x2 - x1)) (fun i => x2 - lit ((points N).getD i 0) * (x2 - x1))
      (fun i => lit ((GL.weights N).getD i 0) * (x2 - x1)) (N / 2 + 1) 0 t
  else
    fillTab N (fun i => 1 / 2 * (x1 + x2 - (comp i).1 * (x2 - x1))) (fun i => 1 / 2 * (x1 + x2 + (comp i).1 * (x2 - x1)))
      (fun i => 1 / 2 * (comp i).2 * (x2 - x1)) (N / 2 + 1) 0 t

theorem fillTab_spec (N : ℕ) (hN : 1 ≤ N) (lo hi w : ℕ → ℝ) (S : ℝ) (hS : ∀ m ≤ N / 2, lo m + hi m = S)
    (hmid : ∀ m, N = 2 * m + 1 → 2 * hi m = S) (cnt i : ℕ) (hc : i + cnt = N / 2 + 1) (t t0 : Tab)
    (ho : ∀ j, N ≤ j → t.nodes j = t0.nodes j ∧ t.weights j = t0.weights j)
    (ht : ∀ j < N, (j < i ∨ N - 1 - j < i) →
      (∃ a b, t.nodes j = some a ∧ t.nodes (N - 1 - j) = some b ∧ a + b = S ∧
        ((a = lo j ∧ j ≤ N / 2) ∨ (a = hi (N - 1 - j) ∧ N - 1 - j ≤ N / 2))) ∧
      ∃ m c, (m = j ∨ m = N - 1 - j) ∧ m ≤ N / 2 ∧ c = w m ∧ t.weights j = some c ∧ t.weights (N - 1 - j) = some c) :
    ∃ g, fillTab N lo hi w cnt i t = some g ∧
      (∀ j, N ≤ j → g.nodes j = t0.nodes j ∧ g.weights j = t0.weights j) ∧
      ∀ j < N,
      (∃ a b, g.nodes j = some a ∧ g.nodes (N - 1 - j) = some b ∧ a + b = S ∧
        ((a = lo j ∧ j ≤ N / 2) ∨ (a = hi (N - 1 - j) ∧ N - 1 - j ≤ N / 2))) ∧
      ∃ m c, (m = j ∨ m = N - 1 - j) ∧ m ≤ N / 2 ∧ c = w m ∧ g.weights j = some c ∧ g.weights (N - 1 - j) = some c := by
  induction cnt generalizing i t with
  | zero => exact ⟨t, rfl, ho, fun j hj => ht j hj (by omega)⟩
  | succ cnt ih =>
    rw [fillTab, if_pos (by omega)]
    apply ih (i + 1) (by omega)
    · intro j hj
      simp only
      rw [Function.update_of_ne (by omega), Function.update_of_ne (by omega), Function.update_of_ne (by omega),
        Function.update_of_ne (by omega)]
      exact ho j hj
    · intro j hj hj'
      simp only
      by_cases e1 : j = i
      · subst e1
        constructor
        · by_cases em : j = N - 1 - j
          · refine ⟨hi j, hi j, ?_, ?_, ?_, ?_⟩
            · rw [← em, Function.update_self]
            · rw [Function.update_self]
            · have := hmid j (by omega); linarith
            · right; rw [← em]; exact ⟨rfl, by omega⟩
          · refine ⟨lo j, hi j, ?_, ?_, hS j (by omega), .inl ⟨rfl, by omega⟩⟩
            · rw [Function.update_of_ne em, Function.update_self]
            · rw [Function.update_self]
        · refine ⟨j, w j, .inl rfl, by omega, rfl, Function.update_self .., ?_⟩
          by_cases em : N - 1 - j = j
          · rw [em, Function.update_self]
          · rw [Function.update_of_ne em, Function.update_self]
      · by_cases e2 : j = N - 1 - i
        · have e3 : N - 1 - j = i := by omega
          rw [e3, ← e2]
          constructor
          · refine ⟨hi i, lo i, ?_, ?_, by rw [add_comm]; exact hS i (by omega), .inr ⟨rfl, by omega⟩⟩
            · rw [Function.update_self]
            · rw [Function.update_of_ne (Ne.symm e1), Function.update_self]
          · refine ⟨i, w i, .inr rfl, by omega, rfl, ?_, ?_⟩
            · rw [Function.update_of_ne e1, Function.update_self]
            · rw [Function.update_self]
        · obtain ⟨⟨a, b, ha, hb, hab⟩, m, c, hm, hm2, hcw, hw1, hw2⟩ := ht j hj (by omega)
          refine ⟨⟨a, b, ?_, ?_, hab⟩, m, c, hm, hm2, hcw, ?_, ?_⟩
          · rw [Function.update_of_ne e2, Function.update_of_ne e1]; exact ha
          · rw [Function.update_of_ne (by omega), Function.update_of_ne (by omega)]; exact hb
          · rw [Function.update_of_ne e1, Function.update_of_ne e2]; exact hw1
          · rw [Function.update_of_ne (by omega), Function.update_of_ne (by omega)]; exact hw2

theorem table_mid : (implemented.all fun n => n % 2 == 0 || (points n).getD (n / 2) 0 == 5 * 10 ^ 18) = true := by decide +kernel

/-- C38: for every N >= 1 all N nodes and weights are written and nothing beyond them; nodes are symmetric about the middle of
the interval with equal weights; each is computed from the rule's node of the same or of the mirrored number. (For an odd
number of points the middle node of the rule must be zero, which is C53_middle.) -/
theorem C38_table (comp : ℕ → ℝ × ℝ) (x1 x2 : ℝ) (N : ℕ) (hN : 1 ≤ N) (t : Tab)
    (hmid : ∀ m, N = 2 * m + 1 → (comp m).1 = 0) :
    ∃ g, prepareTable comp x1 x2 N t = some g ∧ (∀ j, N ≤ j → g.nodes j = t.nodes j ∧ g.weights j = t.weights j) ∧
      ∀ j < N, (∃ a b, g.nodes j = some a ∧ g.nodes (N - 1 - j) = some b ∧ a + b = x1 + x2 ∧
        (N ≤ 40 ∧ points N ≠ [] →
          a = x1 + lit ((points N).getD j 0) * (x2 - x1) ∨ a = x2 - lit ((points N).getD (N - 1 - j) 0) * (x2 - x1)) ∧
        (¬ (N ≤ 40 ∧ points N ≠ []) →
          a = (x1 + x2) / 2 - (comp j).1 * (x2 - x1) / 2 ∨ a = (x1 + x2) / 2 + (comp (N - 1 - j)).1 * (x2 - x1) / 2)) ∧
      ∃ c, g.weights j = some c ∧ g.weights (N - 1 - j) = some c := by
  rw [prepareTable]
  by_cases h : N ≤ 40 ∧ points N ≠ []
  · rw [if_pos h]
    have himp : N ∈ implemented := by
      have := table_order
      rw [List.all_eq_true] at this
      have := this N (by rw [List.mem_range'_1]; omega)
      have h2 := h.2
      simp [h2] at this
      exact this
    obtain ⟨g, hg, hout, hin⟩ := fillTab_spec N hN (fun i => x1 + lit ((points N).getD i 0) * (x2 - x1))
      (fun i => x2 - lit ((points N).getD i 0) * (x2 - x1)) (fun i => lit ((GL.weights N).getD i 0) * (x2 - x1)) (x1 + x2)
      (by intro m _; ring) (by
        intro m hm
        have := table_mid
        rw [List.all_eq_true] at this
        have := this N himp
        rw [show N / 2 = m by omega, show N % 2 = 1 by omega] at this
        simp only [Nat.reduceBEq, Bool.false_or, beq_iff_eq] at this
        rw [this, lit]; push_cast; ring) (N / 2 + 1) 0 (by omega) t t (fun j _ => ⟨rfl, rfl⟩) (by intro j hj hj'; omega)
    refine ⟨g, hg, hout, ?_⟩
    intro j hj
    obtain ⟨⟨a, b, ha, hb, hab, hv⟩, m, c, _, _, _, h1, h2⟩ := hin j hj
    exact ⟨⟨a, b, ha, hb, hab, fun _ => hv.imp (fun h => h.1) (fun h => h.1), fun h' => absurd h h'⟩, c, h1, h2⟩
  · rw [if_neg h]
    obtain ⟨g, hg, hout, hin⟩ := fillTab_spec N hN (fun i => 1 / 2 * (x1 + x2 - (comp i).1 * (x2 - x1)))
      (fun i => 1 / 2 * (x1 + x2 + (comp i).1 * (x2 - x1))) (fun i => 1 / 2 * (comp i).2 * (x2 - x1)) (x1 + x2)
      (by intro m _; ring) (by
        intro m hm
        simp only [hmid m hm]; ring) (N / 2 + 1) 0 (by omega) t t (fun j _ => ⟨rfl, rfl⟩) (by intro j hj hj'; omega)
    refine ⟨g, hg, hout, ?_⟩
    intro j hj
    obtain ⟨⟨a, b, ha, hb, hab, hv⟩, m, c, _, _, _, h1, h2⟩ := hin j hj
    refine ⟨⟨a, b, ha, hb, hab, fun h' => absurd h' h, fun _ => hv.imp (fun h => ?_) (fun h => ?_)⟩, c, h1, h2⟩
    · rw [h.1]; ring
    · rw [h.1]; ring

/-- C38: with N = 0 the element before the first one is written (undefined behaviour). -/
theorem C38_refuted_zero (comp : ℕ → ℝ × ℝ) (x1 x2 : ℝ) (t : Tab) : prepareTable comp x1 x2 0 t = none := by
  rw [prepareTable, if_neg (by simp [points]), fillTab, if_neg (by omega)]

/-- Non-vacuity: a computed (not tabulated) rule with an odd number of points. -/
example : ∀ m, 23 = 2 * m + 1 → ((fun i : ℕ => ((i : ℝ) - 11, (1 : ℝ))) m).1 = 0 := by
  intro m hm; have : m = 11 := by omega
  subst this; norm_num

end
end Verif.GL
