import Verif.Core.GLTable
import Mathlib.Analysis.SpecialFunctions.Integrals.Basic
import Mathlib.Analysis.Calculus.Deriv.Polynomial
import Mathlib.Tactic

/-! Model of the fixed-order Gauss-Legendre routines, /repo/src/math_core.cpp:1108-1205; C38, C52, C53. -/
namespace Verif.GL

/-! ## Table facts, checked by the kernel over the whole table -/

/-- (k+1) * sum of w_i x_i^k, everything scaled by 10^19 per factor. -/
def moment (n k : ℕ) : ℕ := (List.zipWith (fun w x => w * x ^ k) (weights n) (points n)).sum

/-- |moment - 1/(k+1)| <= 2e-16 in integers. -/
def momentOk (n k : ℕ) : Bool :=
  (k + 1) * moment n k ≤ (10 ^ 19) ^ (k + 1) + (k + 1) * 2000 * (10 ^ 19) ^ k &&
  (10 ^ 19) ^ (k + 1) ≤ (k + 1) * moment n k + (k + 1) * 2000 * (10 ^ 19) ^ k

def implemented : List ℕ := [1, 2, 3, 4, 5, 6, 7, 8, 9, 10, 11, 12, 13, 14, 15, 16, 17, 18, 19, 20, 25, 32, 40]

theorem table_ok : (implemented.all fun n => (List.range (2 * n)).all fun k => momentOk n k) = true := by decide +kernel

theorem table_shape : (implemented.all fun n => (points n).length == n && (weights n).length == n &&
    (points n).all (fun x => 0 < x && x < 10 ^ 19) && (weights n).all (fun x => 0 < x)) = true := by decide +kernel

theorem table_order : (List.range' 1 40).all (fun n => (points n ≠ [] : Bool) == implemented.contains n) = true := by decide +kernel

/-! ## Model of integrateGL -/

noncomputable section

/-- Decimal literal. -/
def lit (n : ℕ) : ℝ := n / 10 ^ 19

/-- math_core.cpp:1117: `while(GLPOINTS[N] == NULL) N++` (N is at most 40 initially; the last rule is the one with N=40; fuel is
the distance to it). -/
def chooseOrder : ℕ → ℕ → ℕ
  | 0, N => N
  | fuel + 1, N => if points N = [] then chooseOrder fuel (N + 1) else N

/-- math_core.cpp:1108-1123: integrateGL (none = exception). -/
def integrateGL (fnc : ℝ → ℝ) (x1 x2 : ℝ) (N : ℤ) : Option ℝ :=
  if N < 1 ∨ N > 40 then none
  else if x1 = x2 then some 0
  else
    let M := chooseOrder 40 N.toNat
    some ((List.range M).foldl (fun r i => r + lit ((weights M).getD i 0) *
      fnc (x2 * lit ((points M).getD i 0) + x1 * (1 - lit ((points M).getD i 0)))) 0 * (x2 - x1))

theorem chooseOrder_spec (N : ℕ) (h1 : 1 ≤ N) (h2 : N ≤ 40) :
    chooseOrder 40 N ∈ implemented ∧ N ≤ chooseOrder 40 N ∧ ∀ m, N ≤ m → m < chooseOrder 40 N → points m = [] := by
  have : ∀ N ∈ List.range' 1 40, chooseOrder 40 N ∈ implemented ∧ N ≤ chooseOrder 40 N ∧
    ∀ m ∈ List.range 41, N ≤ m → m < chooseOrder 40 N → points m = [] := by decide +kernel
  obtain ⟨a, b, c⟩ := this N (by rw [List.mem_range'_1]; omega)
  have c40 : chooseOrder 40 N ≤ 40 := by
    have : ∀ n ∈ implemented, n ≤ 40 := by decide
    exact this _ a
  exact ⟨a, b, fun m hm hm' => c m (by rw [List.mem_range]; omega) hm hm'⟩

theorem foldl_sum (M : ℕ) (f : ℕ → ℝ) : (List.range M).foldl (fun r i => r + f i) 0 = ∑ i ∈ Finset.range M, f i := by
  induction M with
  | zero => simp
  | succ M ih => rw [List.range_succ, List.foldl_append, ih, Finset.sum_range_succ]; rfl

theorem zipWith_sum (a b : List ℕ) (f : ℕ → ℕ → ℕ) (n : ℕ) (ha : a.length = n) (hb : b.length = n) :
    (List.zipWith f a b).sum = ∑ i ∈ Finset.range n, f (a.getD i 0) (b.getD i 0) := by
  induction n generalizing a b with
  | zero =>
    rw [List.length_eq_zero_iff] at ha
    subst ha; simp
  | succ n ih =>
    match a, b with
    | x :: a, y :: b =>
      rw [List.zipWith_cons_cons, List.sum_cons, ih a b (by simpa using ha) (by simpa using hb), Finset.sum_range_succ']
      simp [add_comm]
    | [], _ => simp at ha
    | _ :: _, [] => simp at hb

/-- Each implemented rule integrates each power of degree up to 2n-1 over [0,1] with an error below 2e-16. -/
theorem moment_bound (n : ℕ) (hn : n ∈ implemented) (k : ℕ) (hk : k < 2 * n) :
    |∑ i ∈ Finset.range n, lit ((weights n).getD i 0) * lit ((points n).getD i 0) ^ k - 1 / (k + 1)| ≤ 2 / 10 ^ 16 := by
  have h := table_ok
  rw [List.all_eq_true] at h
  have h' := h n hn
  rw [List.all_eq_true] at h'
  have h'' := h' k (List.mem_range.2 hk)
  simp only [momentOk, Bool.and_eq_true, decide_eq_true_eq] at h''
  obtain ⟨a, b⟩ := h''
  have hs := table_shape
  rw [List.all_eq_true] at hs
  have hs' := hs n hn
  simp only [Bool.and_eq_true, beq_iff_eq] at hs'
  have e : ∑ i ∈ Finset.range n, lit ((weights n).getD i 0) * lit ((points n).getD i 0) ^ k =
      (moment n k : ℝ) / (10 ^ 19) ^ (k + 1) := by
    rw [moment, zipWith_sum _ _ _ n hs'.1.1.2 hs'.1.1.1]
    push_cast
    rw [Finset.sum_div]
    apply Finset.sum_congr rfl
    intro i _
    rw [lit, lit, div_pow, pow_succ (10 ^ 19 : ℝ) k]
    field_simp
  have a' : ((k : ℝ) + 1) * moment n k ≤ (10 ^ 19) ^ (k + 1) + (k + 1) * 2000 * (10 ^ 19) ^ k := by exact_mod_cast a
  have b' : ((10 : ℝ) ^ 19) ^ (k + 1) ≤ (k + 1) * moment n k + (k + 1) * 2000 * (10 ^ 19) ^ k := by exact_mod_cast b
  rw [e]
  have hp : (0 : ℝ) < (10 ^ 19) ^ k := by positivity
  have hk1 : (0 : ℝ) < (k : ℝ) + 1 := by positivity
  rw [pow_succ] at a' b' ⊢
  generalize (10 ^ 19 : ℝ) ^ k = T at *
  have e2 : (moment n k : ℝ) / (T * 10 ^ 19) - 1 / (k + 1) = ((k + 1) * moment n k - T * 10 ^ 19) / ((k + 1) * (T * 10 ^ 19)) := by
    field_simp
  rw [e2, abs_div, abs_of_pos (show 0 < ((k : ℝ) + 1) * (T * 10 ^ 19) by positivity), div_le_iff₀ (by positivity), abs_le]
  constructor
  · nlinarith
  · nlinarith

/-- C52: for every requested order 1..40 and every polynomial of degree below twice the order, the result differs from the
integral by at most 2e-16 times the length of the interval times the sum of absolute values of the coefficients of the
polynomial (written in the variable that runs from 0 to 1 across the interval). Orders outside this range are rejected. -/
theorem C52_integrateGL (q : Polynomial ℝ) (x1 x2 : ℝ) (N : ℤ) :
    (integrateGL (fun x => q.eval x) x1 x2 N = none ↔ N < 1 ∨ 40 < N) ∧
    ∀ r, integrateGL (fun x => q.eval x) x1 x2 N = some r → (q.natDegree : ℤ) < 2 * N →
      |r - ∫ x in x1..x2, q.eval x| ≤ 2 / 10 ^ 16 * |x2 - x1| *
        ∑ k ∈ Finset.range (q.natDegree + 1), |(q.comp (Polynomial.C x1 + Polynomial.C (x2 - x1) * Polynomial.X)).coeff k| := by
  by_cases hN : N < 1 ∨ N > 40
  · rw [integrateGL, if_pos hN]
    exact ⟨⟨fun _ => hN, fun _ => rfl⟩, fun r hr => absurd hr (by simp)⟩
  · rw [integrateGL, if_neg hN]
    refine ⟨⟨fun h => ?_, fun h => absurd h hN⟩, ?_⟩
    · split_ifs at h
    · intro r hr hd
      by_cases hx : x1 = x2
      · rw [if_pos hx] at hr
        obtain rfl := Option.some.inj hr
        rw [hx]; simp
      · rw [if_neg hx] at hr
        obtain rfl := Option.some.inj hr
        obtain ⟨himp, hge, _⟩ := chooseOrder_spec N.toNat (by omega) (by omega)
        generalize chooseOrder 40 N.toNat = M at *
        set p := q.comp (Polynomial.C x1 + Polynomial.C (x2 - x1) * Polynomial.X) with hp
        have hdeg : p.natDegree < q.natDegree + 1 := by
          have : p.natDegree ≤ q.natDegree * 1 := by
            rw [hp]
            refine le_trans Polynomial.natDegree_comp_le (Nat.mul_le_mul_left _ ?_)
            refine le_trans (Polynomial.natDegree_add_le _ _) ?_
            rw [Polynomial.natDegree_C]
            exact max_le (by omega) (le_trans (Polynomial.natDegree_C_mul_le _ _) Polynomial.natDegree_X_le)
          omega
        have ev : ∀ t, p.eval t = ∑ k ∈ Finset.range (q.natDegree + 1), p.coeff k * t ^ k := fun t =>
          Polynomial.eval_eq_sum_range' hdeg t
        have hq : ∀ t, q.eval (x1 + (x2 - x1) * t) = p.eval t := by intro t; rw [hp, Polynomial.eval_comp]; simp
        have hint : ∫ x in x1..x2, q.eval x = (x2 - x1) * ∑ k ∈ Finset.range (q.natDegree + 1), p.coeff k * (1 / (k + 1)) := by
          have := intervalIntegral.mul_integral_comp_add_mul (a := 0) (b := 1) (f := fun x => q.eval x) (x2 - x1) x1
          simp only [mul_zero, add_zero, mul_one, add_sub_cancel] at this
          rw [← this]
          congr 1
          simp only [hq, ev]
          rw [intervalIntegral.integral_finsetSum]
          · apply Finset.sum_congr rfl
            intro k _
            rw [intervalIntegral.integral_const_mul, integral_pow]; simp
          · intro k _
            exact (continuous_const.mul (continuous_pow k)).intervalIntegrable _ _
        have hsum : (List.range M).foldl (fun r i => r + lit ((weights M).getD i 0) *
            q.eval (x2 * lit ((points M).getD i 0) + x1 * (1 - lit ((points M).getD i 0)))) 0 =
            ∑ k ∈ Finset.range (q.natDegree + 1), p.coeff k *
              ∑ i ∈ Finset.range M, lit ((weights M).getD i 0) * lit ((points M).getD i 0) ^ k := by
          rw [foldl_sum]
          simp only [Finset.mul_sum]
          rw [Finset.sum_comm]
          apply Finset.sum_congr rfl
          intro i _
          rw [show x2 * lit ((points M).getD i 0) + x1 * (1 - lit ((points M).getD i 0)) =
            x1 + (x2 - x1) * lit ((points M).getD i 0) by ring, hq, ev, Finset.mul_sum]
          apply Finset.sum_congr rfl
          intro k _; ring
        rw [hint, hsum, mul_comm _ (x2 - x1), ← mul_sub, abs_mul, ← Finset.sum_sub_distrib]
        rw [mul_assoc, mul_left_comm]
        apply mul_le_mul_of_nonneg_left _ (abs_nonneg _)
        calc _ ≤ ∑ k ∈ Finset.range (q.natDegree + 1), |p.coeff k *
                (∑ i ∈ Finset.range M, lit ((weights M).getD i 0) * lit ((points M).getD i 0) ^ k) - p.coeff k * (1 / (k + 1))| :=
              Finset.abs_sum_le_sum_abs _ _
          _ ≤ ∑ k ∈ Finset.range (q.natDegree + 1), 2 / 10 ^ 16 * |p.coeff k| := by
              apply Finset.sum_le_sum
              intro k hk
              rw [Finset.mem_range] at hk
              rw [← mul_sub, abs_mul, mul_comm]
              exact mul_le_mul_of_nonneg_right (moment_bound M himp k (by omega)) (abs_nonneg _)
          _ = _ := by rw [Finset.mul_sum]

/-- Non-vacuity: order 22 is not in the table (25 is used), and a polynomial of degree 3 is below the limit. -/
example : (∃ r, integrateGL (fun x => (Polynomial.X ^ 3 : Polynomial ℝ).eval x) 0 2 22 = some r) ∧
    ((Polynomial.X ^ 3 : Polynomial ℝ).natDegree : ℤ) < 2 * 22 ∧ chooseOrder 40 22 = 25 := by
  refine ⟨?_, by simp, by decide +kernel⟩
  rw [integrateGL, if_neg (by norm_num), if_neg (by norm_num)]
  exact ⟨_, rfl⟩

end
end Verif.GL
