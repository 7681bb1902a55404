import Verif.Spline.Integrate
import Verif.Spline.Vandermonde

/-! C74: the integral of the product of an interpolator with another function, and the convolution
(`integratePiecewise<N,CONV>`, /repo/src/math_spline.cpp:737-826). Exact real arithmetic; the function F is represented by its
moments `Fi t1 t2 n`; the cache is an uninitialised block of memory with arbitrary contents `junk`. -/
namespace Verif.Spline

open Verif.BSpline (Grid)

noncomputable section

/-! ## Model -/

/-- DBL_EPSILON -/
def dblEps : ℝ := 1 / 2 ^ 52

/-- math_spline.cpp:791-797: the cached moments of order 0 and their sum. `junk` is the previous content of the memory (both inside
the allocated block and beyond its end). The sum is over `I0[i]`, not over `I0[i-i1]`, as in the code. -/
def cacheLoop (junk : ℕ → ℝ) (i1 i2 : ℕ) (I : ℕ → ℝ) : (ℕ → ℝ) × ℝ :=
  (List.range' i1 (i2 - i1)).foldl (fun s i =>
    let mem := Function.update s.1 (i - i1) (I i)
    (mem, s.2 + mem i)) (junk, 0)

/-- math_spline.cpp:799-825: the sum over segments; `tr` is the change of variable, `t1`, `t2` the limits on each segment. -/
def sumSegments (N : ℕ) (x : ℕ → ℝ) (S : ℝ → ℝ) (Fi : ℝ → ℝ → ℕ → ℝ) (tr : ℝ → ℝ) (t1 t2 : ℕ → ℝ) (i1 i2 : ℕ) (I0 : ℕ → ℝ) (sum : ℝ) : ℝ :=
  (List.range' i1 (i2 - i1)).foldl (fun result i =>
    if |I0 (i - i1)| < |sum| * dblEps then result else
    let y1 := x i
    let y2 := x (i + 1)
    let yk : ℕ → ℝ := fun k => y1 + (k + 0.5) / (N + 1) * (y2 - y1)
    let c := vandermonde N (fun k => tr (yk k)) (fun k => S (yk k))
    (List.range (N + 1)).foldl (fun result n =>
      let In := if n = 0 then I0 (i - i1) else Fi (t1 i) (t2 i) n
      result + In * c n) result) 0

/-- math_spline.cpp:751-826 with CONV=false -/
def integrateProduct (N : ℕ) (x : ℕ → ℝ) (size : ℕ) (S : ℝ → ℝ) (Fi : ℝ → ℝ → ℕ → ℝ) (junk : ℕ → ℝ) (a b : ℝ) : Option ℝ :=
  if size < 2 then some 0 else
  let flipSign : Bool := decide (¬ a ≤ b)
  let x1 := max (if a ≤ b then a else b) (x 0)
  let x2 := min (if a ≤ b then b else a) (x (size - 1))
  if x1 ≥ x2 then some 0 else do
  let r ← segRange x size x1 x2
  let t1 := fun i => max x1 (x i)
  let t2 := fun i => min x2 (x (i + 1))
  let I0 := cacheLoop junk r.1 r.2 (fun i => Fi (t1 i) (t2 i) 0)
  let result := sumSegments N x S Fi (fun y => y) t1 t2 r.1 r.2 I0.1 I0.2
  return if flipSign then -result else result

/-- math_spline.cpp:751-826 with CONV=true -/
def convolve (N : ℕ) (x : ℕ → ℝ) (size : ℕ) (S : ℝ → ℝ) (Fi : ℝ → ℝ → ℕ → ℝ) (junk : ℕ → ℝ) (a : ℝ) : ℝ :=
  if size < 2 then 0 else
  let t1 := fun i => a - x (i + 1)
  let t2 := fun i => a - x i
  let I0 := cacheLoop junk 0 (size - 1) (fun i => Fi (t1 i) (t2 i) 0)
  sumSegments N x S Fi (fun y => a - y) t1 t2 0 (size - 1) I0.1 I0.2

/-! ## Specification -/

/-- The moments provided for the function F (the documented meaning of IFunctionIntegral). -/
def IsMoments (F : ℝ → ℝ) (Fi : ℝ → ℝ → ℕ → ℝ) : Prop := ∀ u v n, Fi u v n = ∫ y in u..v, F y * y ^ n

/-- S is a polynomial of degree at most N on each segment of the grid. -/
def Piecewise (N : ℕ) (x : ℕ → ℝ) (size : ℕ) (S : ℝ → ℝ) : Prop :=
  ∀ i, i + 1 < size → ∃ p : Polynomial ℝ, p.natDegree ≤ N ∧ ∀ t, x i ≤ t → t ≤ x (i + 1) → S t = p.eval t

/-! ## The cache -/

theorem cacheLoop_spec (junk : ℕ → ℝ) (i1 m : ℕ) (I : ℕ → ℝ) :
    (∀ i, i1 ≤ i → i < i1 + m → (cacheLoop junk i1 (i1 + m) I).1 (i - i1) = I i) ∧
    (∀ j, m ≤ j → (cacheLoop junk i1 (i1 + m) I).1 j = junk j) ∧
    (cacheLoop junk i1 (i1 + m) I).2 = ∑ i ∈ Finset.Ico i1 (i1 + m), if i1 = 0 then I i else junk i := by
  simp only [cacheLoop, Nat.add_sub_cancel_left]
  induction m with
  | zero => simp; omega
  | succ m ih =>
    rw [List.range'_concat, List.foldl_append]
    simp only [List.foldl_cons, List.foldl_nil, one_mul, Nat.add_sub_cancel_left]
    generalize hs : List.foldl (fun s i => (Function.update s.1 (i - i1) (I i), s.2 + Function.update s.1 (i - i1) (I i) i))
      (junk, (0 : ℝ)) (List.range' i1 m) = s at ih ⊢
    obtain ⟨h1, h2, h3⟩ := ih
    refine ⟨?_, ?_, ?_⟩
    · intro i hi hi2
      by_cases he : i = i1 + m
      · subst he; simp
      · rw [Function.update_of_ne (by omega)]
        exact h1 i hi (by omega)
    · intro j hj
      rw [Function.update_of_ne (by omega)]
      exact h2 j (by omega)
    · rw [h3, ← add_assoc, Finset.sum_Ico_succ_top (by omega)]
      congr 1
      by_cases h0 : i1 = 0
      · subst h0; simp
      · rw [if_neg h0, Function.update_of_ne (by omega)]
        exact h2 _ (by omega)

/-! ## One segment -/

theorem poly_moments (F : ℝ → ℝ) (Fi : ℝ → ℝ → ℕ → ℝ) (hF : IsMoments F Fi) (hi : ∀ u v, IntervalIntegrable F MeasureTheory.volume u v)
    (q : Polynomial ℝ) (N : ℕ) (hq : q.natDegree ≤ N) (u v : ℝ) :
    ∑ n ∈ Finset.range (N + 1), Fi u v n * q.coeff n = ∫ t in u..v, q.eval t * F t := by
  have e : ∀ t, q.eval t * F t = ∑ n ∈ Finset.range (N + 1), q.coeff n * (F t * t ^ n) := by
    intro t
    rw [Polynomial.eval_eq_sum_range' (show q.natDegree < N + 1 by omega), Finset.sum_mul]
    exact Finset.sum_congr rfl fun n _ => by ring
  simp only [e]
  rw [intervalIntegral.integral_finsetSum]
  · refine Finset.sum_congr rfl fun n _ => ?_
    rw [intervalIntegral.integral_const_mul, hF, mul_comm]
  · intro n _
    exact ((hi u v).mul_continuousOn (continuous_pow n).continuousOn).const_mul _

/-- The contribution of a segment which is not skipped. -/
theorem segment_value (N : ℕ) (F : ℝ → ℝ) (Fi : ℝ → ℝ → ℕ → ℝ) (hF : IsMoments F Fi) (hi : ∀ u v, IntervalIntegrable F MeasureTheory.volume u v)
    (S : ℝ → ℝ) (y1 y2 : ℝ) (hy : y1 < y2) (p : Polynomial ℝ) (hp : p.natDegree ≤ N) (hS : ∀ t, y1 ≤ t → t ≤ y2 → S t = p.eval t)
    (α β : ℝ) (hβ : β ≠ 0) (tr : ℝ → ℝ) (htr : ∀ y, tr y = α + β * y) (hinv : ∀ y, tr (tr y) = y) (u v : ℝ) (huv : u ≤ v)
    (hin : ∀ t, u ≤ t → t ≤ v → y1 ≤ tr t ∧ tr t ≤ y2) (result : ℝ) :
    (List.range (N + 1)).foldl (fun result n =>
      let In := if n = 0 then Fi u v 0 else Fi u v n
      result + In * vandermonde N (fun k => tr (y1 + (k + 0.5) / (N + 1) * (y2 - y1))) (fun k => S (y1 + (k + 0.5) / (N + 1) * (y2 - y1))) n) result =
    result + ∫ t in u..v, S (tr t) * F t := by
  have hN : (0 : ℝ) < N + 1 := by positivity
  have yin : ∀ k ≤ N, y1 ≤ y1 + ((k : ℕ) + 0.5) / (N + 1) * (y2 - y1) ∧ y1 + ((k : ℕ) + 0.5) / (N + 1) * (y2 - y1) ≤ y2 := by
    intro k hk
    have h0 : (0 : ℝ) ≤ ((k : ℕ) + 0.5) / (N + 1) := by positivity
    have h1 : ((k : ℕ) + 0.5) / (N + 1) ≤ (1 : ℝ) := by
      rw [div_le_one hN]
      have : (k : ℝ) ≤ N := by exact_mod_cast hk
      linarith
    constructor <;> nlinarith
  set q : Polynomial ℝ := p.comp (Polynomial.C α + Polynomial.C β * Polynomial.X) with hq
  have hqe : ∀ t, q.eval t = p.eval (tr t) := by
    intro t; rw [hq, Polynomial.eval_comp, htr]; simp
  have hqd : q.natDegree ≤ N := by
    rw [hq]
    refine Polynomial.natDegree_comp_le.trans ?_
    have : (Polynomial.C α + Polynomial.C β * Polynomial.X).natDegree ≤ 1 := by compute_degree
    calc p.natDegree * _ ≤ p.natDegree * 1 := Nat.mul_le_mul_left _ this
      _ ≤ N := by omega
  have hv : ∀ m ≤ N, vandermonde N (fun k => tr (y1 + (k + 0.5) / (N + 1) * (y2 - y1))) (fun k => S (y1 + (k + 0.5) / (N + 1) * (y2 - y1))) m = q.coeff m := by
    refine (C74_vandermonde N _ _ ?_).2 q hqd ?_
    · intro i j _ _ h
      simp only [htr] at h
      have h1 : ((i : ℕ) + 0.5) / (N + 1) * (y2 - y1) = ((j : ℕ) + 0.5) / (N + 1) * (y2 - y1) := by
        have := mul_left_cancel₀ hβ (add_left_cancel h)
        linarith
      have h2 := mul_right_cancel₀ (sub_ne_zero.2 hy.ne') h1
      rw [div_left_inj' hN.ne'] at h2
      have : (i : ℝ) = j := by linarith
      exact_mod_cast this
    · intro i hi
      rw [hqe, hinv]
      exact (hS _ (yin i hi).1 (yin i hi).2).symm
  have e : ∀ n, (if n = 0 then Fi u v 0 else Fi u v n) = Fi u v n := by
    intro n; split_ifs with h
    · rw [h]
    · rfl
  simp only [e]
  rw [foldl_add_sum, List.range_eq_range', range'_sum, zero_add, ← Finset.range_eq_Ico,
    Finset.sum_congr rfl (fun n hn => by rw [hv n (by have := Finset.mem_range.1 hn; omega)]), poly_moments F Fi hF hi q N hqd]
  congr 1
  refine intervalIntegral.integral_congr fun t ht => ?_
  rw [Set.uIcc_of_le huv] at ht
  obtain ⟨a, b⟩ := hin t ht.1 ht.2
  show _ = _
  rw [hqe, hS _ a b]

/-- The whole loop: the sum of the exact integrals over the segments which are not skipped. -/
theorem sumSegments_spec (N : ℕ) (x : ℕ → ℝ) (size : ℕ) (hg : Grid x size) (F : ℝ → ℝ) (Fi : ℝ → ℝ → ℕ → ℝ) (hF : IsMoments F Fi)
    (hi : ∀ u v, IntervalIntegrable F MeasureTheory.volume u v) (S : ℝ → ℝ) (hS : Piecewise N x size S)
    (α β : ℝ) (hβ : β ≠ 0) (tr : ℝ → ℝ) (htr : ∀ y, tr y = α + β * y) (hinv : ∀ y, tr (tr y) = y) (t1 t2 : ℕ → ℝ) (i1 i2 : ℕ) (h12 : i1 ≤ i2) (h2 : i2 < size)
    (ht : ∀ i, i1 ≤ i → i < i2 → t1 i ≤ t2 i ∧ ∀ t, t1 i ≤ t → t ≤ t2 i → x i ≤ tr t ∧ tr t ≤ x (i + 1)) (junk : ℕ → ℝ) (I0 : (ℕ → ℝ) × ℝ)
    (hI : I0 = cacheLoop junk i1 i2 (fun i => Fi (t1 i) (t2 i) 0)) :
    I0.2 = (∑ i ∈ Finset.Ico i1 i2, if i1 = 0 then ∫ t in t1 i..t2 i, F t else junk i) ∧
    sumSegments N x S Fi tr t1 t2 i1 i2 I0.1 I0.2 =
      ∑ i ∈ Finset.Ico i1 i2, if |∫ t in t1 i..t2 i, F t| < |I0.2| * dblEps then 0 else ∫ t in t1 i..t2 i, S (tr t) * F t := by
  obtain ⟨m, rfl⟩ := Nat.exists_eq_add_of_le h12
  have F0 : ∀ u v, Fi u v 0 = ∫ t in u..v, F t := by intro u v; rw [hF]; simp
  obtain ⟨c1, _, c3⟩ := cacheLoop_spec junk i1 m (fun i => Fi (t1 i) (t2 i) 0)
  rw [← hI] at c1 c3
  simp only [F0] at c3
  refine ⟨c3, ?_⟩
  rw [sumSegments, Nat.add_sub_cancel_left]
  have key : ∀ k ≤ m, (List.range' i1 k).foldl (fun result i =>
      if |I0.1 (i - i1)| < |I0.2| * dblEps then result else
      (List.range (N + 1)).foldl (fun result n =>
        result + (if n = 0 then I0.1 (i - i1) else Fi (t1 i) (t2 i) n) *
        vandermonde N (fun k => tr (x i + (k + 0.5) / (N + 1) * (x (i + 1) - x i))) (fun k => S (x i + (k + 0.5) / (N + 1) * (x (i + 1) - x i))) n) result) 0 =
      ∑ i ∈ Finset.Ico i1 (i1 + k), if |∫ t in t1 i..t2 i, F t| < |I0.2| * dblEps then 0 else ∫ t in t1 i..t2 i, S (tr t) * F t := by
    intro k
    induction k with
    | zero => intro _; simp
    | succ k ih =>
      intro hk
      rw [List.range'_concat, List.foldl_append, ih (by omega), ← add_assoc, Finset.sum_Ico_succ_top (by omega)]
      simp only [List.foldl_cons, List.foldl_nil, one_mul]
      rw [c1 (i1 + k) (by omega) (by omega), F0]
      split_ifs with hsk
      · rw [add_zero]
      · obtain ⟨p, p1, p2⟩ := hS (i1 + k) (by omega)
        obtain ⟨u1, u2⟩ := ht (i1 + k) (by omega) (by omega)
        have := segment_value N F Fi hF hi S (x (i1 + k)) (x (i1 + k + 1)) (hg _ _ (by omega) (by omega)) p p1 p2 α β hβ tr htr hinv _ _ u1 u2
        simp only [F0] at this
        exact this _
  exact key m le_rfl

theorem seg_integrable (F S : ℝ → ℝ) (hi : ∀ u v, IntervalIntegrable F MeasureTheory.volume u v) (y1 y2 : ℝ) (p : Polynomial ℝ)
    (hS : ∀ t, y1 ≤ t → t ≤ y2 → S t = p.eval t) (α β : ℝ) (tr : ℝ → ℝ) (htr : ∀ y, tr y = α + β * y) (u v : ℝ) (huv : u ≤ v)
    (hin : ∀ t, u ≤ t → t ≤ v → y1 ≤ tr t ∧ tr t ≤ y2) : IntervalIntegrable (fun t => S (tr t) * F t) MeasureTheory.volume u v := by
  have h : IntervalIntegrable (fun t => p.eval (tr t) * F t) MeasureTheory.volume u v := by
    refine (hi u v).continuousOn_mul (Continuous.continuousOn ?_)
    simp only [htr]
    exact p.continuous.comp (by fun_prop)
  refine h.congr fun t ht => ?_
  rw [Set.uIoc_of_le huv] at ht
  obtain ⟨a, b⟩ := hin t ht.1.le ht.2
  simp only [hS _ a b]

/-- For F ≥ 0 and |S| ≤ B, what is skipped does not matter. -/
theorem skip_bound (F S : ℝ → ℝ) (hF0 : ∀ t, 0 ≤ F t) (hi : ∀ u v, IntervalIntegrable F MeasureTheory.volume u v) (tr : ℝ → ℝ) (t1 t2 : ℕ → ℝ) (B : ℝ)
    (m : ℕ) (ht : ∀ i < m, t1 i ≤ t2 i ∧ IntervalIntegrable (fun t => S (tr t) * F t) MeasureTheory.volume (t1 i) (t2 i) ∧ ∀ t, t1 i ≤ t → t ≤ t2 i → |S (tr t)| ≤ B)
    (sum : ℝ) :
    |(∑ i ∈ Finset.Ico 0 m, if |∫ t in t1 i..t2 i, F t| < |sum| * dblEps then 0 else ∫ t in t1 i..t2 i, S (tr t) * F t) -
      ∑ i ∈ Finset.Ico 0 m, ∫ t in t1 i..t2 i, S (tr t) * F t| ≤ m * (B * (|sum| * dblEps)) := by
  rw [← Finset.sum_sub_distrib]
  refine (Finset.abs_sum_le_sum_abs _ _).trans ?_
  have : ∀ i ∈ Finset.Ico 0 m, |(if |∫ t in t1 i..t2 i, F t| < |sum| * dblEps then 0 else ∫ t in t1 i..t2 i, S (tr t) * F t) -
      ∫ t in t1 i..t2 i, S (tr t) * F t| ≤ B * (|sum| * dblEps) := by
    intro i him
    obtain ⟨h1, h2, h3⟩ := ht i (Finset.mem_Ico.1 him).2
    have hB : 0 ≤ B := (abs_nonneg _).trans (h3 _ le_rfl h1)
    have he : 0 ≤ dblEps := by rw [dblEps]; positivity
    split_ifs with hs
    · rw [zero_sub, abs_neg]
      have a : |∫ t in t1 i..t2 i, S (tr t) * F t| ≤ B * ∫ t in t1 i..t2 i, F t := by
        rw [← intervalIntegral.integral_const_mul]
        refine (intervalIntegral.abs_integral_le_integral_abs h1).trans ?_
        refine intervalIntegral.integral_mono_on h1 h2.abs ((hi _ _).const_mul _) ?_
        intro t ht
        rw [abs_mul, abs_of_nonneg (hF0 t)]
        exact mul_le_mul_of_nonneg_right (h3 t ht.1 ht.2) (hF0 t)
      exact a.trans (mul_le_mul_of_nonneg_left ((le_abs_self _).trans hs.le) hB)
    · rw [sub_self, abs_zero]; positivity
  refine (Finset.sum_le_sum this).trans ?_
  simp

/-- C74 (convolution): for a non-negative function F with the documented moments and a piecewise-polynomial interpolator S
bounded by B on its grid, the result does not depend on the previous contents of the memory, and differs from the convolution by at most
(size-1) eps B times the integral of F. -/
theorem C74_convolve (N : ℕ) (x : ℕ → ℝ) (size : ℕ) (hg : Grid x size) (hs : 2 ≤ size) (F : ℝ → ℝ) (Fi : ℝ → ℝ → ℕ → ℝ) (hF : IsMoments F Fi)
    (hi : ∀ u v, IntervalIntegrable F MeasureTheory.volume u v) (hF0 : ∀ t, 0 ≤ F t) (S : ℝ → ℝ) (hS : Piecewise N x size S) (B : ℝ)
    (hB : ∀ t, x 0 ≤ t → t ≤ x (size - 1) → |S t| ≤ B) (a : ℝ) :
    ∃ r, (∀ junk, convolve N x size S Fi junk a = r) ∧
      |r - ∫ t in (a - x (size - 1))..(a - x 0), S (a - t) * F t| ≤ (size - 1) * (B * ((∫ t in (a - x (size - 1))..(a - x 0), F t) * dblEps)) := by
  have ht : ∀ i, 0 ≤ i → i < size - 1 → a - x (i + 1) ≤ a - x i ∧ ∀ t, a - x (i + 1) ≤ t → t ≤ a - x i → x i ≤ a - t ∧ a - t ≤ x (i + 1) := by
    intro i _ hi
    have := hg i (i + 1) (by omega) (by omega)
    exact ⟨by linarith, fun t h1 h2 => ⟨by linarith, by linarith⟩⟩
  have spec := fun junk => sumSegments_spec N x size hg F Fi hF hi S hS a (-1) (by norm_num) (fun y => a - y) (fun y => by ring) (fun y => by ring)
    (fun i => a - x (i + 1)) (fun i => a - x i) 0 (size - 1) (by omega) (by omega) ht junk _ rfl
  simp only [if_true] at spec
  have int : ∀ i, i < size - 1 → IntervalIntegrable (fun t => S (a - t) * F t) MeasureTheory.volume (a - x (i + 1)) (a - x i) := by
    intro i him
    obtain ⟨p, _, p2⟩ := hS i (by omega)
    exact seg_integrable F S hi _ _ p p2 a (-1) (fun y => a - y) (fun y => by ring) _ _ (ht i (by omega) him).1 (ht i (by omega) him).2
  have rev : ∀ G : ℝ → ℝ, (∀ i, i < size - 1 → IntervalIntegrable G MeasureTheory.volume (a - x (i + 1)) (a - x i)) →
      ∑ i ∈ Finset.Ico 0 (size - 1), ∫ t in (a - x (i + 1))..(a - x i), G t = ∫ t in (a - x (size - 1))..(a - x 0), G t := by
    intro G hG
    rw [intervalIntegral.integral_symm, ← intervalIntegral.sum_integral_adjacent_intervals_Ico (a := fun i => a - x i) (Nat.zero_le _)
      (fun i hi => (hG i (Set.mem_Ico.1 hi).2).symm), ← Finset.sum_neg_distrib]
    exact Finset.sum_congr rfl fun i _ => intervalIntegral.integral_symm _ _
  have sum_eq : ∑ i ∈ Finset.Ico 0 (size - 1), ∫ t in (a - x (i + 1))..(a - x i), F t = ∫ t in (a - x (size - 1))..(a - x 0), F t :=
    rev F fun i _ => hi _ _
  refine ⟨∑ i ∈ Finset.Ico 0 (size - 1), if |∫ t in (a - x (i + 1))..(a - x i), F t| < |∫ t in (a - x (size - 1))..(a - x 0), F t| * dblEps then 0
      else ∫ t in (a - x (i + 1))..(a - x i), S (a - t) * F t, fun junk => ?_, ?_⟩
  · rw [convolve, if_neg (by omega)]
    obtain ⟨h1, h2⟩ := spec junk
    rw [sum_eq] at h1
    rw [h1] at h2
    simp only [h1]
    exact h2
  · have pos : 0 ≤ ∫ t in (a - x (size - 1))..(a - x 0), F t := by
      refine intervalIntegral.integral_nonneg ?_ fun t _ => hF0 t
      have := Grid.le hg (show 0 ≤ size - 1 by omega) (by omega)
      linarith
    have b := skip_bound F S hF0 hi (fun y => a - y) (fun i => a - x (i + 1)) (fun i => a - x i) B (size - 1)
      (fun i him => ⟨(ht i (by omega) him).1, int i him, fun t h1 h2 => ?_⟩) (∫ t in (a - x (size - 1))..(a - x 0), F t)
    · rw [rev _ int] at b
      refine b.trans (le_of_eq ?_)
      rw [abs_of_nonneg pos, Nat.cast_sub (by omega), Nat.cast_one]
    · obtain ⟨h3, h4⟩ := (ht i (by omega) him).2 t h1 h2
      exact hB _ ((Grid.le hg (show 0 ≤ i by omega) (by omega)).trans h3) (h4.trans (Grid.le hg (show i + 1 ≤ size - 1 by omega) (by omega)))

/-- C74 (product): the same for the integral of S F between the given limits (in any order), restricted to the grid, provided that the
lower of the limits is within the first segment of the grid or below it. -/
theorem C74_product_partial (N : ℕ) (x : ℕ → ℝ) (size : ℕ) (hg : Grid x size) (hs : 2 ≤ size) (F : ℝ → ℝ) (Fi : ℝ → ℝ → ℕ → ℝ) (hF : IsMoments F Fi)
    (hi : ∀ u v, IntervalIntegrable F MeasureTheory.volume u v) (hF0 : ∀ t, 0 ≤ F t) (S : ℝ → ℝ) (hS : Piecewise N x size S) (B : ℝ)
    (hB : ∀ t, x 0 ≤ t → t ≤ x (size - 1) → |S t| ≤ B) (a b : ℝ) (hfirst : min a b < x 1) :
    ∃ r, (∀ junk, integrateProduct N x size S Fi junk a b = some r) ∧
      |r - ∫ t in restrict (x 0) (x (size - 1)) a..restrict (x 0) (x (size - 1)) b, S t * F t| ≤
        (size - 1) * (B * (|∫ t in restrict (x 0) (x (size - 1)) a..restrict (x 0) (x (size - 1)) b, F t| * dblEps)) := by
  have h0 : x 0 < x (size - 1) := hg _ _ (by omega) (by omega)
  have hB0 : 0 ≤ B := (abs_nonneg _).trans (hB _ le_rfl h0.le)
  have he : 0 ≤ dblEps := by rw [dblEps]; positivity
  have hs1 : (1 : ℝ) ≤ size := by exact_mod_cast (by omega : 1 ≤ size)
  have bnd0 : ∀ z : ℝ, 0 ≤ ((size : ℝ) - 1) * (B * (|z| * dblEps)) := fun z => mul_nonneg (by linarith) (by positivity)
  have core : ∀ y1 y2, y1 ≤ y2 → y1 < x 1 →
      (max y1 (x 0) ≥ min y2 (x (size - 1)) → restrict (x 0) (x (size - 1)) y1 = restrict (x 0) (x (size - 1)) y2) ∧
      (max y1 (x 0) < min y2 (x (size - 1)) → restrict (x 0) (x (size - 1)) y1 = max y1 (x 0) ∧ restrict (x 0) (x (size - 1)) y2 = min y2 (x (size - 1)) ∧
        ∃ i2 R, segRange x size (max y1 (x 0)) (min y2 (x (size - 1))) = some (0, i2) ∧
        (∀ junk, sumSegments N x S Fi (fun y => y) (fun i => max (max y1 (x 0)) (x i)) (fun i => min (min y2 (x (size - 1))) (x (i + 1))) 0 i2
          (cacheLoop junk 0 i2 (fun i => Fi (max (max y1 (x 0)) (x i)) (min (min y2 (x (size - 1))) (x (i + 1))) 0)).1
          (cacheLoop junk 0 i2 (fun i => Fi (max (max y1 (x 0)) (x i)) (min (min y2 (x (size - 1))) (x (i + 1))) 0)).2 = R) ∧
        |R - ∫ t in (max y1 (x 0))..(min y2 (x (size - 1))), S t * F t| ≤
          (size - 1) * (B * (|∫ t in (max y1 (x 0))..(min y2 (x (size - 1))), F t| * dblEps))) := by
    intro y1 y2 hy hy1
    constructor
    · intro h
      have h3 : max y1 (x 0) < x (size - 1) := by
        refine max_lt (lt_of_lt_of_le hy1 (Grid.le hg (by omega) (by omega))) h0
      have h4 : y2 ≤ max y1 (x 0) := by
        rcases min_le_iff.1 h with h | h
        · exact h
        · exact absurd h (not_le.2 h3)
      rw [restrict, restrict]
      congr 1
      rcases le_total y1 (x 0) with h5 | h5
      · rw [max_eq_right h5] at h4
        rw [max_eq_left h5, max_eq_left h4]
      · rw [max_eq_left h5] at h4
        rw [le_antisymm hy h4]
    · intro hab
      have ha0 : x 0 ≤ max y1 (x 0) := le_max_right _ _
      have hb0 : min y2 (x (size - 1)) ≤ x (size - 1) := min_le_right _ _
      have ha1 : max y1 (x 0) < x 1 := max_lt hy1 (hg _ _ (by omega) (by omega))
      have r1 : restrict (x 0) (x (size - 1)) y1 = max y1 (x 0) := by
        rw [restrict, max_comm, min_eq_right]; exact hab.le.trans hb0
      have r2 : restrict (x 0) (x (size - 1)) y2 = min y2 (x (size - 1)) := by
        rw [restrict, max_eq_right, min_comm]
        exact (ha0.trans hab.le).trans (min_le_left _ _)
      refine ⟨r1, r2, ?_⟩
      generalize max y1 (x 0) = a at *
      generalize min y2 (x (size - 1)) = b at *
      obtain ⟨i1, i2, e, h12, h2, a2, a3, b2, b3⟩ := segRange_spec hg hs ha0 hab hb0
      obtain rfl : i1 = 0 := by
        by_contra hc
        have := Grid.le hg (show 1 ≤ i1 by omega) (by omega)
        linarith
      obtain ⟨s1, s2, s3⟩ := seg_bounds hg h2 hab a2 a3 b2 b3 h12
      have lim1 : ∀ i, i < i2 → max a (x i) = restrict a b (x i) := fun i hi => by rw [max_comm]; exact (s3 i (by omega) hi).1
      have lim2 : ∀ i, i < i2 → min b (x (i + 1)) = restrict a b (x (i + 1)) := fun i hi => by rw [min_comm]; exact (s3 i (by omega) hi).2.1
      have ht : ∀ i, 0 ≤ i → i < i2 → max a (x i) ≤ min b (x (i + 1)) ∧ ∀ t, max a (x i) ≤ t → t ≤ min b (x (i + 1)) → x i ≤ t ∧ t ≤ x (i + 1) := by
        intro i _ hi
        refine ⟨by rw [lim1 i hi, lim2 i hi]; exact (s3 i (by omega) hi).2.2.1, fun t h1 h2 => ⟨(le_max_right _ _).trans h1, h2.trans (min_le_right _ _)⟩⟩
      have spec := fun junk => sumSegments_spec N x size hg F Fi hF hi S hS 0 1 (by norm_num) (fun y => y) (fun y => by ring) (fun y => rfl)
        (fun i => max a (x i)) (fun i => min b (x (i + 1))) 0 i2 (by omega) h2 ht junk _ rfl
      simp only [if_true] at spec
      have int : ∀ i, i < i2 → IntervalIntegrable (fun t => S t * F t) MeasureTheory.volume (max a (x i)) (min b (x (i + 1))) := by
        intro i him
        obtain ⟨p, _, p2⟩ := hS i (by omega)
        exact seg_integrable F S hi _ _ p p2 0 1 (fun y => y) (fun y => by ring) _ _ (ht i (by omega) him).1 (ht i (by omega) him).2
      have rev : ∀ G : ℝ → ℝ, (∀ i, i < i2 → IntervalIntegrable G MeasureTheory.volume (max a (x i)) (min b (x (i + 1)))) →
          ∑ i ∈ Finset.Ico 0 i2, ∫ t in (max a (x i))..(min b (x (i + 1))), G t = ∫ t in a..b, G t := by
        intro G hG
        have hh := intervalIntegral.sum_integral_adjacent_intervals_Ico (f := G) (μ := MeasureTheory.volume) (a := fun i => restrict a b (x i)) (Nat.zero_le i2) (fun i hi => by
          have hi' := (Set.mem_Ico.1 hi).2
          have := hG i hi'
          rwa [lim1 i hi', lim2 i hi'] at this)
        rw [s1, s2] at hh
        rw [← hh]
        refine Finset.sum_congr rfl fun i hi => ?_
        have hi' := (Finset.mem_Ico.1 hi).2
        rw [lim1 i hi', lim2 i hi']
      have sum_eq := rev F fun i _ => hi _ _
      refine ⟨i2, ∑ i ∈ Finset.Ico 0 i2, if |∫ t in (max a (x i))..(min b (x (i + 1))), F t| < |∫ t in a..b, F t| * dblEps then 0
          else ∫ t in (max a (x i))..(min b (x (i + 1))), S t * F t, e, ?_, ?_⟩
      · intro junk
        obtain ⟨h1, h2⟩ := spec junk
        rw [sum_eq] at h1
        rw [h1] at h2
        rw [h1]
        exact h2
      · have bb := skip_bound F S hF0 hi (fun y => y) (fun i => max a (x i)) (fun i => min b (x (i + 1))) B i2
          (fun i him => ⟨(ht i (by omega) him).1, int i him, fun t h1 h2 => ?_⟩) (∫ t in a..b, F t)
        · rw [rev _ int] at bb
          refine bb.trans (mul_le_mul_of_nonneg_right ?_ (by positivity))
          have : (i2 : ℝ) + 1 ≤ size := by exact_mod_cast h2
          linarith
        · obtain ⟨h3, h4⟩ := (ht i (by omega) him).2 t h1 h2
          exact hB _ ((Grid.le hg (show 0 ≤ i by omega) (by omega)).trans h3) (h4.trans (Grid.le hg (show i + 1 ≤ size - 1 by omega) (by omega)))
  simp only [integrateProduct, if_neg (show ¬ size < 2 by omega)]
  by_cases hx : a ≤ b
  · simp only [if_pos hx, decide_eq_false (not_not.2 hx)]
    obtain ⟨c1, c2⟩ := core a b hx (by rwa [min_eq_left hx] at hfirst)
    by_cases hab : max a (x 0) ≥ min b (x (size - 1))
    · simp only [if_pos hab]
      refine ⟨0, fun _ => rfl, ?_⟩
      rw [c1 hab, intervalIntegral.integral_same, sub_zero, abs_zero]
      exact bnd0 _
    · obtain ⟨e1, e2, i2, R, hr, h1, h2⟩ := c2 (not_le.1 hab)
      simp only [if_neg hab, hr, e1, e2]
      refine ⟨R, fun junk => ?_, h2⟩
      have := h1 junk
      simp only [Option.bind_eq_bind, Option.bind_some, Bool.false_eq_true, if_false, this]
      rfl
  · simp only [if_neg hx, decide_eq_true hx]
    obtain ⟨c1, c2⟩ := core b a (le_of_not_ge hx) (by rwa [min_eq_right (le_of_not_ge hx)] at hfirst)
    by_cases hab : max b (x 0) ≥ min a (x (size - 1))
    · simp only [if_pos hab]
      refine ⟨0, fun _ => rfl, ?_⟩
      rw [c1 hab, intervalIntegral.integral_same, sub_zero, abs_zero]
      exact bnd0 _
    · obtain ⟨e1, e2, i2, R, hr, h1, h2⟩ := c2 (not_le.1 hab)
      simp only [if_neg hab, hr, e1, e2]
      refine ⟨-R, fun junk => ?_, ?_⟩
      · have := h1 junk
        simp only [Option.bind_eq_bind, Option.bind_some, if_true, this]
        rfl
      · have sy : ∀ G : ℝ → ℝ, ∫ t in (min a (x (size - 1)))..(max b (x 0)), G t = -∫ t in (max b (x 0))..(min a (x (size - 1))), G t :=
          fun G => intervalIntegral.integral_symm _ _
        rw [sy, sy F, abs_neg, sub_neg_eq_add, neg_add_eq_sub, abs_sub_comm]
        exact h2

/-- C74 fails when the lower limit is above the second node: the code then adds up uninitialised memory, and the result depends on it.
Grid 0, 1, 2, S = F = 1, limits 1 and 2: the integral is 1, but with a large number left in the memory the result is 0. -/
theorem C74_refuted_uninitialised :
    integrateProduct 1 (fun i => i) 3 (fun _ => 1) (fun u v n => ∫ y in u..v, 1 * y ^ n) (fun _ => 0) 1 2 = some 1 ∧
    integrateProduct 1 (fun i => i) 3 (fun _ => 1) (fun u v n => ∫ y in u..v, 1 * y ^ n) (fun _ => 2 ^ 53) 1 2 = some 0 := by
  have hg : Grid (fun i => (i : ℝ)) 3 := fun i j h _ => Nat.cast_lt.2 h
  have range : segRange (fun i => (i : ℝ)) 3 1 2 = some (1, 2) := by
    obtain ⟨i1, i2, e, _, h3, h4, h5, h6, h7⟩ := segRange_spec hg (by norm_num) (a := 1) (b := 2) (by norm_num) (by norm_num) (by norm_num)
    have u1 : i1 ≤ 1 := by exact_mod_cast h4
    have u2 : 1 < i1 + 1 := by exact_mod_cast h5
    have u3 : i2 - 1 < 2 := by exact_mod_cast h6
    have u4 : 2 ≤ i2 := by exact_mod_cast h7
    rw [e, show i1 = 1 by omega, show i2 = 2 by omega]
  have spec := fun junk => sumSegments_spec 1 (fun i => (i : ℝ)) 3 hg (fun _ => 1) (fun u v n => ∫ y in u..v, 1 * y ^ n) (fun u v n => rfl)
    (fun u v => intervalIntegrable_const) (fun _ => 1) (fun i _ => ⟨1, by simp, by simp⟩) 0 1 (by norm_num) (fun y => y) (fun y => by ring) (fun y => rfl)
    (fun i => max 1 (i : ℝ)) (fun i => min 2 ((i + 1 : ℕ) : ℝ)) 1 2 (by norm_num) (by norm_num) (by
      intro i h1 h2
      obtain rfl : i = 1 := by omega
      norm_num
      exact fun t a b => ⟨a, b⟩) junk _ rfl
  have eval : ∀ v : ℝ, integrateProduct 1 (fun i => i) 3 (fun _ => 1) (fun u v n => ∫ y in u..v, 1 * y ^ n) (fun _ => v) 1 2 =
      some (if 1 < |v| * dblEps then 0 else 1) := by
    intro v
    rw [integrateProduct]
    norm_num only [show ¬ (3 < 2) by norm_num, if_false, if_true, Nat.cast_zero, max_eq_left, min_eq_left, show (1 : ℝ) ≤ 2 by norm_num,
      show max (1 : ℝ) 0 = 1 by norm_num, show min (2 : ℝ) 2 = 2 by norm_num, show ¬ (1 : ℝ) ≥ 2 by norm_num, show 3 - 1 = 2 by norm_num, Nat.cast_ofNat]
    rw [range]
    obtain ⟨h1, h2⟩ := spec (fun _ => v)
    simp only [Option.bind_eq_bind, Option.bind_some]
    rw [h1] at h2
    rw [h1, h2]
    norm_num [Finset.sum_Ico_succ_top]
  constructor
  · rw [eval]; norm_num
  · rw [eval, if_pos]
    rw [dblEps]; norm_num

/-- C74 also fails for functions F of variable sign: a segment on which the integral of F vanishes is skipped although the integral of S F does
not vanish. Grid -1, 1, 2, S(y) = F(y) = y: the result is 7/3 instead of 3. -/
theorem C74_refuted_zero_mean (junk : ℕ → ℝ) :
    integrateProduct 1 (fun i => if i = 0 then -1 else i) 3 (fun y => y) (fun u v n => ∫ y in u..v, y * y ^ n) junk (-1) 2 = some (7 / 3) ∧
    ∫ y in (-1 : ℝ)..2, y * y = 3 := by
  have hg : Grid (fun i => if i = 0 then -1 else (i : ℝ)) 3 := by
    intro i j h hj
    simp only []
    rw [if_neg (show ¬ j = 0 by omega)]
    split_ifs with h0
    · have : (0 : ℝ) ≤ j := Nat.cast_nonneg _
      linarith
    · exact Nat.cast_lt.2 h
  have sq : ∀ u v : ℝ, ∫ y in u..v, y * y = (v ^ 3 - u ^ 3) / 3 := by
    intro u v
    have : (fun y : ℝ => y * y) = fun y => y ^ 2 := by funext y; ring
    rw [this, integral_pow]; norm_num
  refine ⟨?_, by rw [sq]; norm_num⟩
  have range : segRange (fun i => if i = 0 then -1 else (i : ℝ)) 3 (-1) 2 = some (0, 2) := by
    obtain ⟨i1, i2, e, _, h3, h4, h5, h6, h7⟩ := segRange_spec hg (by norm_num) (a := -1) (b := 2) (by norm_num) (by norm_num) (by norm_num)
    have u1 : i1 = 0 := by
      by_contra hc
      simp only [if_neg hc] at h4
      have : (0 : ℝ) ≤ i1 := Nat.cast_nonneg _
      linarith
    have u2 : 2 ≤ i2 := by
      split_ifs at h7 with h
      · norm_num at h7
      · exact_mod_cast h7
    rw [e, u1, show i2 = 2 by omega]
  obtain ⟨h1, h2⟩ := sumSegments_spec 1 (fun i => if i = 0 then -1 else (i : ℝ)) 3 hg (fun y => y) (fun u v n => ∫ y in u..v, y * y ^ n) (fun u v n => rfl)
    (fun u v => continuous_id.intervalIntegrable _ _) (fun y => y) (fun i _ => ⟨Polynomial.X, by simp, by simp⟩) 0 1 (by norm_num) (fun y => y) (fun y => by ring) (fun y => rfl)
    (fun i => max (-1) (if i = 0 then -1 else (i : ℝ))) (fun i => min 2 (if i + 1 = 0 then -1 else ((i + 1 : ℕ) : ℝ))) 0 2 (by norm_num) (by norm_num) (by
      intro i h1 h2
      have : i = 0 ∨ i = 1 := by omega
      rcases this with rfl | rfl <;> norm_num <;> exact fun t a b => ⟨a, b⟩) junk _ rfl
  rw [integrateProduct]
  norm_num only [show ¬ (3 < 2) by norm_num, if_false, if_true, show (-1 : ℝ) ≤ 2 by norm_num,
    show max (-1 : ℝ) (-1) = -1 by norm_num, show min (2 : ℝ) 2 = 2 by norm_num, show ¬ (-1 : ℝ) ≥ 2 by norm_num, show 3 - 1 = 2 by norm_num, Nat.cast_ofNat,
    show ¬ (2 = 0) by norm_num]
  rw [range]
  simp only [Option.bind_eq_bind, Option.bind_some]
  rw [h1] at h2
  rw [h1, h2]
  norm_num [sq, dblEps, Finset.sum_range_succ]

/-- Non-vacuity of the positive results: S(y) = y on the grid 0, 1, 2 and F(y) = y². -/
example : ∃ r, (∀ junk, convolve 1 (fun i => i) 3 (fun y => y) (fun u v n => ∫ y in u..v, y ^ 2 * y ^ n) junk 5 = r) ∧
    |r - ∫ t in (5 - (2 : ℕ) : ℝ)..(5 - (0 : ℕ)), (5 - t) * t ^ 2| ≤ (3 - 1) * (2 * ((∫ t in (5 - (2 : ℕ) : ℝ)..(5 - (0 : ℕ)), t ^ 2) * dblEps)) :=
  C74_convolve 1 (fun i => i) 3 (fun i j h _ => Nat.cast_lt.2 h) (by norm_num) (fun y => y ^ 2) _ (fun _ _ _ => rfl) (fun u v => (continuous_pow 2).intervalIntegrable _ _)
    (fun t => sq_nonneg t) (fun y => y) (fun i _ => ⟨Polynomial.X, by simp, by simp⟩) 2 (by
      intro t h0 h1
      norm_num at h0 h1
      rw [abs_of_nonneg h0]; exact h1) 5

end
end Verif.Spline
