import Verif.Spline.BInterp

/-! Roots and integrals of B-spline interpolators and of the linear interpolator (/repo/src/math_spline.cpp:868-915, 1058-1086, 1256-1259,
1777-1784, 1794-1797); C75, C77. Exact real arithmetic. -/
namespace Verif.Spline

open Verif.BSpline (Grid values derivs node denom cox values_cox)
open Verif.Core (solveCubic solveQuadratic solveLinear)
open Verif.GL
open Polynomial

noncomputable section

/-! ## Model -/

/-- math_spline.cpp:1068-1085: `RootsBspline<N,D>` for N-D = 1, 2, 3; `coefs k` is the (k+D)-th derivative at the left node. -/
def rootsBspline (N D : ℕ) (eps seps : ℝ) (x ampl : ℕ → ℝ) (size : ℕ) (y : ℝ) (index : ℕ) : List ℝ :=
  let coefs : ℕ → ℝ := fun k => combine N (derivs N (k + D) (x index) index x size) ampl index
  match N - D with
  | 3 => solveCubic eps seps (1 / 6 * coefs 3) (0.5 * coefs 2) (coefs 1) (coefs 0 - y)
  | 2 => solveQuadratic (0.5 * coefs 2) (coefs 1) (coefs 0 - y)
  | 1 => solveLinear (coefs 1) (coefs 0 - y)
  | _ => []

/-- math_spline.cpp:880-915: `integrateBspline<N>`; `none` is the exception. -/
def integrateBspline (N : ℕ) (x ampl : ℕ → ℝ) (size : ℕ) (x1 x2 : ℝ) (n : ℕ) : Option ℝ :=
  let GLORDER := (N + n) / 2 + 1
  if GLORDER ≥ 20 then none else
  let flipSign : Bool := decide (x1 > x2)
  let u := if x1 > x2 then x2 else x1
  let v := if x1 > x2 then x1 else x2
  let i1 := max (bin x size u) 0
  let i2 := min (bin x size v) ((size : ℤ) - 2)
  let result := (List.range' i1.toNat (i2 + 1 - i1).toNat).foldl (fun result i =>
    let xleft := max (x i) u
    let dx := min (x (i + 1)) v - xleft
    (List.range GLORDER).foldl (fun result k =>
      let t := xleft + lit ((points GLORDER).getD k 0) * dx
      let fval := combine N (values N t i x size) ampl i
      result + fval * t ^ n * dx * lit ((weights GLORDER).getD k 0)) result) 0
  some (if flipSign then -result else result)

/-! ## Roots -/

/-- Expansion of a polynomial about a point. -/
theorem taylor_expand (p : ℝ[X]) (m : ℕ) (hp : p.natDegree ≤ m) (a s : ℝ) :
    p.eval (a + s) = ∑ d ∈ Finset.range (m + 1), (derivative^[d] p).eval a / (d.factorial : ℝ) * s ^ d := by
  have h : (taylor a p).natDegree < m + 1 := by rw [natDegree_taylor]; omega
  have e : p.eval (a + s) = (taylor a p).eval s := by rw [taylor_eval, add_comm]
  rw [e, (taylor a p).as_sum_range' (m + 1) h, eval_finsetSum]
  apply Finset.sum_congr rfl
  intro d _
  rw [eval_monomial, taylor_coeff]
  congr 1
  have f := congrFun (factorial_smul_hasseDeriv (R := ℝ) d) p
  rw [← f]
  have hd : (d.factorial : ℝ) ≠ 0 := Nat.cast_ne_zero.2 (Nat.factorial_ne_zero d)
  rw [LinearMap.smul_apply, eval_smul, nsmul_eq_mul, mul_div_cancel_left₀ _ hd]

/-- What the solvers are asked for: on each segment, the D-th derivative minus y, as a polynomial in the distance from the left node. -/
theorem rootsBspline_exact (N D : ℕ) (hND : D + 1 ≤ N) (hN3 : N ≤ D + 3) (eps seps : ℝ) (he : 0 ≤ eps) (x ampl : ℕ → ℝ) (size : ℕ) (hg : Grid x size) (y : ℝ)
    (hd : N = D + 3 → ∀ i, i + 1 < size →
      let p := derivative^[D] (segPoly N x ampl size i)
      let a3 := 1 / 6 * (derivative^[3] p).eval (x i)
      let a2 := 0.5 * (derivative^[2] p).eval (x i)
      let a1 := (derivative p).eval (x i)
      let s := -(1/3) * a2 * (1 / a3)
      let Q := 1/3 * a1 * (1 / a3) - s ^ 2
      let R := s ^ 3 - 0.5 * (s * a1 + (p.eval (x i) - y)) * (1 / a3)
      a3 ≠ 0 → Q ^ 3 + R ^ 2 = 0 ∨ 2 * eps * R ^ 2 < |Q ^ 3 + R ^ 2|) :
    ExactRoots x size (fun i => derivative^[D] (segPoly N x ampl size i)) y (rootsBspline N D eps seps x ampl size y) := by
  intro i hi
  set p := derivative^[D] (segPoly N x ampl size i) with hp
  have hdeg : p.natDegree ≤ N - D := (natDegree_iterate_derivative _ _).trans (Nat.sub_le_sub_right (segPoly_degree _ _ _ _ _) _)
  have hc : ∀ k, k + D ≤ N → combine N (derivs N (k + D) (x i) i x size) ampl i = (derivative^[k] p).eval (x i) := by
    intro k hk
    rw [combine_derivs hg hi N (k + D) hk, hp, ← Function.iterate_add_apply]
  have ex := fun s => taylor_expand p (N - D) hdeg (x i) s
  -- a polynomial with the constant value y
  have const : p = C y ↔ ∀ s, p.eval (x i + s) = y := by
    constructor
    · intro h s; rw [h, eval_C]
    · intro h
      apply Polynomial.funext
      intro r
      rw [eval_C, ← h (r - x i)]; congr 1; ring
  obtain h | h | h : N - D = 1 ∨ N - D = 2 ∨ N - D = 3 := by omega
  · have e0 : ∀ s, p.eval (x i + s) = (derivative p).eval (x i) * s + p.eval (x i) := by
      intro s
      rw [ex s, h]
      simp [Finset.sum_range_succ]; ring
    have r : rootsBspline N D eps seps x ampl size y i = solveLinear ((derivative p).eval (x i)) (p.eval (x i) - y) := by
      rw [rootsBspline]
      simp only [h]
      rw [hc 1 (by omega), hc 0 (by omega)]; rfl
    rw [r]
    constructor
    · intro hP
      have h1 := const.1 hP 0
      have h2 := const.1 hP 1
      rw [e0] at h1 h2
      rw [show (derivative p).eval (x i) = 0 by linarith, show p.eval (x i) - y = 0 by linarith]
      norm_num [solveLinear]
    · intro hP
      have hne : (derivative p).eval (x i) ≠ 0 ∨ p.eval (x i) - y ≠ 0 := by
        by_contra hc'
        push Not at hc'
        apply hP
        rw [const]
        intro s
        rw [e0, hc'.1]; linarith [hc'.2]
      refine ⟨(Verif.Core.C15_quadratic 0 _ _ (Or.inr hne)).1 |> fun q => ?_, fun s => ?_⟩
      · have q' : solveQuadratic 0 ((derivative p).eval (x i)) (p.eval (x i) - y) = solveLinear ((derivative p).eval (x i)) (p.eval (x i) - y) := by
          rw [solveQuadratic, if_pos rfl]
        rwa [q'] at q
      · have q' : solveQuadratic 0 ((derivative p).eval (x i)) (p.eval (x i) - y) = solveLinear ((derivative p).eval (x i)) (p.eval (x i) - y) := by
          rw [solveQuadratic, if_pos rfl]
        rw [← q', (Verif.Core.C15_quadratic 0 _ _ (Or.inr hne)).2 s, e0]
        constructor <;> intro h' <;> linarith
  · have e0 : ∀ s, p.eval (x i + s) = 0.5 * (derivative^[2] p).eval (x i) * s ^ 2 + (derivative p).eval (x i) * s + p.eval (x i) := by
      intro s
      rw [ex s, h]
      simp [Finset.sum_range_succ, Nat.factorial]; ring
    have r : rootsBspline N D eps seps x ampl size y i = solveQuadratic (0.5 * (derivative^[2] p).eval (x i)) ((derivative p).eval (x i)) (p.eval (x i) - y) := by
      rw [rootsBspline]
      simp only [h]
      rw [hc 1 (by omega), hc 0 (by omega), hc 2 (by omega)]; rfl
    rw [r]
    constructor
    · intro hP
      have h1 := const.1 hP 0
      have h2 := const.1 hP 1
      have h3 := const.1 hP (-1)
      rw [e0] at h1 h2 h3
      rw [show (derivative p).eval (x i) = 0 by linarith, show p.eval (x i) - y = 0 by linarith, show 0.5 * (derivative^[2] p).eval (x i) = 0 by linarith]
      norm_num [solveQuadratic, solveLinear]
    · intro hP
      have hne : 0.5 * (derivative^[2] p).eval (x i) ≠ 0 ∨ (derivative p).eval (x i) ≠ 0 ∨ p.eval (x i) - y ≠ 0 := by
        by_contra hc'
        push Not at hc'
        apply hP
        rw [const]
        intro s
        rw [e0, hc'.1, hc'.2.1]; linarith [hc'.2.2]
      have q := Verif.Core.C15_quadratic _ _ _ hne
      refine ⟨q.1, fun s => ?_⟩
      rw [q.2, e0]
      constructor <;> intro h' <;> linarith
  · have e0 : ∀ s, p.eval (x i + s) = 1 / 6 * (derivative^[3] p).eval (x i) * s ^ 3 + 0.5 * (derivative^[2] p).eval (x i) * s ^ 2 +
        (derivative p).eval (x i) * s + p.eval (x i) := by
      intro s
      rw [ex s, h]
      simp [Finset.sum_range_succ, Nat.factorial]; ring
    have r : rootsBspline N D eps seps x ampl size y i = solveCubic eps seps (1 / 6 * (derivative^[3] p).eval (x i)) (0.5 * (derivative^[2] p).eval (x i))
        ((derivative p).eval (x i)) (p.eval (x i) - y) := by
      rw [rootsBspline]
      simp only [h]
      rw [hc 1 (by omega), hc 0 (by omega), hc 2 (by omega), hc 3 (by omega)]; rfl
    rw [r]
    have hdi := hd (by omega) i hi
    simp only [← hp] at hdi
    generalize 1 / 6 * (derivative^[3] p).eval (x i) = a3 at *
    generalize 0.5 * (derivative^[2] p).eval (x i) = a2 at *
    generalize (derivative p).eval (x i) = a1 at *
    by_cases h3 : a3 = 0
    · subst h3
      constructor
      · intro hP
        have h1 := const.1 hP 0
        have h2 := const.1 hP 1
        have h3 := const.1 hP (-1)
        rw [e0] at h1 h2 h3
        rw [show a1 = 0 by linarith, show p.eval (x i) - y = 0 by linarith, show a2 = 0 by linarith]
        norm_num [solveCubic, solveQuadratic, solveLinear]
      · intro hP
        have hne : a2 ≠ 0 ∨ a1 ≠ 0 ∨ p.eval (x i) - y ≠ 0 := by
          by_contra hc'
          push Not at hc'
          apply hP
          rw [const]
          intro s
          rw [e0, hc'.1, hc'.2.1]; linarith [hc'.2.2]
        have q := Verif.Core.C44_degenerate eps seps _ _ _ hne
        refine ⟨q.1, fun s => ?_⟩
        rw [q.2, e0]
        constructor <;> intro h' <;> linarith
    · constructor
      · intro hP
        exfalso
        have h1 := const.1 hP 0
        have h2 := const.1 hP 1
        have h4 := const.1 hP (-1)
        have h5 := const.1 hP 2
        rw [e0] at h1 h2 h4 h5
        apply h3; linarith
      · intro hP
        have q := Verif.Core.C44_cubic eps seps a3 a2 a1 (p.eval (x i) - y) he h3 (hdi h3)
        refine ⟨q.1, fun s => ?_⟩
        rw [q.2, e0]
        constructor <;> intro h' <;> linarith

/-- C75 for B-splines of degree 1, 2 and 3, any amplitudes; for degree 3, if the discriminants of the equations on all segments are zero or
larger than the tolerance of `solveCubic`, cf. C44. -/
theorem C75_bspline (N : ℕ) (hN : 1 ≤ N ∧ N ≤ 3) (eps seps : ℝ) (he : 0 ≤ eps) (x ampl : ℕ → ℝ) (size : ℕ) (hg : Grid x size) (hs : 2 ≤ size) (y : ℝ)
    (hd : N = 3 → ∀ i, i + 1 < size →
      let out := fun d => (BsplineWrapper.evalDeriv N d x ampl size (x i)).getD 0
      let a3 := 1 / 6 * out 3
      let a2 := 0.5 * out 2
      let s := -(1/3) * a2 * (1 / a3)
      let Q := 1/3 * out 1 * (1 / a3) - s ^ 2
      let R := s ^ 3 - 0.5 * (s * out 1 + (out 0 - y)) * (1 / a3)
      a3 ≠ 0 → Q ^ 3 + R ^ 2 = 0 ∨ 2 * eps * R ^ 2 < |Q ^ 3 + R ^ 2|)
    (x1 x2 : Option ℝ) (hl : max (lower x x1 x2) (x 0) < min (upper x size x1 x2) (x (size - 1))) :
    ∃ R, findRoots x size (rootsBspline N 0 eps seps x ampl size y) x1 x2 = some R ∧ Increasing0 R ∧
      (∀ r ∈ R, lower x x1 x2 ≤ r ∧ r ≤ upper x size x1 x2 ∧ BsplineWrapper.evalDeriv N 0 x ampl size r = some y) ∧
      ∀ t, lower x x1 x2 ≤ t → t ≤ upper x size x1 x2 → BsplineWrapper.evalDeriv N 0 x ampl size t = some y →
        (∀ i, i + 1 < size → x i ≤ t → t ≤ x (i + 1) → ∃ u, x i ≤ u ∧ u ≤ x (i + 1) ∧ BsplineWrapper.evalDeriv N 0 x ampl size u ≠ some y) →
        ∃ r ∈ R, r ≤ t ∧ (r = t ∨ ¬ isLarger t r) := by
  have hS : ∀ i, i + 1 < size → ∀ t, x i ≤ t → t ≤ x (i + 1) →
      BsplineWrapper.evalDeriv N 0 x ampl size t = some ((segPoly N x ampl size i).eval t) := by
    intro i hi t h1 h2
    have l1 := Grid.le hg (show 0 ≤ i by omega) (by omega)
    have l2 := Grid.le hg (show i + 1 ≤ size - 1 by omega) (by omega)
    obtain ⟨k, k1, k2, k3, _, k5⟩ := (eval_cases hg hs N 0 (by omega) ampl t).2 (by linarith) (by linarith)
    rw [k5]
    congr 1
    show (segPoly N x ampl size k).eval t = _
    rcases Nat.lt_trichotomy k i with h | h | h
    · have : x (k + 1) ≤ x i := Grid.le hg (by omega) (by omega)
      have e : t = x i := le_antisymm (by linarith) h1
      have hk : i = k + 1 := by
        by_contra hne
        have := hg (k + 1) i (by omega) (by omega)
        linarith
      have := segPoly_node hg (show k + 2 < size by omega) N 0 (by omega) ampl
      rw [e, hk]; exact this
    · rw [h]
    · have : x (i + 1) ≤ x k := Grid.le hg (by omega) (by omega)
      have e : t = x k := le_antisymm (by linarith) k2
      have hk : k = i + 1 := by
        by_contra hne
        have := hg (i + 1) k (by omega) (by omega)
        linarith
      have := segPoly_node hg (show i + 2 < size by omega) N 0 (by omega) ampl
      rw [e, hk]; exact this.symm
  have hE := rootsBspline_exact N 0 (by omega) (by omega) eps seps he x ampl size hg y (by
    intro h i hi
    have hout : ∀ d, (BsplineWrapper.evalDeriv N d x ampl size (x i)).getD 0 = (derivative^[d] (segPoly N x ampl size i)).eval (x i) := by
      intro d
      have hb : bin x size (x i) = i := by
        rcases bin_cases hg (by omega) (x i) with ⟨h, _⟩ | ⟨h, _⟩ | ⟨h, _⟩ | ⟨k, hk, q1, q2, q3, e'⟩
        · have := Grid.le hg (show 0 ≤ i by omega) (by omega); linarith
        · have := Grid.le hg (show i ≤ size - 1 by omega) (by omega); linarith
        · omega
        · have : k = i := by
            rcases Nat.lt_trichotomy k i with h | h | h
            · have l := Grid.le hg (show k + 1 ≤ i by omega) (by omega)
              have := q3 (le_antisymm q2 l)
              omega
            · exact h
            · have := hg i k h (by omega); linarith
          rw [e', this]
      rw [BsplineWrapper.evalDeriv, hb, if_neg (by omega)]
      by_cases hd' : d ≤ N
      · rw [if_pos hd', Int.toNat_natCast, combine_derivs hg hi N d hd']; rfl
      · rw [if_neg hd', iterate_derivative_eq_zero (lt_of_le_of_lt (segPoly_degree _ _ _ _ _) (by omega)), eval_zero]; rfl
    have := hd (by omega) i hi
    simp only [hout] at this
    exact this)
  obtain ⟨R, r1, r2, r3, r4⟩ := C75_roots x size hg hs (fun t => (BsplineWrapper.evalDeriv N 0 x ampl size t).getD 0)
    (fun i => derivative^[0] (segPoly N x ampl size i)) (by intro i hi t h1 h2; simp only [hS i hi t h1 h2]; rfl) y _ hE x1 x2 hl
  have inside : ∀ t, x 0 ≤ t → t ≤ x (size - 1) → ∃ v, BsplineWrapper.evalDeriv N 0 x ampl size t = some v := by
    intro t h1 h2
    obtain ⟨_, _, _, _, _, k5⟩ := (eval_cases hg hs N 0 (by omega) ampl t).2 h1 h2
    exact ⟨_, k5⟩
  refine ⟨R, r1, r2, ?_, ?_⟩
  · intro r hr
    obtain ⟨a, b, c, d, e⟩ := r3 r hr
    obtain ⟨v, hv⟩ := inside r c d
    rw [hv] at e ⊢
    exact ⟨a, b, by rw [← e]; rfl⟩
  · intro t t1 t2 ht hne
    have ht0 : x 0 ≤ t := by
      by_contra hc
      rw [(eval_cases hg hs N 0 (by omega) ampl t).1 (Or.inl (not_le.1 hc))] at ht; cases ht
    have ht1 : t ≤ x (size - 1) := by
      by_contra hc
      rw [(eval_cases hg hs N 0 (by omega) ampl t).1 (Or.inr (not_le.1 hc))] at ht; cases ht
    refine r4 t t1 t2 ht0 ht1 (by rw [ht]; rfl) ?_
    intro i hi h1 h2 hc
    obtain ⟨u, u1, u2, u3⟩ := hne i hi h1 h2
    apply u3
    rw [hS i hi u u1 u2]
    have : (derivative^[0] (segPoly N x ampl size i)) = C y := hc
    rw [Function.iterate_zero, id] at this
    rw [this, eval_C]

/-- The linear interpolator inside the grid is the B-spline of degree 1 with the same values. -/
theorem linear_bspline (x f : ℕ → ℝ) (size : ℕ) (hg : Grid x size) (hs : 2 ≤ size) (t : ℝ) (h0 : x 0 ≤ t) (h1 : t ≤ x (size - 1)) :
    ∃ v, BsplineWrapper.evalDeriv 1 0 x f size t = some v ∧ ∃ j, LinearInterpolator.evalDeriv x f size t = some j ∧ j.val = v := by
  obtain ⟨i, a, b, c, d, _⟩ := bin_inside hg hs h0 h1
  have hne : x (i + 1) - x i ≠ 0 := sub_ne_zero.2 (hg i (i + 1) (by omega) b).ne'
  refine ⟨_, by rw [BsplineWrapper.evalDeriv, a, if_neg (by omega), if_pos (by omega), Int.toNat_natCast], _,
    by rw [LinearInterpolator.evalDeriv, if_neg (by omega)], ?_⟩
  rw [a, show (max 0 (min ((size : ℤ) - 2) (i : ℤ))).toNat = i by omega]
  simp only [if_pos (show size > 1 by omega)]
  rw [combine_eq, Finset.sum_range_succ, Finset.sum_range_one, derivs,
    values_cox hg b 1 t 0 (by omega), values_cox hg b 1 t 1 (by omega)]
  have n0 : node x size (i : ℤ) = x i := Verif.BSpline.node_nat (by omega)
  have n1 : node x size ((i : ℤ) + 1) = x (i + 1) := by
    have := Verif.BSpline.node_nat (grid := x) (size := size) (i := i + 1) b
    push_cast at this; exact this
  simp only [cox, Verif.Core.linearInterp]
  push_cast
  rw [show (i : ℤ) - 1 + 0 + 1 = i by ring, show (i : ℤ) - 1 + 0 + 0 + 1 = i by ring, show (i : ℤ) - 1 + 0 + 0 + 2 = i + 1 by ring,
    show (i : ℤ) - 1 + 1 + 0 + 1 = i + 1 by ring, show (i : ℤ) - 1 + 1 = i by ring,
    if_neg (show ¬ ((i : ℤ) - 1 + 0 = i) by omega), if_pos rfl, if_neg (show ¬ ((i : ℤ) + 1 = i) by omega), n0, n1]
  rw [show 0 + i = i by ring, show 1 + i = i + 1 by ring]
  field_simp
  ring

/-- C75 fails in one respect: a root at zero that coincides with a node is returned twice. Here the linear interpolator of the function y=x on
the nodes -1, 0, 1. -/
theorem C75_refuted_duplicate (eps seps : ℝ) :
    findRoots (fun i => (i : ℝ) - 1) 3 (rootsBspline 1 0 eps seps (fun i => (i : ℝ) - 1) (fun i => (i : ℝ) - 1) 3 0) none none = some [0, 0] := by
  have hg : Grid (fun i => (i : ℝ) - 1) 3 := fun i j h _ => by have : (i : ℝ) < j := Nat.cast_lt.2 h; simpa using this
  have b0 : bin (fun i => (i : ℝ) - 1) 3 (-1) = 0 := by
    rcases bin_cases hg (by norm_num) (-1) with ⟨h, _⟩ | ⟨h, _⟩ | ⟨h, _⟩ | ⟨k, hk, q1, q2, q3, e'⟩
    · norm_num at h
    · norm_num at h
    · omega
    · have : (k : ℝ) ≤ 0 := by linarith
      have : k = 0 := by exact_mod_cast le_antisymm this (Nat.cast_nonneg k)
      rw [e', this]; rfl
  have b1 : bin (fun i => (i : ℝ) - 1) 3 1 = 1 := by
    rcases bin_cases hg (by norm_num) 1 with ⟨h, _⟩ | ⟨h, _⟩ | ⟨h, _⟩ | ⟨k, hk, q1, q2, q3, e'⟩
    · norm_num at h
    · norm_num at h
    · omega
    · have : (1 : ℝ) ≤ k := by push_cast at q2; linarith
      have : 1 ≤ k := by exact_mod_cast this
      rw [e', show k = 1 by omega]; rfl
  have seg : ∀ i : ℕ, i < 2 → rootsBspline 1 0 eps seps (fun i => (i : ℝ) - 1) (fun i => (i : ℝ) - 1) 3 0 i = [-((i : ℝ) - 1)] := by
    intro i hi
    have hE := rootsBspline_exact 1 0 (by omega) (by omega) |eps| seps (abs_nonneg _) (fun i => (i : ℝ) - 1) (fun i => (i : ℝ) - 1) 3 hg 0 (by intro h; omega)
    have hE' : rootsBspline 1 0 |eps| seps (fun i => (i : ℝ) - 1) (fun i => (i : ℝ) - 1) 3 0 i = rootsBspline 1 0 eps seps (fun i => (i : ℝ) - 1) (fun i => (i : ℝ) - 1) 3 0 i := rfl
    rw [← hE']
    obtain ⟨_, h2⟩ := hE i (by omega)
    have hval : ∀ s, (derivative^[0] (segPoly 1 (fun i => (i : ℝ) - 1) (fun i => (i : ℝ) - 1) 3 i)).eval ((i : ℝ) - 1 + s) = (i : ℝ) - 1 + s := by
      intro s
      rw [← combine_derivs hg (by omega) 1 0 (by omega), combine_eq, Finset.sum_range_succ, Finset.sum_range_one, derivs,
        values_cox hg (by omega) 1 _ 0 (by omega), values_cox hg (by omega) 1 _ 1 (by omega)]
      have n0 : node (fun i => (i : ℝ) - 1) 3 (i : ℤ) = (i : ℝ) - 1 := Verif.BSpline.node_nat (by omega)
      have n1 : node (fun i => (i : ℝ) - 1) 3 ((i : ℤ) + 1) = (i : ℝ) := by
        have := Verif.BSpline.node_nat (grid := fun i => (i : ℝ) - 1) (size := 3) (i := i + 1) (by omega)
        push_cast at this; rw [this]; ring
      simp only [cox]
      push_cast
      rw [show (i : ℤ) - 1 + 0 + 1 = i by ring, show (i : ℤ) - 1 + 0 + 0 + 1 = i by ring, show (i : ℤ) - 1 + 0 + 0 + 2 = i + 1 by ring,
        show (i : ℤ) - 1 + 1 + 0 + 1 = i + 1 by ring, show (i : ℤ) - 1 + 1 = i by ring,
        if_neg (show ¬ ((i : ℤ) - 1 + 0 = i) by omega), if_pos rfl, if_neg (show ¬ ((i : ℤ) + 1 = i) by omega), n0, n1]
      ring
    have hne : derivative^[0] (segPoly 1 (fun i => (i : ℝ) - 1) (fun i => (i : ℝ) - 1) 3 i) ≠ C 0 := by
      intro h
      have := hval (1 - ((i : ℝ) - 1))
      rw [h, eval_C] at this
      norm_num at this
    obtain ⟨s1, s2⟩ := h2 hne
    have mem : ∀ s, s ∈ rootsBspline 1 0 |eps| seps (fun i => (i : ℝ) - 1) (fun i => (i : ℝ) - 1) 3 0 i ↔ s = -((i : ℝ) - 1) := by
      intro s
      rw [s2, hval]
      constructor <;> intro h <;> linarith
    generalize rootsBspline 1 0 |eps| seps (fun i => (i : ℝ) - 1) (fun i => (i : ℝ) - 1) 3 0 i = L at *
    match L, s1, mem with
    | [], _, mem => exact absurd ((mem _).2 rfl) (by simp)
    | [a], _, mem => rw [(mem a).1 (by simp)]
    | a :: b :: L, s1, mem =>
      have h1 := (mem a).1 (by simp)
      have h2 := (mem b).1 (by simp)
      have := (List.pairwise_cons.1 s1).1 b (by simp)
      linarith
  have il : isLarger 0 0 := by rw [isLarger]; simp
  rw [findRoots, if_neg (by norm_num)]
  simp only [clipLimits]
  norm_num [b0, b1]
  rw [show List.range' 0 (Int.toNat 2) = [0, 1] from rfl]
  simp only [List.foldl_cons, List.foldl_nil, seg 0 (by omega), seg 1 (by omega), List.map_cons, List.map_nil]
  rw [rootsStep, rootsStep]
  have c0 : -(((0 : ℕ) : ℝ) - 1) + (((0 : ℕ) : ℝ) - 1) = 0 := by ring
  have c1 : -(((1 : ℕ) : ℝ) - 1) + (((1 : ℕ) : ℝ) - 1) = 0 := by ring
  rw [c0, c1, if_pos (c := (0 : ℝ) ≥ ((0 : ℕ) : ℝ) - 1 ∧ 0 ≤ min 1 ((0 : ℕ) : ℝ) ∧ _) ⟨by norm_num, by norm_num, by simp⟩, if_pos]
  · rfl
  · refine ⟨by norm_num, by norm_num, ?_⟩
    intro last h
    simp at h
    rw [← h]; exact il

/-- C75 for LinearInterpolator. -/
theorem C75_linear (eps seps : ℝ) (he : 0 ≤ eps) (x f : ℕ → ℝ) (size : ℕ) (hg : Grid x size) (hs : 2 ≤ size) (y : ℝ)
    (x1 x2 : Option ℝ) (hl : max (lower x x1 x2) (x 0) < min (upper x size x1 x2) (x (size - 1))) :
    ∃ R, findRoots x size (rootsBspline 1 0 eps seps x f size y) x1 x2 = some R ∧ Increasing0 R ∧
      (∀ r ∈ R, lower x x1 x2 ≤ r ∧ r ≤ upper x size x1 x2 ∧ x 0 ≤ r ∧ r ≤ x (size - 1) ∧
        ∃ j, LinearInterpolator.evalDeriv x f size r = some j ∧ j.val = y) ∧
      ∀ t j, lower x x1 x2 ≤ t → t ≤ upper x size x1 x2 → x 0 ≤ t → t ≤ x (size - 1) → LinearInterpolator.evalDeriv x f size t = some j → j.val = y →
        (∀ i, i + 1 < size → x i ≤ t → t ≤ x (i + 1) → ¬ (f i = y ∧ f (i + 1) = y)) → ∃ r ∈ R, r ≤ t ∧ (r = t ∨ ¬ isLarger t r) := by
  have cv : ∀ t, x 0 ≤ t → t ≤ x (size - 1) → ∀ j, LinearInterpolator.evalDeriv x f size t = some j → BsplineWrapper.evalDeriv 1 0 x f size t = some j.val := by
    intro t h0 h1 j hj
    obtain ⟨v, h2, j', h3, h4⟩ := linear_bspline x f size hg hs t h0 h1
    rw [hj] at h3
    cases h3
    rw [h2, h4]
  obtain ⟨R, r1, r2, r3, r4⟩ := C75_bspline 1 (by omega) eps seps he x f size hg hs y (by intro h; omega) x1 x2 hl
  refine ⟨R, r1, r2, ?_, ?_⟩
  · intro r hr
    obtain ⟨a, b, c⟩ := r3 r hr
    have h0 : x 0 ≤ r := by
      by_contra hc
      rw [(eval_cases hg hs 1 0 (by omega) f r).1 (Or.inl (not_le.1 hc))] at c; cases c
    have h1 : r ≤ x (size - 1) := by
      by_contra hc
      rw [(eval_cases hg hs 1 0 (by omega) f r).1 (Or.inr (not_le.1 hc))] at c; cases c
    refine ⟨a, b, h0, h1, ?_⟩
    obtain ⟨v, h2, j', h3, h4⟩ := linear_bspline x f size hg hs r h0 h1
    rw [c] at h2
    exact ⟨j', h3, by rw [h4]; exact (Option.some.inj h2).symm⟩
  · intro t j t1 t2 h0 h1 hj hy hne
    refine r4 t t1 t2 (by rw [cv t h0 h1 j hj, hy]) ?_
    intro i hi h2 h3
    obtain ⟨S, e1, e2, _⟩ := C69_linear x f size hg hs
    have l1 := Grid.le hg (show 0 ≤ i by omega) (by omega)
    have l2 := Grid.le hg (show i + 1 ≤ size - 1 by omega) (by omega)
    have l3 := (hg i (i + 1) (by omega) hi).le
    by_cases hfi : f i = y
    · refine ⟨x (i + 1), l3, le_rfl, ?_⟩
      rw [cv (x (i + 1)) (by linarith) (by linarith) _ (e1 _), e2 (i + 1) hi]
      intro h
      exact hne i hi h2 h3 ⟨hfi, Option.some.inj h⟩
    · refine ⟨x i, le_rfl, l3, ?_⟩
      rw [cv (x i) (by linarith) (by linarith) _ (e1 _), e2 i (by omega)]
      intro h
      exact hfi (Option.some.inj h)

/-! ## Integrals -/

/-- Segments of the loop in `integrateBspline`: outside of the range i1..i2 the restricted segments are empty, and inside the limits used in the code are
those of the restricted segments. -/
theorem bsplineSegs {x : ℕ → ℝ} {size : ℕ} (hg : Grid x size) (hs : 2 ≤ size) {u v : ℝ} (huv : u ≤ v) (i : ℕ) (hi : i + 1 < size) :
    let c := fun i => restrict (restrict (x 0) (x (size - 1)) u) (restrict (x 0) (x (size - 1)) v) (x i)
    c i ≤ c (i + 1) ∧
    (max (bin x size u) 0 ≤ i ∧ (i : ℤ) ≤ min (bin x size v) ((size : ℤ) - 2) → max (x i) u = c i ∧ min (x (i + 1)) v = c (i + 1) ∧
      x i ≤ c i ∧ c (i + 1) ≤ x (i + 1)) ∧
    (¬ (max (bin x size u) 0 ≤ i ∧ (i : ℤ) ≤ min (bin x size v) ((size : ℤ) - 2)) → c i = c (i + 1)) := by
  intro c
  have x0 : x 0 ≤ x i := Grid.le hg (by omega) (by omega)
  have xs : x (i + 1) ≤ x (size - 1) := Grid.le hg (by omega) (by omega)
  have xi : x i < x (i + 1) := hg i (i + 1) (by omega) hi
  have hub : bin x size u ≤ i → u ≤ x (i + 1) := by
    intro h
    rcases bin_cases hg (by omega) u with ⟨h, _⟩ | ⟨h1, e⟩ | ⟨h, _⟩ | ⟨k, hk, q1, q2, q3, e'⟩
    · linarith
    · omega
    · omega
    · rw [e'] at h
      have := Grid.le hg (show k + 1 ≤ i + 1 by omega) (by omega)
      linarith
  have hub' : (i : ℤ) < bin x size u → x (i + 1) ≤ u := by
    intro h
    rcases bin_cases hg (by omega) u with ⟨_, e⟩ | ⟨h1, e⟩ | ⟨h, _⟩ | ⟨k, hk, q1, q2, q3, e'⟩
    · omega
    · linarith
    · omega
    · rw [e'] at h
      have := Grid.le hg (show i + 1 ≤ k by omega) (by omega)
      linarith
  have hvb : (i : ℤ) ≤ bin x size v → x i ≤ v := by
    intro h
    rcases bin_cases hg (by omega) v with ⟨_, e⟩ | ⟨h1, e⟩ | ⟨h, _⟩ | ⟨k, hk, q1, q2, q3, e'⟩
    · omega
    · linarith
    · omega
    · rw [e'] at h
      have := Grid.le hg (show i ≤ k by omega) (by omega)
      linarith
  have hvb' : bin x size v < i → v ≤ x i := by
    intro h
    rcases bin_cases hg (by omega) v with ⟨h1, e⟩ | ⟨h1, e⟩ | ⟨h, _⟩ | ⟨k, hk, q1, q2, q3, e'⟩
    · linarith
    · omega
    · omega
    · rw [e'] at h
      have := Grid.le hg (show k + 1 ≤ i by omega) (by omega)
      linarith
  refine ⟨restrict_mono _ _ xi.le, ?_, ?_⟩
  · rintro ⟨h1, h2⟩
    have a := hub (by omega)
    have b := hvb (by omega)
    simp only [c, restrict]
    generalize x (size - 1) = xe at *
    generalize x 0 = xb at *
    generalize x i = xl at *
    generalize x (i + 1) = xh at *
    have A : min xe (max xb u) ≤ xh := by
      rcases le_total xb u with h | h
      · rw [max_eq_right h]; exact (min_le_right _ _).trans a
      · rw [max_eq_left h]; exact (min_le_right _ _).trans (by linarith)
    have B : xl ≤ min xe (max xb v) := le_min (by linarith) (b.trans (le_max_right _ _))
    have C : max (min xe (max xb u)) xl = max xl u := by
      apply le_antisymm
      · apply max_le
        · exact (min_le_right _ _).trans (max_le (x0.trans (le_max_left _ _)) (le_max_right _ _))
        · exact le_max_left _ _
      · apply max_le (le_max_right _ _)
        exact (le_min (by linarith) (le_max_right _ _)).trans (le_max_left _ _)
    have D : max (min xe (max xb u)) xh = xh := max_eq_right A
    have E : min (min xe (max xb v)) xh = min xh v := by
      apply le_antisymm
      · apply le_min (min_le_right _ _)
        rw [max_eq_right (x0.trans b)]; exact (min_le_left _ _).trans (min_le_right _ _)
      · exact le_min (le_min ((min_le_left _ _).trans (by linarith)) ((min_le_right _ _).trans (le_max_right _ _))) (min_le_left _ _)
    have F : min (min xe (max xb v)) (max xl u) = max xl u := by
      apply min_eq_right
      apply max_le B
      exact le_min (by linarith) (huv.trans (le_max_right _ _))
    rw [C, D, E, F]
    exact ⟨rfl, rfl, le_max_left _ _, min_le_left _ _⟩
  · intro h
    simp only [c, restrict]
    by_cases h1 : (i : ℤ) < bin x size u
    · have := hub' h1
      have e : x (i + 1) ≤ min (x (size - 1)) (max (x 0) u) := le_min xs (this.trans (le_max_right _ _))
      rw [max_eq_left e, max_eq_left (xi.le.trans e)]
    · have h2 : bin x size v < i := by omega
      have := hvb' h2
      have e : min (x (size - 1)) (max (x 0) v) ≤ x i := (min_le_right _ _).trans (max_le x0 this)
      rw [min_eq_left (e.trans (le_max_right _ _)), min_eq_left ((e.trans xi.le).trans (le_max_right _ _))]

/-- C73: a quadrature rule of the order that is not tabulated is refused (an exception), never read beyond the table of 20 rules. -/
theorem C73_bspline_unsupported (N n : ℕ) (hN : 20 ≤ (N + n) / 2 + 1) (x ampl : ℕ → ℝ) (size : ℕ) (x1 x2 : ℝ) : integrateBspline N x ampl size x1 x2 n = none := by
  rw [integrateBspline, if_pos hN]

/-- C73 for B-splines of any degree (BsplineWrapper::integrate, BsplineInterpolator1d::integrate): the result differs from the integral of S(t) t^n
between the limits restricted to the grid only by the rounding of the tabulated quadrature rule. -/
theorem C73_bspline (N n : ℕ) (hN : (N + n) / 2 + 1 < 20) (x ampl : ℕ → ℝ) (size : ℕ) (hg : Grid x size) (hs : 2 ≤ size) (x1 x2 : ℝ) :
    ∃ P : ℕ → ℝ[X], (∀ i, i + 1 < size → (P i).natDegree ≤ N ∧ ∀ t, x i ≤ t → t < x (i + 1) → BsplineWrapper.evalDeriv N 0 x ampl size t = some ((P i).eval t)) ∧
    ∃ r, integrateBspline N x ampl size x1 x2 n = some r ∧
      |r - ∫ t in restrict (x 0) (x (size - 1)) x1..restrict (x 0) (x (size - 1)) x2, (BsplineWrapper.evalDeriv N 0 x ampl size t).getD 0 * t ^ n| ≤
        2 / 10 ^ 16 * ∑ i ∈ Finset.range (size - 1), (clipped x size x1 x2 (i + 1) - clipped x size x1 x2 i) *
          coeffNorm (P i * X ^ n) (clipped x size x1 x2 i) (clipped x size x1 x2 (i + 1)) := by
  have hSP : ∀ i, i + 1 < size → ∀ t, x i ≤ t → t < x (i + 1) → BsplineWrapper.evalDeriv N 0 x ampl size t = some ((segPoly N x ampl size i).eval t) := by
    intro i hi t h1 h2
    have l1 := Grid.le hg (show 0 ≤ i by omega) (by omega)
    have l2 := Grid.le hg (show i + 1 ≤ size - 1 by omega) (by omega)
    obtain ⟨k, k1, k2, k3, k4, k5⟩ := (eval_cases hg hs N 0 (by omega) ampl t).2 (by linarith) (by linarith)
    have : k = i := by
      have u1 := index_mono hg (show k < size by omega) hi (lt_of_le_of_lt k2 h2)
      rcases k3.lt_or_eq with h3 | h3
      · have u2 := index_mono hg (show i < size by omega) k1 (lt_of_le_of_lt h1 h3)
        omega
      · rcases bin_cases hg (by omega) t with ⟨h, _⟩ | ⟨h, _⟩ | ⟨h, _⟩ | ⟨m, hm, q1, q2, q3, e'⟩
        · linarith
        · linarith
        · omega
        · have hm : m = k := by rw [k4] at e'; exact_mod_cast e'.symm
          rw [hm] at q3
          have := q3 h3
          omega
    rw [k5, this]; rfl
  refine ⟨fun i => segPoly N x ampl size i, fun i hi => ⟨segPoly_degree _ _ _ _ _, hSP i hi⟩, ?_⟩
  set S := fun t => (BsplineWrapper.evalDeriv N 0 x ampl size t).getD 0 with hS
  have core : ∀ u v, u ≤ v →
      |(List.range' (max (bin x size u) 0).toNat (min (bin x size v) ((size : ℤ) - 2) + 1 - max (bin x size u) 0).toNat).foldl (fun result i =>
        (List.range ((N + n) / 2 + 1)).foldl (fun result k =>
          result + combine N (values N (max (x i) u + lit ((points ((N + n) / 2 + 1)).getD k 0) * (min (x (i + 1)) v - max (x i) u)) i x size) ampl i *
            (max (x i) u + lit ((points ((N + n) / 2 + 1)).getD k 0) * (min (x (i + 1)) v - max (x i) u)) ^ n *
            (min (x (i + 1)) v - max (x i) u) * lit ((weights ((N + n) / 2 + 1)).getD k 0)) result) 0 -
        ∫ t in restrict (x 0) (x (size - 1)) u..restrict (x 0) (x (size - 1)) v, S t * t ^ n| ≤
      2 / 10 ^ 16 * ∑ i ∈ Finset.range (size - 1),
        (restrict (restrict (x 0) (x (size - 1)) u) (restrict (x 0) (x (size - 1)) v) (x (i + 1)) -
          restrict (restrict (x 0) (x (size - 1)) u) (restrict (x 0) (x (size - 1)) v) (x i)) *
          coeffNorm (segPoly N x ampl size i * X ^ n) (restrict (restrict (x 0) (x (size - 1)) u) (restrict (x 0) (x (size - 1)) v) (x i))
            (restrict (restrict (x 0) (x (size - 1)) u) (restrict (x 0) (x (size - 1)) v) (x (i + 1))) := by
    intro u v huv
    set M := (N + n) / 2 + 1
    set c := fun i => restrict (restrict (x 0) (x (size - 1)) u) (restrict (x 0) (x (size - 1)) v) (x i) with hc
    have seg := fun i (hi : i + 1 < size) => bsplineSegs hg hs huv i hi
    simp only at seg
    set i1 := max (bin x size u) 0 with hi1
    set i2 := min (bin x size v) ((size : ℤ) - 2) with hi2
    have inner : ∀ (result : ℝ) (i : ℕ), (List.range M).foldl (fun result k =>
          result + combine N (values N (max (x i) u + lit ((points M).getD k 0) * (min (x (i + 1)) v - max (x i) u)) i x size) ampl i *
            (max (x i) u + lit ((points M).getD k 0) * (min (x (i + 1)) v - max (x i) u)) ^ n *
            (min (x (i + 1)) v - max (x i) u) * lit ((weights M).getD k 0)) result =
        result + segGL M (fun t => combine N (values N t i x size) ampl i * t ^ n) (max (x i) u) (min (x (i + 1)) v) := by
      intro result i
      rw [foldl_add_sum, segGL, List.range_eq_range', range'_sum, zero_add, ← Finset.range_eq_Ico]
    simp only [inner]
    rw [foldl_add_sum, zero_add, range'_sum]
    have e1 : ∑ i ∈ Finset.Ico i1.toNat (i1.toNat + (i2 + 1 - i1).toNat),
        segGL M (fun t => combine N (values N t i x size) ampl i * t ^ n) (max (x i) u) (min (x (i + 1)) v) =
        ∑ i ∈ Finset.range (size - 1), segGL M (fun t => (segPoly N x ampl size i * X ^ n).eval t) (c i) (c (i + 1)) := by
      have e2 : ∑ i ∈ Finset.Ico i1.toNat (i1.toNat + (i2 + 1 - i1).toNat),
          segGL M (fun t => combine N (values N t i x size) ampl i * t ^ n) (max (x i) u) (min (x (i + 1)) v) =
          ∑ i ∈ Finset.Ico i1.toNat (i1.toNat + (i2 + 1 - i1).toNat), segGL M (fun t => (segPoly N x ampl size i * X ^ n).eval t) (c i) (c (i + 1)) := by
        apply Finset.sum_congr rfl
        intro i hi
        rw [Finset.mem_Ico] at hi
        obtain ⟨_, h2, _⟩ := seg i (by omega)
        obtain ⟨a, b, _⟩ := h2 ⟨by omega, by omega⟩
        rw [a, b]
        congr 1
        funext t
        have := combine_derivs hg (show i + 1 < size by omega) N 0 (by omega) ampl t
        rw [derivs] at this
        rw [this, eval_mul, eval_pow, eval_X]; rfl
      rw [e2]
      apply Finset.sum_subset
      · intro i hi
        rw [Finset.mem_Ico] at hi
        rw [Finset.mem_range]; omega
      · intro i hi hn
        rw [Finset.mem_range] at hi
        rw [Finset.mem_Ico] at hn
        obtain ⟨_, _, h3⟩ := seg i (by omega)
        have : c i = c (i + 1) := h3 (by omega)
        rw [this, segGL]; simp
    rw [e1]
    have congr1 : ∀ i, i + 1 < size → Set.EqOn (fun t => S t * t ^ n) (fun t => (segPoly N x ampl size i * X ^ n).eval t) (Set.uIoo (c i) (c (i + 1))) := by
      intro i hi t ht
      obtain ⟨h1, h2, h3⟩ := seg i hi
      by_cases hin : i1 ≤ i ∧ (i : ℤ) ≤ i2
      · obtain ⟨_, _, a, b⟩ := h2 hin
        have h1' : c i ≤ c (i + 1) := h1
        rw [Set.uIoo_of_le h1'] at ht
        have t1 : x i ≤ t := a.trans ht.1.le
        have t2 : t < x (i + 1) := lt_of_lt_of_le ht.2 b
        simp only [hS, hSP i hi t t1 t2, Option.getD_some]
        rw [eval_mul, eval_pow, eval_X]
      · have h3' : c i = c (i + 1) := h3 hin
        rw [h3', Set.uIoo_self] at ht
        exact absurd ht (Set.notMem_empty t)
    have hint : ∫ t in restrict (x 0) (x (size - 1)) u..restrict (x 0) (x (size - 1)) v, S t * t ^ n =
        ∑ i ∈ Finset.range (size - 1), ∫ t in c i..c (i + 1), (segPoly N x ampl size i * X ^ n).eval t := by
      have key := intervalIntegral.sum_integral_adjacent_intervals (f := fun t => S t * t ^ n) (μ := MeasureTheory.volume) (a := c) (n := size - 1) (by
        intro k hk
        exact IntervalIntegrable.congr_uIoo ((segPoly N x ampl size k * X ^ n).continuous.intervalIntegrable _ _) (congr1 k (by omega)).symm)
      have h0s : x 0 ≤ x (size - 1) := Grid.le hg (by omega) (by omega)
      have b0 : restrict (x 0) (x (size - 1)) u ≤ restrict (x 0) (x (size - 1)) v := restrict_mono _ _ huv
      have c0 : c 0 = restrict (x 0) (x (size - 1)) u := by
        have : x 0 ≤ restrict (x 0) (x (size - 1)) u := le_min h0s (le_max_left _ _)
        simp only [hc]
        generalize restrict (x 0) (x (size - 1)) u = ru at *
        rw [restrict, max_eq_left this, min_eq_right b0]
      have c1 : c (size - 1) = restrict (x 0) (x (size - 1)) v := by
        have h1 : restrict (x 0) (x (size - 1)) u ≤ x (size - 1) := min_le_left _ _
        have h2 : restrict (x 0) (x (size - 1)) v ≤ x (size - 1) := min_le_left _ _
        simp only [hc]
        generalize restrict (x 0) (x (size - 1)) v = rv at *
        rw [restrict, max_eq_right h1, min_eq_left h2]
      rw [c0, c1] at key
      rw [← key]
      apply Finset.sum_congr rfl
      intro i hi
      rw [Finset.mem_range] at hi
      exact intervalIntegral.integral_congr_uIoo (congr1 i (by omega))
    rw [hint, ← Finset.sum_sub_distrib]
    refine (Finset.abs_sum_le_sum_abs _ _).trans ?_
    rw [Finset.mul_sum]
    apply Finset.sum_le_sum
    intro i hi
    rw [Finset.mem_range] at hi
    have hdeg : (segPoly N x ampl size i * X ^ n).natDegree < 2 * M := by
      refine lt_of_le_of_lt natDegree_mul_le ?_
      rw [natDegree_X_pow]
      have := segPoly_degree N x ampl size i
      omega
    refine (segGL_bound M (by omega) (by omega) _ hdeg _ _ _ (seg i (by omega)).1 (fun _ _ _ => rfl)).trans ?_
    rw [mul_assoc]
  rw [integrateBspline]
  simp only [clipped]
  rw [if_neg (by omega)]
  refine ⟨_, rfl, ?_⟩
  by_cases hx : x1 > x2
  · simp only [if_pos hx, decide_eq_true hx, if_true]
    rw [min_eq_right (le_of_lt hx), max_eq_left (le_of_lt hx), intervalIntegral.integral_symm, sub_neg_eq_add, neg_add_eq_sub, abs_sub_comm]
    exact core x2 x1 (le_of_lt hx)
  · simp only [if_neg hx, decide_eq_false hx]
    rw [min_eq_left (not_lt.1 hx), max_eq_right (not_lt.1 hx)]
    exact core x1 x2 (not_lt.1 hx)

end
end Verif.Spline
