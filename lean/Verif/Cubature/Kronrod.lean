import Verif.Cubature.Exact
import Mathlib.Analysis.SpecialFunctions.Pow.Real

/-! The one-dimensional Gauss-Kronrod rule (/repo/src/cubature.cpp:618-765); C86. -/
namespace Verif.Cubature

noncomputable section

open Finset

/-! ## Model -/

/-- cubature.cpp:628-639: the abscissae xgk -/
def xgk : ℕ → ℝ
  | 0 => 0.991455371120812639206854697526329
  | 1 => 0.949107912342758524526189684047851
  | 2 => 0.864864423359769072789712788640926
  | 3 => 0.741531185599394439863864773280788
  | 4 => 0.586087235467691130294144838258730
  | 5 => 0.405845151377397166906606412076961
  | 6 => 0.207784955007898467600689403773245
  | _ => 0

/-- cubature.cpp:640-645: the weights wg of the 7-point Gauss rule -/
def wg : ℕ → ℝ
  | 0 => 0.129484966168869693270611432679082
  | 1 => 0.279705391489276667901467771423780
  | 2 => 0.381830050505118944950369775488975
  | 3 => 0.417959183673469387755102040816327
  | _ => 0

/-- cubature.cpp:646-655: the weights wgk of the 15-point Kronrod rule -/
def wgk : ℕ → ℝ
  | 0 => 0.022935322010529224963732008058970
  | 1 => 0.063092092629978553290700663189204
  | 2 => 0.104790010322250183839876322541518
  | 3 => 0.140653259715525918745189590510238
  | 4 => 0.169004726639267902826583426598550
  | 5 => 0.190350578064785409913256402421014
  | 6 => 0.204432940075298892414161999234649
  | 7 => 0.209482141084727828012999174891714
  | _ => 0

/-- cubature.cpp:663-680: the points for one region: n=8, (n-1)/2=3 pairs of Gauss abscissae and then n/2=4 pairs of the additional ones -/
def gkPoints (c h : Vec 1) : List (Vec 1) :=
  [c] ++ (List.range 3).flatMap (fun j => [fun _ => c 0 - h 0 * xgk (2 * j + 1), fun _ => c 0 + h 0 * xgk (2 * j + 1)]) ++
    (List.range 4).flatMap (fun j => [fun _ => c 0 - h 0 * xgk (2 * j), fun _ => c 0 + h 0 * xgk (2 * j)])

/-- The values of a function at these points -/
def gkValues (c h : Vec 1) (f : Vec 1 → ℝ) (k : ℕ) : ℝ := ((gkPoints c h).map f).getD k 0

/-- cubature.cpp:692, 699-702: result_gauss -/
def gkGauss (v : ℕ → ℝ) : ℝ := v 0 * wg 3 + ∑ j ∈ range 3, wg j * (v (1 + 2 * j) + v (1 + 2 * j + 1))

/-- cubature.cpp:693, 699-711: the sums with the weights wgk (result_kronrod) -/
def gkSum (v : ℕ → ℝ) : ℝ :=
  v 0 * wgk 7 + ∑ j ∈ range 3, wgk (2 * j + 1) * (v (1 + 2 * j) + v (1 + 2 * j + 1)) + ∑ j ∈ range 4, wgk (2 * j) * (v (7 + 2 * j) + v (7 + 2 * j + 1))

/-- cubature.cpp:694, 704-713: result_abs before the multiplication by halfwidth: the same sum for absolute values (the code takes fabs(vk[0]*wgk[7]), which is the same as wgk[7] is positive) -/
def gkAbs (v : ℕ → ℝ) : ℝ := gkSum fun k => |v k|

/-- cubature.cpp:724-738: result_asc before the multiplication by halfwidth -/
def gkAsc (v : ℕ → ℝ) : ℝ := gkSum fun k => |v k - gkSum v * 0.5|

/-- DBL_EPSILON and DBL_MIN -/
def dblEps : ℝ := 2⁻¹ ^ 52
def dblMin : ℝ := 2⁻¹ ^ 1022

/-- cubature.cpp:718: the estimate of the integral -/
def gkResult (h : ℝ) (v : ℕ → ℝ) : ℝ := gkSum v * h

/-- cubature.cpp:739-750: the estimate of the error -/
def gkError (h : ℝ) (v : ℕ → ℝ) : ℝ :=
  let err := |gkSum v - gkGauss v| * h
  let rabs := gkAbs v * h
  let asc := gkAsc v * h
  let err := if asc ≠ 0 ∧ err ≠ 0 then
      let scale := (200 * err / asc) ^ (1.5 : ℝ)
      if scale < 1 then asc * scale else asc
    else err
  if rabs > dblMin / (50 * dblEps) then
    let minErr := 50 * dblEps * rabs
    if minErr > err then minErr else err
  else err

/-! ## Exactness -/

theorem gkPoints_length (c h : Vec 1) : (gkPoints c h).length = 15 := by simp [gkPoints, List.range_succ]

/-- The sums over the unit interval for a monomial -/
theorem gkValues_eq (c h : Vec 1) (f : Vec 1 → ℝ) (g : Vec 1 → ℝ) (hg : ∀ t, g t = f (affine c h t)) (k : ℕ) : gkValues c h f k = gkValues 0 1 g k := by
  unfold gkValues
  congr 1
  have e0 : affine c h 0 = c := by funext i; simp [affine]
  have e : ∀ x : ℝ, affine c h (fun _ => x) = fun _ => c 0 + h 0 * x := by
    intro x; funext i
    rw [Subsingleton.elim i 0]; simp [affine]
  simp only [gkPoints, List.map_append, List.map_cons, List.map_nil, List.map_flatMap, hg, e0, e, Pi.zero_apply, Pi.one_apply, one_mul, zero_add, mul_neg, sub_eq_add_neg]

theorem gkSum_unit (g : Vec 1 → ℝ) : gkSum (gkValues 0 1 g) =
    g 0 * wgk 7 + ∑ i ∈ range 7, wgk i * (g (fun _ => -xgk i) + g (fun _ => xgk i)) := by
  simp [gkSum, gkValues, gkPoints, List.range_succ, Finset.sum_range_succ]
  ring

theorem gkGauss_unit (g : Vec 1 → ℝ) : gkGauss (gkValues 0 1 g) =
    g 0 * wg 3 + ∑ j ∈ range 3, wg j * (g (fun _ => -xgk (2 * j + 1)) + g (fun _ => xgk (2 * j + 1))) := by
  simp [gkGauss, gkValues, gkPoints, List.range_succ, Finset.sum_range_succ]

theorem mono_one (α : Fin 1 → ℕ) (t : Vec 1) : mono α t = t 0 ^ α 0 := by simp [mono]

theorem avg_one (α : Fin 1 → ℕ) : avg α = sym 1 (α 0) / 2 / (α 0 + 1) := by simp [avg]

theorem gk_moments (α : Fin 1 → ℕ) : (∑ i, α i ≤ 23 → |gkSum (gkValues 0 1 (mono α)) / 2 - avg α| ≤ 1e-33) ∧
    (∑ i, α i ≤ 13 → |gkGauss (gkValues 0 1 (mono α)) / 2 - avg α| ≤ 1e-33) := by
  rw [gkSum_unit, gkGauss_unit, avg_one]
  simp only [mono_one, Pi.zero_apply, Finset.univ_unique, Fin.default_eq_zero, Finset.sum_singleton]
  generalize α 0 = n
  rcases Nat.even_or_odd n with he | ho
  · obtain ⟨k, rfl⟩ := he
    simp only [sym_even _ (Even.add_self k), Even.neg_pow (Even.add_self k)]
    constructor
    · intro hn
      have hk : k ≤ 11 := by omega
      interval_cases k <;> norm_num [Finset.sum_range_succ, wgk, xgk, abs_le]
    · intro hn
      have hk : k ≤ 6 := by omega
      interval_cases k <;> norm_num [Finset.sum_range_succ, wg, xgk, abs_le]
  · simp only [sym_odd _ ho, ho.neg_pow, zero_pow ho.pos.ne', neg_add_cancel, mul_zero, Finset.sum_const_zero, zero_mul, add_zero, zero_div, sub_zero, abs_zero]
    norm_num

theorem gkValues_sum (c h : Vec 1) (ι : Type) (s : Finset ι) (a : ι → ℝ) (g : ι → Vec 1 → ℝ) (k : ℕ) :
    gkValues c h (fun t => ∑ i ∈ s, a i * g i t) k = ∑ i ∈ s, a i * gkValues c h (g i) k := by
  unfold gkValues
  generalize gkPoints c h = l
  induction l generalizing k with
  | nil => simp
  | cons p l ih =>
    cases k with
    | zero => simp
    | succ k => simpa using ih k

theorem gkSum_linear (ι : Type) (s : Finset ι) (a : ι → ℝ) (v : ι → ℕ → ℝ) : gkSum (fun k => ∑ i ∈ s, a i * v i k) = ∑ i ∈ s, a i * gkSum (v i) := by
  simp only [gkSum, ← Finset.sum_add_distrib, Finset.mul_sum, Finset.sum_mul, mul_add, Finset.sum_comm (s := range _) (t := s)]
  refine Finset.sum_congr rfl fun i _ => ?_
  simp only [mul_left_comm (a i), mul_assoc]

theorem gkGauss_linear (ι : Type) (s : Finset ι) (a : ι → ℝ) (v : ι → ℕ → ℝ) : gkGauss (fun k => ∑ i ∈ s, a i * v i k) = ∑ i ∈ s, a i * gkGauss (v i) := by
  simp only [gkGauss, ← Finset.sum_add_distrib, Finset.mul_sum, Finset.sum_mul, mul_add, Finset.sum_comm (s := range _) (t := s)]
  refine Finset.sum_congr rfl fun i _ => ?_
  simp only [mul_left_comm (a i), mul_assoc]

/-- The 15-point rule for polynomials up to the degree 23 and the 7-point rule up to the degree 13 -/
theorem gk_bound (c h : Vec 1) (hh : ∀ i, 0 ≤ h i) (P : MvPolynomial (Fin 1) ℝ) :
    (P.totalDegree ≤ 23 → |gkResult (h 0) (gkValues c h fun x => MvPolynomial.eval x P) - ∫ x in Set.Icc (c - h) (c + h), MvPolynomial.eval x P| ≤ 1e-33 * (∏ i, 2 * h i) * size P c h) ∧
    (P.totalDegree ≤ 13 → |gkGauss (gkValues c h fun x => MvPolynomial.eval x P) * h 0 - ∫ x in Set.Icc (c - h) (c + h), MvPolynomial.eval x P| ≤
      1e-33 * (∏ i, 2 * h i) * size P c h) := by
  have hvol : 0 ≤ ∏ i, 2 * h i := Finset.prod_nonneg fun i _ => by linarith [hh i]
  have hv : gkValues c h (fun x => MvPolynomial.eval x P) = gkValues 0 1 (fun t => MvPolynomial.eval (affine c h t) P) :=
    funext fun k => gkValues_eq c h _ _ (fun t => rfl) k
  have e2 : ∀ x : ℝ, x * h 0 = (∏ i, 2 * h i) * (x / 2) := by
    intro x
    simp only [Finset.univ_unique, Fin.default_eq_zero, Fin.isValue, Finset.prod_singleton]; ring
  rw [integral_poly_box P c h hh, gkResult, hv, e2, e2, ← mul_sub, ← mul_sub, abs_mul, abs_mul, abs_of_nonneg hvol, mul_right_comm, mul_comm ((1e-33 : ℝ) * _)]
  constructor
  · intro hd
    refine mul_le_mul_of_nonneg_left (functional_bound (fun g => gkSum (gkValues 0 1 g) / 2) ?_ 23 1e-33 (fun α => (gk_moments α).1) P hd c h) hvol
    intro ι s a g
    rw [funext (gkValues_sum 0 1 ι s a g), gkSum_linear, Finset.sum_div]
    exact Finset.sum_congr rfl fun i _ => by ring
  · intro hd
    refine mul_le_mul_of_nonneg_left (functional_bound (fun g => gkGauss (gkValues 0 1 g) / 2) ?_ 13 1e-33 (fun α => (gk_moments α).2) P hd c h) hvol
    intro ι s a g
    rw [funext (gkValues_sum 0 1 ι s a g), gkGauss_linear, Finset.sum_div]
    exact Finset.sum_congr rfl fun i _ => by ring

/-! ## Error estimate -/

theorem wgk_nonneg (i : ℕ) : 0 ≤ wgk i := by unfold wgk; split <;> norm_num

theorem gkSum_nonneg {v : ℕ → ℝ} (h : ∀ k, 0 ≤ v k) : 0 ≤ gkSum v := by
  unfold gkSum
  have := fun i => wgk_nonneg i
  refine add_nonneg (add_nonneg (mul_nonneg (h _) (this _)) (Finset.sum_nonneg fun j _ => mul_nonneg (this _) (add_nonneg (h _) (h _))))
    (Finset.sum_nonneg fun j _ => mul_nonneg (this _) (add_nonneg (h _) (h _)))

theorem gkAbs_nonneg (v : ℕ → ℝ) : 0 ≤ gkAbs v := gkSum_nonneg fun _ => abs_nonneg _
theorem gkAsc_nonneg (v : ℕ → ℝ) : 0 ≤ gkAsc v := gkSum_nonneg fun _ => abs_nonneg _

/-- The error estimate is not negative if the interval is not reversed -/
theorem gkError_nonneg (h : ℝ) (hh : 0 ≤ h) (v : ℕ → ℝ) : 0 ≤ gkError h v := by
  have h1 : 0 ≤ |gkSum v - gkGauss v| * h := mul_nonneg (abs_nonneg _) hh
  have h2 : 0 ≤ gkAsc v * h := mul_nonneg (gkAsc_nonneg v) hh
  have h3 : 0 ≤ gkAbs v * h := mul_nonneg (gkAbs_nonneg v) hh
  have h4 : (0 : ℝ) ≤ 50 * dblEps := by unfold dblEps; positivity
  unfold gkError
  extract_lets err rabs asc scale err2 minErr
  have he2 : 0 ≤ err2 := by
    show 0 ≤ ite _ _ _
    split_ifs
    · exact mul_nonneg h2 (Real.rpow_nonneg (div_nonneg (mul_nonneg (by norm_num) h1) h2) _)
    · exact h2
    · exact h1
  split_ifs
  · exact mul_nonneg h4 h3
  · exact he2
  · exact he2

/-- If the interval is reversed, the error estimate is never positive -/
theorem gkError_reversed (h : ℝ) (hh : h ≤ 0) (v : ℕ → ℝ) : gkError h v ≤ 0 := by
  have h1 : |gkSum v - gkGauss v| * h ≤ 0 := mul_nonpos_of_nonneg_of_nonpos (abs_nonneg _) hh
  have h2 : gkAsc v * h ≤ 0 := mul_nonpos_of_nonneg_of_nonpos (gkAsc_nonneg v) hh
  have h3 : gkAbs v * h ≤ 0 := mul_nonpos_of_nonneg_of_nonpos (gkAbs_nonneg v) hh
  have h5 : (0 : ℝ) ≤ dblMin / (50 * dblEps) := by unfold dblEps dblMin; positivity
  unfold gkError
  extract_lets err rabs asc scale err2 minErr
  have he2 : err2 ≤ 0 := by
    show ite _ _ _ ≤ 0
    split_ifs
    · refine mul_nonpos_of_nonpos_of_nonneg h2 (Real.rpow_nonneg (div_nonneg_of_nonpos ?_ h2) _)
      linarith
    · exact h2
    · exact h1
  have : ¬ rabs > dblMin / (50 * dblEps) := not_lt.2 (h3.trans h5)
  rw [if_neg this]
  exact he2

end

end Verif.Cubature
