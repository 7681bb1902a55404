import Verif.GH.Props
import Verif.Core.Scaling
import Mathlib.MeasureTheory.Function.JacobianOneDim

/-! # C103, continued: numerical moments, conversion matrix, fitting functions -/

namespace Verif.GH

open Real MeasureTheory

noncomputable section

/-! ## numerical moments -/

theorem sum_sym (t : ℝ → ℝ) (N : ℕ) : ∑ p ∈ Finset.range (2 * N + 1), t ((p : ℝ) - N) = ∑ p ∈ Finset.range (N + 1), (t p + if p = 0 then 0 else t (-p)) := by
  rw [show 2 * N + 1 = N + (N + 1) by ring, Finset.sum_range_add, Finset.sum_add_distrib, add_comm]
  congr 1
  · apply Finset.sum_congr rfl
    intro p _
    congr 1
    push_cast
    ring
  · rw [Finset.sum_range_succ', ← Finset.sum_range_reflect]
    simp only [if_true, add_zero, Nat.add_eq_zero_iff, one_ne_zero, and_false, if_false]
    apply Finset.sum_congr rfl
    intro p hp
    rw [Finset.mem_range] at hp
    congr 1
    rw [Nat.sub_sub, Nat.cast_sub (by omega)]
    push_cast
    ring

/-- the points of the quadrature in the scaled coordinate -/
def ypt (p : ℕ) : ℝ := ((p : ℝ) - 49) / 7

/-- C103: the computed moments of an arbitrary function are the sums over 99 equally spaced points (the trapezoidal rule for the integral in `ghMoment`) -/
theorem C103_moments_sum (f : ℝ → ℝ) (order : ℕ) (A c w : ℝ) (m : ℕ) (hm : m ≤ order) :
    computeMoments f order A c w m = √2 / A * ∑ p ∈ Finset.range 99, w / 7 * (f (c + w * ypt p) * exp (-(ypt p) ^ 2 / 2) * H m (ypt p)) := by
  rw [computeMoments, foldl_sum, zero_add]
  have key := sum_sym (fun q => √2 / A * (w / 7 * (f (c + w * (q / 7)) * exp (-(q / 7) ^ 2 / 2) * H m (q / 7)))) 49
  simp only [show 2 * 49 + 1 = 99 by norm_num] at key
  rw [Finset.mul_sum]
  simp only [ypt]
  push_cast at key
  rw [key, QUADORDER]
  apply Finset.sum_congr (by norm_num)
  intro p _
  rw [hermiteArray_eq _ _ _ _ hm]
  have e : (p : ℝ) * (1 / ((7 : ℕ) : ℝ)) = p / 7 := by push_cast; ring
  simp only [e]
  rw [show -(p : ℝ) / 7 = -(p / 7) by ring, H_neg, show (-0.5 : ℝ) * (p / 7) * (p / 7) = -((p : ℝ) / 7) ^ 2 / 2 by ring, show -(-((p : ℝ) / 7)) ^ 2 / 2 = -((p : ℝ) / 7) ^ 2 / 2 by ring,
    show c + w * -((p : ℝ) / 7) = c - w * (p / 7) by ring]
  push_cast
  by_cases hp : p = 0
  · subst hp
    simp
    ring
  · simp only [hp, if_false]
    ring

/-! ## conversion matrix -/

theorem foldl_functional {α : Type} (L : α → ℝ) (step : α → ℕ → α) (d : ℕ → ℝ) (n : ℕ) (h : ∀ v i, i < n → L (step v i) = L v + d i) (v : α) :
    L ((List.range n).foldl step v) = L v + ∑ i ∈ Finset.range n, d i := by
  induction n with
  | zero => simp
  | succ n ih =>
    rw [List.range_succ, List.foldl_append, List.foldl_cons, List.foldl_nil, h _ _ (by omega), ih (fun v i hi => h v i (by omega)), Finset.sum_range_succ, add_assoc]

/-- the loop over components of a B-spline -/
theorem inner_functional (M N ind : ℕ) (hi : ind + N < M) (g v a : ℕ → ℝ) :
    ∑ j ∈ Finset.range M, ((List.range (N + 1)).foldl (fun v i => Function.update v (i + ind) (v (i + ind) + g i)) v) j * a j =
      ∑ j ∈ Finset.range M, v j * a j + ∑ i ∈ Finset.range (N + 1), g i * a (i + ind) := by
  simp only [Verif.Spline.update_fold_sum, add_mul, Finset.sum_add_distrib]
  congr 1
  rw [← Finset.sum_subset (s₁ := Finset.Ico ind (ind + (N + 1)))]
  · rw [Finset.sum_Ico_eq_sum_range]
    simp only [Nat.add_sub_cancel_left]
    apply Finset.sum_congr rfl
    intro i hi
    rw [Finset.mem_range] at hi
    rw [if_pos (by omega), add_comm ind i]
  · intro j hj
    rw [Finset.mem_Ico] at hj
    rw [Finset.mem_range]
    omega
  · intro j _ hj
    rw [Finset.mem_Ico] at hj
    rw [if_neg (by omega), zero_mul]

/-- C103: the product of the conversion matrix and the vector of amplitudes is the array of moments which the code for interpolators computes for the B-spline with these amplitudes -/
theorem C103_matrix (nodes weights : ℕ → ℝ) (nnodes N : ℕ) (grid : ℕ → ℝ) (size : ℕ) (hs : 2 ≤ size) (order : ℕ) (A c w : ℝ) (m : ℕ) (ampl : ℕ → ℝ) :
    ∑ j ∈ Finset.range (size + N - 1), computeMatrix nodes weights nnodes N grid size order A c w m j * ampl j =
      computeMomentsInterp nodes weights nnodes grid size (fun x => Verif.Spline.interpolate N grid ampl size x 0) order A c w m := by
  rw [computeMatrix, computeMomentsInterp]
  rw [foldl_functional (fun v : ℕ → ℝ => ∑ j ∈ Finset.range (size + N - 1), v j * ampl j) _
    (fun n => ∑ k ∈ Finset.range nnodes, √2 / A * exp (-0.5 * ((nodes k * grid (n + 1) + (1 - nodes k) * grid n - c) / w) * ((nodes k * grid (n + 1) + (1 - nodes k) * grid n - c) / w)) * weights k *
      (grid (n + 1) - grid n) * Verif.Spline.interpolate N grid ampl size (nodes k * grid (n + 1) + (1 - nodes k) * grid n) 0 *
      hermiteArray order ((nodes k * grid (n + 1) + (1 - nodes k) * grid n - c) / w) (fun _ => 0) m)]
  · simp only [zero_mul, Finset.sum_const_zero, zero_add]
    rw [foldl_functional (fun v : ℝ => v) _ _ _ _ (0 : ℝ), zero_add]
    intro v i _
    rw [foldl_sum]
  · intro v n _
    rw [foldl_functional (fun v : ℕ → ℝ => ∑ j ∈ Finset.range (size + N - 1), v j * ampl j)]
    intro v k _
    obtain ⟨h1, h2, -⟩ := Verif.Spline.C76_nonzeroComponents N 0 grid size hs (grid n + (grid (n + 1) - grid n) * nodes k)
    rw [inner_functional _ N _ h1, show grid n + (grid (n + 1) - grid n) * nodes k = nodes k * grid (n + 1) + (1 - nodes k) * grid n by ring] at *
    congr 1
    rw [Verif.Spline.C76_interpolate, ← h2 ampl, Finset.mul_sum, Finset.sum_mul]
    apply Finset.sum_congr rfl
    intro i _
    ring

/-! ## fitting functions -/

/-- specification: the gaussian with the given parameters -/
def gauss (A c w x : ℝ) : ℝ := A / (√(2 * π) * w) * exp (-((x - c) / w) ^ 2 / 2)

theorem gauss_deriv (A c w x : ℝ) (hw : w ≠ 0) :
    HasDerivAt (fun A => gauss A c w x) (gauss 1 c w x) A ∧
    HasDerivAt (fun c => gauss A c w x) (gauss A c w x * ((x - c) / w) / w) c ∧
    HasDerivAt (fun w => gauss A c w x) (-(gauss A c w x * (1 - ((x - c) / w) ^ 2) / w)) w := by
  have s0 : √(2 * π) ≠ 0 := by positivity
  refine ⟨?_, ?_, ?_⟩
  · have := ((hasDerivAt_id A).div_const (√(2 * π) * w)).mul_const (exp (-((x - c) / w) ^ 2 / 2))
    exact this
  · have h1 : HasDerivAt (fun c : ℝ => -((x - c) / w) ^ 2 / 2) ((x - c) / w / w) c := by
      have := ((((hasDerivAt_id c).const_sub x).div_const w).pow 2).neg.div_const 2
      refine this.congr_deriv ?_
      simp
      ring
    have := h1.exp.const_mul (A / (√(2 * π) * w))
    refine this.congr_deriv ?_
    simp only [gauss]
    ring
  · have h1 : HasDerivAt (fun w : ℝ => -((x - c) / w) ^ 2 / 2) (((x - c) / w) ^ 2 / w) w := by
      have := (((hasDerivAt_inv hw).const_mul (x - c)).pow 2).neg.div_const 2
      refine this.congr_deriv ?_
      simp
      field_simp
    have h2 : HasDerivAt (fun w : ℝ => A / (√(2 * π) * w)) (-(A / (√(2 * π) * w)) / w) w := by
      have := (hasDerivAt_inv hw).const_mul (A / √(2 * π))
      refine (this.congr_deriv ?_).congr_of_eventuallyEq ?_
      · field_simp
      · filter_upwards with w
        rw [div_mul_eq_div_div, div_eq_mul_inv]
    have := h2.mul h1.exp
    refine this.congr_deriv ?_
    simp only [gauss]
    ring

theorem fitSum_two (order : ℕ) (ho : order ≤ 2) (vars : ℕ → ℝ) (y : ℝ) : fitSum order vars y = 1 := by rw [fitSum, if_neg (by omega)]

/-- for a gaussian without higher terms, the residual is weight times the difference between the function and the gaussian -/
theorem C103_fit_interp_value (order : ℕ) (ho : order ≤ 2) (node weight fvalue : ℝ) (vars : ℕ → ℝ) :
    fitInterpValue order node weight fvalue vars = weight * (fvalue - gauss (vars 0) (vars 1) (vars 2) node) := by
  rw [fitInterpValue]
  simp only [fitSum_two order ho, gauss]
  rw [Real.sqrt_mul (by norm_num), show (-0.5 : ℝ) * ((node - vars 1) / vars 2) * ((node - vars 1) / vars 2) = -((node - vars 1) / vars 2) ^ 2 / 2 by ring]
  field_simp

/-- C103: the derivatives by the amplitude, centre and width reported by the fitting function are the derivatives of its values, in the only case used in the library (fitting a gaussian, order 2) -/
theorem C103_fit_interp_deriv (order : ℕ) (ho : order ≤ 2) (node weight fvalue : ℝ) (vars : ℕ → ℝ) (hw : vars 2 ≠ 0) (i : ℕ) (hi : i ≤ 2) :
    HasDerivAt (fun t => fitInterpValue order node weight fvalue (Function.update vars i t)) (fitInterpDeriv order node weight vars i) (vars i) := by
  simp only [C103_fit_interp_value order ho]
  obtain ⟨h0, h1, h2⟩ := gauss_deriv (vars 0) (vars 1) (vars 2) node hw
  have e : ∀ y : ℝ, (-0.5 : ℝ) * y * y = -y ^ 2 / 2 := fun y => by ring
  interval_cases i
  · simp only [Function.update_self, Function.update_of_ne (show (1 : ℕ) ≠ 0 by omega), Function.update_of_ne (show (2 : ℕ) ≠ 0 by omega)]
    refine ((h0.const_sub fvalue).const_mul weight).congr_deriv ?_
    simp only [fitInterpDeriv, fitSum_two order ho, gauss, e]
    rw [Real.sqrt_mul (by norm_num)]
    field_simp
  · simp only [Function.update_self, Function.update_of_ne (show (0 : ℕ) ≠ 1 by omega), Function.update_of_ne (show (2 : ℕ) ≠ 1 by omega)]
    refine ((h1.const_sub fvalue).const_mul weight).congr_deriv ?_
    simp only [fitInterpDeriv, fitSum_two order ho, gauss, e]
    rw [Real.sqrt_mul (by norm_num)]
    field_simp
  · simp only [Function.update_self, Function.update_of_ne (show (0 : ℕ) ≠ 2 by omega), Function.update_of_ne (show (1 : ℕ) ≠ 2 by omega)]
    refine ((h2.const_sub fvalue).const_mul weight).congr_deriv ?_
    simp only [fitInterpDeriv, fitSum_two order ho, gauss, e]
    rw [Real.sqrt_mul (by norm_num)]
    field_simp

example : HasDerivAt (fun t => fitInterpValue 2 3 1 (1 / 2) (Function.update (fun i => (i : ℝ) + 1) 2 t)) (fitInterpDeriv 2 3 1 (fun i => (i : ℝ) + 1) 2) 3 := by
  have := C103_fit_interp_deriv 2 le_rfl 3 1 (1 / 2) (fun i => (i : ℝ) + 1) (by norm_num) 2 le_rfl
  norm_num at this ⊢
  exact this

/-- for a general function, the residual is the square root of the width times the difference between the function and the gaussian at the point which moves with the parameters -/
theorem C103_fit_fnc_value (order : ℕ) (ho : order ≤ 2) (f : ℝ → ℝ) (p : ℕ) (vars : ℕ → ℝ) (hw : 0 < vars 2) :
    fitFncValue order f p vars = √(vars 2) * (f (vars 1 + vars 2 * ypt p) - gauss (vars 0) (vars 1) (vars 2) (vars 1 + vars 2 * ypt p)) := by
  rw [fitFncValue]
  simp only [fitSum_two order ho, gauss, QUADORDER]
  have e : (1 / ((7 : ℕ) : ℝ)) * ((p : ℝ) - ((7 : ℕ) : ℝ) ^ 2) = ypt p := by rw [ypt]; push_cast; ring
  rw [e, show (vars 1 + vars 2 * ypt p - vars 1) / vars 2 = ypt p by field_simp; ring, Real.sqrt_mul (by norm_num), show (-0.5 : ℝ) * ypt p * ypt p = -(ypt p) ^ 2 / 2 by ring]
  have s : √(vars 2) * √(vars 2) = vars 2 := sq2 _ hw.le
  have s0 : √(vars 2) ≠ 0 := by positivity
  have : vars 2 = √(vars 2) * √(vars 2) := s.symm
  generalize √(vars 2) = r at *
  rw [this]
  field_simp

/-- C103: the derivatives reported by the fitting function for a general function are the derivatives of the residual at a fixed point with a fixed weight -/
theorem C103_fit_fnc_deriv (order : ℕ) (ho : order ≤ 2) (f : ℝ → ℝ) (p : ℕ) (vars : ℕ → ℝ) (hw : 0 < vars 2) (x s : ℝ) (hx : x = vars 1 + vars 2 * ypt p) (hs : s = √(vars 2)) :
    HasDerivAt (fun A => s * (f x - gauss A (vars 1) (vars 2) x)) (fitFncDeriv order p vars 0) (vars 0) ∧
    HasDerivAt (fun c => s * (f x - gauss (vars 0) c (vars 2) x)) (fitFncDeriv order p vars 1) (vars 1) ∧
    HasDerivAt (fun w => s * (f x - gauss (vars 0) (vars 1) w x)) (fitFncDeriv order p vars 2) (vars 2) := by
  obtain ⟨h0, h1, h2⟩ := gauss_deriv (vars 0) (vars 1) (vars 2) x hw.ne'
  have e : (1 / ((7 : ℕ) : ℝ)) * ((p : ℝ) - ((7 : ℕ) : ℝ) ^ 2) = ypt p := by rw [ypt]; push_cast; ring
  have ey : (x - vars 1) / vars 2 = ypt p := by rw [hx]; field_simp; ring
  have s1 : s * s = vars 2 := by rw [hs]; exact sq2 _ hw.le
  have s0 : s ≠ 0 := by rw [hs]; positivity
  refine ⟨((h0.const_sub (f x)).const_mul s).congr_deriv ?_, ((h1.const_sub (f x)).const_mul s).congr_deriv ?_, ((h2.const_sub (f x)).const_mul s).congr_deriv ?_⟩ <;>
  · simp only [fitFncDeriv, fitSum_two order ho, gauss, QUADORDER, e, ey, ← hs]
    rw [Real.sqrt_mul (by norm_num), show (-0.5 : ℝ) * ypt p * ypt p = -(ypt p) ^ 2 / 2 by ring, ← s1]
    field_simp
    try ring

/-- C103: the fit makes the first three moments those of a gaussian: at a stationary point of the sum of squares (with the derivatives which the fitting function reports), the moments 0, 1, 2 of the fitted function are equal to the ones computed for the gaussian with the same parameters -/
theorem C103_stationary (order : ℕ) (ho : 2 ≤ order) (f : ℝ → ℝ) (vars : ℕ → ℝ) (hA : vars 0 ≠ 0) (hw : 0 < vars 2)
    (hst : ∀ i ≤ 2, ∑ p ∈ Finset.range 99, fitFncValue 2 f p vars * fitFncDeriv 2 p vars i = 0) (m : ℕ) (hm : m ≤ 2) :
    computeMoments f order (vars 0) (vars 1) (vars 2) m = computeMoments (gauss (vars 0) (vars 1) (vars 2)) order (vars 0) (vars 1) (vars 2) m := by
  rw [C103_moments_sum _ _ _ _ _ _ (by omega), C103_moments_sum _ _ _ _ _ _ (by omega)]
  congr 1
  rw [← sub_eq_zero, ← Finset.sum_sub_distrib]
  set F : ℕ → ℝ := fun p => f (vars 1 + vars 2 * ypt p) - gauss (vars 0) (vars 1) (vars 2) (vars 1 + vars 2 * ypt p) with hF
  have e : ∀ p : ℕ, (1 / ((7 : ℕ) : ℝ)) * ((p : ℝ) - ((7 : ℕ) : ℝ) ^ 2) = ypt p := fun p => by rw [ypt]; push_cast; ring
  have s0 : √(vars 2) ≠ 0 := by positivity
  have p0 : √π ≠ 0 := by positivity
  have st : ∀ (i : ℕ) (_ : i ≤ 2) (g : ℝ → ℝ) (K : ℝ), K ≠ 0 → (∀ p, √(vars 2) * fitFncDeriv 2 p vars i = K * (exp (-(ypt p) ^ 2 / 2) * g (ypt p))) →
      ∑ p ∈ Finset.range 99, F p * exp (-(ypt p) ^ 2 / 2) * g (ypt p) = 0 := by
    intro i hi g K hK hd
    have h := hst i hi
    have : ∑ p ∈ Finset.range 99, fitFncValue 2 f p vars * fitFncDeriv 2 p vars i = K * ∑ p ∈ Finset.range 99, F p * exp (-(ypt p) ^ 2 / 2) * g (ypt p) := by
      rw [Finset.mul_sum]
      apply Finset.sum_congr rfl
      intro p _
      rw [C103_fit_fnc_value 2 le_rfl f p vars hw]
      have := hd p
      simp only [hF]
      linear_combination (f (vars 1 + vars 2 * ypt p) - gauss (vars 0) (vars 1) (vars 2) (vars 1 + vars 2 * ypt p)) * this
    rw [this] at h
    exact (mul_eq_zero.1 h).resolve_left hK
  have t0 := st 0 (by norm_num) (fun _ => 1) (-(1 / √2 / √π)) (by simp [p0]) (fun p => by
    simp only [fitFncDeriv, fitSum_two 2 le_rfl, QUADORDER, e]
    rw [show (-0.5 : ℝ) * ypt p * ypt p = -(ypt p) ^ 2 / 2 by ring]
    field_simp)
  have t1 := st 1 (by norm_num) (fun y => y) (-(1 / √2 / √π) * vars 0 / vars 2) (by
    have := hw.ne'
    simp [p0, hA, this]) (fun p => by
    simp only [fitFncDeriv, fitSum_two 2 le_rfl, QUADORDER, e]
    rw [show (-0.5 : ℝ) * ypt p * ypt p = -(ypt p) ^ 2 / 2 by ring]
    field_simp)
  have t2 := st 2 (by norm_num) (fun y => 1 - y * y) ((1 / √2 / √π) * vars 0 / vars 2) (by
    have := hw.ne'
    simp [p0, hA, this]) (fun p => by
    simp only [fitFncDeriv, fitSum_two 2 le_rfl, QUADORDER, e]
    rw [show (-0.5 : ℝ) * ypt p * ypt p = -(ypt p) ^ 2 / 2 by ring]
    field_simp)
  have lin : ∀ g : ℝ → ℝ, H m = g → ∑ p ∈ Finset.range 99, F p * exp (-(ypt p) ^ 2 / 2) * g (ypt p) = 0 →
      ∑ p ∈ Finset.range 99, (vars 2 / 7 * (f (vars 1 + vars 2 * ypt p) * exp (-(ypt p) ^ 2 / 2) * H m (ypt p)) -
        vars 2 / 7 * (gauss (vars 0) (vars 1) (vars 2) (vars 1 + vars 2 * ypt p) * exp (-(ypt p) ^ 2 / 2) * H m (ypt p))) = 0 := by
    intro g hg h
    have : ∀ p, vars 2 / 7 * (f (vars 1 + vars 2 * ypt p) * exp (-(ypt p) ^ 2 / 2) * H m (ypt p)) -
        vars 2 / 7 * (gauss (vars 0) (vars 1) (vars 2) (vars 1 + vars 2 * ypt p) * exp (-(ypt p) ^ 2 / 2) * H m (ypt p)) = vars 2 / 7 * (F p * exp (-(ypt p) ^ 2 / 2) * g (ypt p)) := by
      intro p
      rw [hg, hF]
      ring
    simp only [this]
    rw [← Finset.mul_sum, h, mul_zero]
  interval_cases m
  · exact lin (fun _ => 1) (by funext y; simp [H]) t0
  · refine lin (fun y => √2 * y) (by funext y; simp [H]) ?_
    have : ∀ p, F p * exp (-(ypt p) ^ 2 / 2) * (√2 * ypt p) = √2 * (F p * exp (-(ypt p) ^ 2 / 2) * ypt p) := fun p => by ring
    simp only [this]
    rw [← Finset.mul_sum, t1, mul_zero]
  · refine lin (fun y => (1 / √2) * (2 * y * y - 1)) (by
      funext y
      have := P_eval_succ 0 y
      have s2 : √2 * √2 = (2 : ℝ) := sq2 _ (by norm_num)
      rw [P_eval] at this
      norm_num [P] at this
      field_simp
      linear_combination this + y * y * s2) ?_
    have : ∀ p, F p * exp (-(ypt p) ^ 2 / 2) * ((1 / √2) * (2 * ypt p * ypt p - 1)) =
        (1 / √2) * (F p * exp (-(ypt p) ^ 2 / 2) * 1) + (-2 / √2) * (F p * exp (-(ypt p) ^ 2 / 2) * (1 - ypt p * ypt p)) := fun p => by ring
    simp only [this]
    rw [Finset.sum_add_distrib, ← Finset.mul_sum, ← Finset.mul_sum, t0, t2]
    simp

/-- the hypotheses are met by the gaussian itself -/
example : ∀ i ≤ 2, ∑ p ∈ Finset.range 99, fitFncValue 2 (gauss 3 1 2) p (fun i => if i = 0 then 3 else if i = 1 then 1 else 2) * fitFncDeriv 2 p (fun i => if i = 0 then 3 else if i = 1 then 1 else 2) i = 0 := by
  intro i _
  apply Finset.sum_eq_zero
  intro p _
  rw [C103_fit_fnc_value 2 le_rfl _ _ _ (by norm_num)]
  simp

end

end Verif.GH
