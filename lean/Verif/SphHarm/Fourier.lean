import Mathlib.Analysis.SpecialFunctions.Integrals.Basic
import Mathlib.RingTheory.RootsOfUnity.Complex
import Mathlib.Tactic

/-! Model of `trigMultiAngle` and `FourierTransformForward` (/repo/src/math_sphharm.cpp:133-152, 265-307,
/repo/src/math_sphharm.h:196-228) in exact real arithmetic, and C29. -/
namespace Verif.Fourier
open Real

/-- math_sphharm.cpp:143-151: the loop of `trigMultiAngle`; the values (cos, sin) stored in iterations k..k+n-1, given
the previous pair. -/
noncomputable def trigLoop (alpha beta : ℝ) : ℕ → ℝ × ℝ → List (ℝ × ℝ)
  | 0, _ => []
  | n + 1, (c1, s1) =>
    let c := c1 - (alpha * c1 + beta * s1)
    let s := s1 - (alpha * s1 - beta * c1)
    (c, s) :: trigLoop alpha beta n (c, s)

/-- math_sphharm.cpp:133-152: `trigMultiAngle`: the output array of length m or 2m. -/
noncomputable def trigMultiAngle (phi : ℝ) (m : ℕ) (needSine : Bool) : List ℝ :=
  let alpha := sin (phi / 2) * (sin (phi / 2) * 2)
  let beta := sin phi
  let out := trigLoop alpha beta m (1, 0)
  out.map Prod.fst ++ (if needSine then out.map Prod.snd else [])

/-- math_sphharm.h:210: number of values and coefficients. -/
def size (mmax : ℕ) (useSine : Bool) : ℕ := if useSine then mmax * 2 + 1 else mmax + 1

/-- math_sphharm.h:214: the nodes. -/
noncomputable def phi (mmax : ℕ) (i : ℕ) : ℝ := i * π / (mmax + 1/2)

/-- math_sphharm.cpp:278-289: one row of the table `trigFnc`. -/
noncomputable def trigRow (mmax : ℕ) (useSine : Bool) (k : ℕ) : List ℝ :=
  let weight := π / (mmax + 1/2)
  let row := 1 :: (if mmax > 0 then trigMultiAngle (phi mmax k) mmax useSine else [])
  row.map (fun x => x * (weight * (if useSine = true ∨ k = 0 then 1 else 2)))

/-- math_sphharm.cpp:267-290: the table, row after row. -/
noncomputable def trigFnc (mmax : ℕ) (useSine : Bool) : List ℝ :=
  (List.range (mmax + 1)).flatMap (trigRow mmax useSine)

/-- math_sphharm.cpp:292-307: `transform`; `values` is the strided input array. -/
noncomputable def transform (mmax : ℕ) (useSine : Bool) (values : ℕ → ℝ) (stride : ℕ) : List ℝ :=
  let nfnc := size mmax useSine
  (List.range nfnc).map fun (mm : ℕ) =>
    let m : ℤ := if useSine then (mm : ℤ) - mmax else mm
    ((List.range nfnc).map fun k =>
      let indphi := if k ≤ mmax then k else 2 * mmax + 1 - k
      let indfnc := if m ≥ 0 then m.toNat else ((mmax : ℤ) - m).toNat
      let fnc := (trigFnc mmax useSine).getD (indphi * nfnc + indfnc) 0
      let fnc := if m < 0 ∧ k > mmax then fnc * (-1) else fnc
      fnc * values (k * stride)).sum

/-! ## The table -/

theorem trigLoop_get (p : ℝ) : ∀ (n j i : ℕ), i < n →
    (trigLoop (sin (p / 2) * (sin (p / 2) * 2)) (sin p) n (cos (j * p), sin (j * p)))[i]? =
      some (cos ((j + i + 1 : ℕ) * p), sin ((j + i + 1 : ℕ) * p))
  | 0, _, _, h => by omega
  | n + 1, j, i, h => by
    have ha : sin (p / 2) * (sin (p / 2) * 2) = 1 - cos p := by
      have h1 := cos_two_mul (p / 2)
      have h2 := sin_sq_add_cos_sq (p / 2)
      rw [mul_div_cancel₀ p two_ne_zero] at h1
      nlinarith
    have hc : cos (j * p) - (sin (p / 2) * (sin (p / 2) * 2) * cos (j * p) + sin p * sin (j * p)) =
        cos ((j + 1 : ℕ) * p) := by
      rw [ha, show ((j + 1 : ℕ) : ℝ) * p = j * p + p by push_cast; ring, cos_add]; ring
    have hs : sin (j * p) - (sin (p / 2) * (sin (p / 2) * 2) * sin (j * p) - sin p * cos (j * p)) =
        sin ((j + 1 : ℕ) * p) := by
      rw [ha, show ((j + 1 : ℕ) : ℝ) * p = j * p + p by push_cast; ring, sin_add]; ring
    rw [trigLoop]
    simp only [hc, hs]
    cases i with
    | zero => simp
    | succ i =>
      rw [List.getElem?_cons_succ, trigLoop_get p n (j + 1) i (by omega)]
      rw [show j + 1 + i + 1 = j + (i + 1) + 1 by ring]

theorem trigLoop_length (a b : ℝ) : ∀ n p, (trigLoop a b n p).length = n
  | 0, _ => rfl
  | n + 1, (c, s) => by rw [trigLoop]; simp [trigLoop_length a b n]

/-- C29: `trigMultiAngle` fills its array with cos(k phi), 1 ≤ k ≤ m, followed by sin(k phi) if requested. -/
theorem C29_multiAngle (p : ℝ) (m : ℕ) (b : Bool) :
    (trigMultiAngle p m b).length = (if b then 2 * m else m) ∧
    (∀ k < m, (trigMultiAngle p m b)[k]? = some (cos ((k + 1 : ℕ) * p))) ∧
    (b = true → ∀ k < m, (trigMultiAngle p m b)[m + k]? = some (sin ((k + 1 : ℕ) * p))) := by
  have base : ((1 : ℝ), (0 : ℝ)) = (cos ((0 : ℕ) * p), sin ((0 : ℕ) * p)) := by simp
  rw [trigMultiAngle]
  set out := trigLoop (sin (p / 2) * (sin (p / 2) * 2)) (sin p) m (1, 0) with ho
  have hlen : out.length = m := trigLoop_length _ _ _ _
  have get : ∀ k < m, out[k]? = some (cos ((k + 1 : ℕ) * p), sin ((k + 1 : ℕ) * p)) := by
    intro k hk
    rw [ho, base, trigLoop_get p m 0 k hk, zero_add]
  refine ⟨?_, ?_, ?_⟩
  · cases b <;> simp [hlen]; omega
  · intro k hk
    rw [List.getElem?_append_left (by simpa [hlen] using hk), List.getElem?_map, get k hk]; rfl
  · rintro rfl k hk
    rw [if_pos rfl, List.getElem?_append_right (by simp [hlen]), List.length_map, hlen, Nat.add_sub_cancel_left,
      List.getElem?_map, get k hk]; rfl

theorem trigRow_length (M : ℕ) (b : Bool) (k : ℕ) : (trigRow M b k).length = size M b := by
  rw [trigRow]
  simp only [List.length_map, List.length_cons]
  by_cases h : M > 0
  · rw [if_pos h, (C29_multiAngle _ _ _).1]
    cases b <;> simp [size]; ring
  · rw [if_neg h]
    have : M = 0 := by omega
    cases b <;> simp [size, this]

theorem flat_get {α : Type} (f : ℕ → List α) (n : ℕ) (hf : ∀ k, (f k).length = n) :
    ∀ (N k j : ℕ), k < N → j < n → ((List.range N).flatMap f)[k * n + j]? = (f k)[j]? := by
  intro N
  induction N with
  | zero => intro k j h; omega
  | succ N ih =>
    intro k j hk hj
    rw [List.range_succ, List.flatMap_append]
    have hl : ((List.range N).flatMap f).length = N * n := by
      rw [List.length_flatMap]; simp [hf]
    by_cases h : k < N
    · rw [List.getElem?_append_left, ih k j h hj]
      rw [hl]
      calc k * n + j < k * n + n := by omega
        _ = (k + 1) * n := by ring
        _ ≤ N * n := Nat.mul_le_mul_right n h
    · have : k = N := by omega
      subst this
      rw [List.getElem?_append_right (by rw [hl]; omega), hl, Nat.add_sub_cancel_left]
      simp

/-- Weight of the node k. -/
noncomputable def wt (M : ℕ) (b : Bool) (k : ℕ) : ℝ := π / (M + 1/2) * (if b = true ∨ k = 0 then 1 else 2)

theorem table_cos (M : ℕ) (b : Bool) (k j : ℕ) (hk : k ≤ M) (hj : j ≤ M) :
    (trigFnc M b).getD (k * size M b + j) 0 = cos (j * phi M k) * wt M b k := by
  have hs : j < size M b := by rw [size]; cases b <;> simp <;> omega
  rw [trigFnc, List.getD_eq_getElem?_getD, flat_get _ _ (trigRow_length M b) _ _ _ (by omega) hs, trigRow]
  simp only [List.getElem?_map]
  cases j with
  | zero => simp [wt]
  | succ j =>
    rw [List.getElem?_cons_succ, if_pos (show M > 0 by omega), (C29_multiAngle _ _ _).2.1 j (by omega)]
    rfl

theorem table_sin (M : ℕ) (k j : ℕ) (hk : k ≤ M) (h1 : 1 ≤ j) (hj : j ≤ M) :
    (trigFnc M true).getD (k * size M true + (M + j)) 0 = sin (j * phi M k) * wt M true k := by
  have hs : M + j < size M true := by rw [size]; simp; omega
  rw [trigFnc, List.getD_eq_getElem?_getD, flat_get _ _ (trigRow_length M true) _ _ _ (by omega) hs, trigRow]
  simp only [List.getElem?_map]
  obtain ⟨i, rfl⟩ : ∃ i, j = i + 1 := ⟨j - 1, by omega⟩
  rw [show M + (i + 1) = M + i + 1 by ring, List.getElem?_cons_succ, if_pos (show M > 0 by omega),
    (C29_multiAngle _ _ _).2.2 rfl i (by omega)]
  rfl

/-! ## Exactness of the rectangle rule for trigonometric polynomials -/

/-- The rectangle rule with 2M+1 nodes. -/
noncomputable def quad (M : ℕ) (g : ℝ → ℝ) : ℝ :=
  π / (M + 1/2) * ∑ k ∈ Finset.range (2 * M + 1), g (phi M k)

def ExactQ (M : ℕ) (g : ℝ → ℝ) : Prop := Continuous g ∧ quad M g = ∫ p in (0 : ℝ)..(2 * π), g p

theorem ExactQ.add {M : ℕ} {f g : ℝ → ℝ} (hf : ExactQ M f) (hg : ExactQ M g) : ExactQ M (fun p => f p + g p) := by
  refine ⟨hf.1.add hg.1, ?_⟩
  rw [intervalIntegral.integral_add (hf.1.intervalIntegrable _ _) (hg.1.intervalIntegrable _ _), ← hf.2, ← hg.2]
  simp only [quad, Finset.sum_add_distrib]; ring

theorem ExactQ.smul {M : ℕ} {f : ℝ → ℝ} (hf : ExactQ M f) (c : ℝ) : ExactQ M (fun p => c * f p) := by
  refine ⟨continuous_const.mul hf.1, ?_⟩
  rw [intervalIntegral.integral_const_mul, ← hf.2]
  simp only [quad, ← Finset.mul_sum]; ring

theorem ExactQ.zero (M : ℕ) : ExactQ M (fun _ => 0) := ⟨continuous_const, by simp [quad]⟩

theorem ExactQ.sum {M : ℕ} {f : ℕ → ℝ → ℝ} (n : ℕ) (hf : ∀ i < n, ExactQ M (f i)) :
    ExactQ M (fun p => ∑ i ∈ Finset.range n, f i p) := by
  induction n with
  | zero => simpa using ExactQ.zero M
  | succ n ih =>
    simp only [Finset.sum_range_succ]
    exact (ih fun i hi => hf i (by omega)).add (hf n (by omega))

theorem sum_exp (M : ℕ) (j : ℤ) (h0 : j ≠ 0) (h1 : |j| ≤ 2 * M) :
    ∑ k ∈ Finset.range (2 * M + 1), Complex.exp ((j * phi M k : ℝ) * Complex.I) = 0 := by
  have hN : (2 * M + 1 : ℕ) ≠ 0 := by omega
  have pr := Complex.isPrimitiveRoot_exp (2 * M + 1) hN
  set ζ := Complex.exp (2 * π * Complex.I / ((2 * M + 1 : ℕ) : ℂ)) with hz
  have e : ∀ k : ℕ, Complex.exp ((j * phi M k : ℝ) * Complex.I) = (ζ ^ j) ^ k := by
    intro k
    rw [hz, ← Complex.exp_int_mul, ← Complex.exp_nat_mul]
    congr 1
    rw [phi]
    push_cast
    have : (M : ℂ) + 1 / 2 ≠ 0 := by
      have : ((M : ℝ) + 1 / 2) ≠ 0 := by positivity
      exact_mod_cast (by simpa using (Complex.ofReal_ne_zero.2 this))
    have h2 : (2 * (M : ℂ) + 1) ≠ 0 := by
      have h : ((2 * (M : ℝ) + 1)) ≠ 0 := by positivity
      have := Complex.ofReal_ne_zero.2 h
      push_cast at this; exact this
    field_simp
  simp only [e]
  have hne : ζ ^ j ≠ 1 := by
    intro hh
    have := (pr.zpow_eq_one_iff_dvd j).1 hh
    have h3 := Int.le_of_dvd (abs_pos.2 h0) ((dvd_abs _ _).2 this)
    push_cast at h3
    omega
  have hp : (ζ ^ j) ^ (2 * M + 1) = 1 := by
    rw [← zpow_natCast, ← zpow_mul, mul_comm, zpow_mul, zpow_natCast, pr.pow_eq_one, one_zpow]
  have := mul_neg_geom_sum (ζ ^ j) (2 * M + 1)
  rw [hp, sub_self] at this
  rcases mul_eq_zero.1 this with h | h
  · exact absurd (by linear_combination -h) hne
  · exact h

theorem sum_cos_sin (M : ℕ) (j : ℤ) (h0 : j ≠ 0) (h1 : |j| ≤ 2 * M) :
    ∑ k ∈ Finset.range (2 * M + 1), cos (j * phi M k) = 0 ∧
    ∑ k ∈ Finset.range (2 * M + 1), sin (j * phi M k) = 0 := by
  have h := sum_exp M j h0 h1
  constructor
  · have := congrArg Complex.re h
    rw [Complex.re_sum] at this
    simpa only [Complex.exp_ofReal_mul_I_re, Complex.zero_re] using this
  · have := congrArg Complex.im h
    rw [Complex.im_sum] at this
    simpa only [Complex.exp_ofReal_mul_I_im, Complex.zero_im] using this

theorem int_cos (j : ℤ) (h0 : j ≠ 0) : ∫ p in (0 : ℝ)..(2 * π), cos (j * p) = 0 := by
  have hj : (j : ℝ) ≠ 0 := by exact_mod_cast h0
  rw [intervalIntegral.integral_comp_mul_left (fun x => cos x) hj, integral_cos]
  have : sin (j * (2 * π)) = 0 := by
    have := sin_int_mul_pi (2 * j)
    rw [← this]; congr 1; push_cast; ring
  simp [this]

theorem int_sin (j : ℤ) : ∫ p in (0 : ℝ)..(2 * π), sin (j * p) = 0 := by
  by_cases h0 : j = 0
  · simp [h0]
  have hj : (j : ℝ) ≠ 0 := by exact_mod_cast h0
  rw [intervalIntegral.integral_comp_mul_left (fun x => sin x) hj, integral_sin]
  have : cos (j * (2 * π)) = 1 := cos_int_mul_two_pi j
  simp [this]

theorem exact_cos (M : ℕ) (j : ℤ) (h1 : |j| ≤ 2 * M) : ExactQ M (fun p => cos (j * p)) := by
  refine ⟨by fun_prop, ?_⟩
  by_cases h0 : j = 0
  · subst h0
    have : (2 * (M : ℝ) + 1) ≠ 0 := by positivity
    simp [quad]
    field_simp
  · rw [int_cos j h0, quad, (sum_cos_sin M j h0 h1).1, mul_zero]

theorem exact_sin (M : ℕ) (j : ℤ) (h1 : |j| ≤ 2 * M) : ExactQ M (fun p => sin (j * p)) := by
  refine ⟨by fun_prop, ?_⟩
  rw [int_sin j]
  by_cases h0 : j = 0
  · subst h0; simp [quad]
  · rw [quad, (sum_cos_sin M j h0 h1).2, mul_zero]

theorem exact_cc (M a b : ℕ) (ha : a ≤ M) (hb : b ≤ M) : ExactQ M (fun p => cos (a * p) * cos (b * p)) := by
  have h1 := (exact_cos M ((a : ℤ) - b) (by rw [abs_le]; omega)).add (exact_cos M ((a : ℤ) + b) (by rw [abs_le]; omega))
  have := h1.smul (1 / 2)
  convert this using 2 with p
  push_cast
  rw [sub_mul, add_mul, cos_sub, cos_add]; ring

theorem exact_ss (M a b : ℕ) (ha : a ≤ M) (hb : b ≤ M) : ExactQ M (fun p => sin (a * p) * sin (b * p)) := by
  have h1 := (exact_cos M ((a : ℤ) - b) (by rw [abs_le]; omega)).add
    ((exact_cos M ((a : ℤ) + b) (by rw [abs_le]; omega)).smul (-1))
  have := h1.smul (1 / 2)
  convert this using 2 with p
  push_cast
  rw [sub_mul, add_mul, cos_sub, cos_add]; ring

theorem exact_sc (M a b : ℕ) (ha : a ≤ M) (hb : b ≤ M) : ExactQ M (fun p => sin (a * p) * cos (b * p)) := by
  have h1 := (exact_sin M ((a : ℤ) - b) (by rw [abs_le]; omega)).add (exact_sin M ((a : ℤ) + b) (by rw [abs_le]; omega))
  have := h1.smul (1 / 2)
  convert this using 2 with p
  push_cast
  rw [sub_mul, add_mul, sin_sub, sin_add]; ring

/-- A trigonometric polynomial of order M. -/
noncomputable def trigPoly (M : ℕ) (a b : ℕ → ℝ) (p : ℝ) : ℝ :=
  ∑ m ∈ Finset.range (M + 1), (a m * cos (m * p) + b m * sin (m * p))

theorem exact_cos_poly (M n : ℕ) (hn : n ≤ M) (a b : ℕ → ℝ) : ExactQ M (fun p => trigPoly M a b p * cos (n * p)) := by
  have := ExactQ.sum (M := M) (f := fun m p => a m * (cos (m * p) * cos (n * p)) + b m * (sin (m * p) * cos (n * p)))
    (M + 1) (fun m hm => ((exact_cc M m n (by omega) hn).smul _).add ((exact_sc M m n (by omega) hn).smul _))
  convert this using 2 with p
  rw [trigPoly, Finset.sum_mul]
  exact Finset.sum_congr rfl fun m _ => by ring

theorem exact_sin_poly (M n : ℕ) (hn : n ≤ M) (a b : ℕ → ℝ) : ExactQ M (fun p => trigPoly M a b p * sin (n * p)) := by
  have := ExactQ.sum (M := M) (f := fun m p => a m * (sin (n * p) * cos (m * p)) + b m * (sin (m * p) * sin (n * p)))
    (M + 1) (fun m hm => ((exact_sc M n m hn (by omega)).smul _).add ((exact_ss M m n (by omega) hn).smul _))
  convert this using 2 with p
  rw [trigPoly, Finset.sum_mul]
  exact Finset.sum_congr rfl fun m _ => by ring

/-! ## The transform -/

theorem phi_refl (M k : ℕ) (hk : k ≤ 2 * M + 1) : phi M (2 * M + 1 - k) = 2 * π - phi M k := by
  rw [phi, phi, Nat.cast_sub hk]
  have : (2 * (M : ℝ) + 1) ≠ 0 := by positivity
  push_cast
  field_simp

theorem cos_refl (m : ℕ) (p : ℝ) : cos (m * (2 * π - p)) = cos (m * p) := by
  rw [mul_sub, cos_nat_mul_two_pi_sub]

theorem sin_refl (m : ℕ) (p : ℝ) : sin (m * (2 * π - p)) = - sin (m * p) := by
  rw [mul_sub, sin_nat_mul_two_pi_sub]

theorem list_sum_range (f : ℕ → ℝ) (n : ℕ) : ((List.range n).map f).sum = ∑ k ∈ Finset.range n, f k := by
  induction n with
  | zero => simp
  | succ n ih => rw [List.range_succ, List.map_append, List.sum_append, ih, Finset.sum_range_succ]; simp

/-- C29, sines and cosines: for every order, stride and every trigonometric polynomial f of order at most mmax, the
transform of the samples f(phi(i)) has 2mmax+1 elements; element mmax+m is the integral of f cos(m phi), and element
mmax-m is the integral of f sin(m phi), over the full circle. -/
theorem C29_with_sines (M stride : ℕ) (a b : ℕ → ℝ) (values : ℕ → ℝ)
    (hv : ∀ i < size M true, values (i * stride) = trigPoly M a b (phi M i)) :
    (transform M true values stride).length = 2 * M + 1 ∧
    (∀ m ≤ M, (transform M true values stride)[M + m]? =
      some (∫ p in (0 : ℝ)..(2 * π), trigPoly M a b p * cos (m * p))) ∧
    (∀ m, 1 ≤ m → m ≤ M → (transform M true values stride)[M - m]? =
      some (∫ p in (0 : ℝ)..(2 * π), trigPoly M a b p * sin (m * p))) := by
  have hsz : size M true = 2 * M + 1 := by rw [size]; simp; ring
  rw [transform]
  rw [hsz] at hv ⊢
  refine ⟨by simp, ?_, ?_⟩
  · intro m hm
    rw [List.getElem?_map, List.getElem?_range (by omega)]
    simp only [Option.map_some, if_true]
    have e : ((M + m : ℕ) : ℤ) - M = m := by push_cast; ring
    rw [e, list_sum_range, ← (exact_cos_poly M m hm a b).2, quad, Finset.mul_sum]
    congr 1
    apply Finset.sum_congr rfl
    intro k hk
    rw [Finset.mem_range] at hk
    rw [hv k hk, if_pos (show (m : ℤ) ≥ 0 by omega), Int.toNat_natCast,
      if_neg (show ¬ ((m : ℤ) < 0 ∧ k > M) by omega)]
    by_cases h : k ≤ M
    · rw [if_pos h, ← hsz, table_cos M true k m h hm, wt]; simp; ring
    · rw [if_neg h, ← hsz, table_cos M true _ m (by rw [hsz]; omega) hm, hsz, phi_refl M k (by omega), cos_refl, wt]
      simp; ring
  · intro m h1 hm
    rw [List.getElem?_map, List.getElem?_range (by omega)]
    simp only [Option.map_some, if_true]
    have e : ((M - m : ℕ) : ℤ) - M = -m := by omega
    rw [e, list_sum_range, ← (exact_sin_poly M m hm a b).2, quad, Finset.mul_sum]
    congr 1
    apply Finset.sum_congr rfl
    intro k hk
    rw [Finset.mem_range] at hk
    have e2 : ((M : ℤ) - -(m : ℤ)).toNat = M + m := by omega
    rw [hv k hk, if_neg (show ¬ (-(m : ℤ) ≥ 0) by omega), e2]
    by_cases h : k ≤ M
    · rw [if_pos h, if_neg (show ¬ (-(m : ℤ) < 0 ∧ k > M) by omega), ← hsz, table_sin M k m h h1 hm, wt]; simp; ring
    · rw [if_neg h, if_pos (show -(m : ℤ) < 0 ∧ k > M by omega), ← hsz, table_sin M _ m (by rw [hsz]; omega) h1 hm, hsz,
        phi_refl M k (by omega), sin_refl, wt]
      simp; ring

theorem sum_fold (M : ℕ) (h : ℕ → ℝ) (hr : ∀ k, 1 ≤ k → k ≤ 2 * M → h (2 * M + 1 - k) = h k) :
    ∑ k ∈ Finset.range (2 * M + 1), h k = h 0 + ∑ k ∈ Finset.range M, 2 * h (k + 1) := by
  rw [Finset.sum_range_succ', two_mul, Finset.sum_range_add, add_comm]
  congr 1
  rw [← Finset.sum_range_reflect (fun k => h (M + k + 1)) M, ← Finset.sum_add_distrib]
  apply Finset.sum_congr rfl
  intro k hk
  rw [Finset.mem_range] at hk
  have := hr (k + 1) (by omega) (by omega)
  rw [show M + (M - 1 - k) + 1 = 2 * M + 1 - (k + 1) by omega, this]; ring

/-- C29, cosines only: for every cosine polynomial f of order at most mmax, the transform of the mmax+1 samples has
mmax+1 elements, and element m is the integral of f cos(m phi). -/
theorem C29_cosines_only (M stride : ℕ) (a : ℕ → ℝ) (values : ℕ → ℝ)
    (hv : ∀ i < size M false, values (i * stride) = trigPoly M a (fun _ => 0) (phi M i)) :
    (transform M false values stride).length = M + 1 ∧
    ∀ m ≤ M, (transform M false values stride)[m]? =
      some (∫ p in (0 : ℝ)..(2 * π), trigPoly M a (fun _ => 0) p * cos (m * p)) := by
  have hsz : size M false = M + 1 := by rw [size]; simp
  rw [transform]
  rw [hsz] at hv ⊢
  refine ⟨by simp, ?_⟩
  intro m hm
  rw [List.getElem?_map, List.getElem?_range (by omega)]
  simp only [Option.map_some, Bool.false_eq_true, if_false]
  rw [list_sum_range, ← (exact_cos_poly M m hm a _).2, quad, sum_fold]
  · congr 1
    rw [Finset.sum_range_succ', add_comm (Finset.sum _ _), mul_add (π / _), Finset.mul_sum]
    congr 1
    · rw [hv 0 (by omega), if_pos (show (m : ℤ) ≥ 0 by omega), Int.toNat_natCast,
        if_neg (show ¬ ((m : ℤ) < 0 ∧ 0 > M) by omega), if_pos (show 0 ≤ M by omega), ← hsz,
        table_cos M false 0 m (by omega) hm, wt]
      simp; ring
    · apply Finset.sum_congr rfl
      intro k hk
      rw [Finset.mem_range] at hk
      rw [hv (k + 1) (by omega), if_pos (show (m : ℤ) ≥ 0 by omega), Int.toNat_natCast,
        if_neg (show ¬ ((m : ℤ) < 0 ∧ k + 1 > M) by omega), if_pos (show k + 1 ≤ M by omega), ← hsz,
        table_cos M false (k + 1) m (by omega) hm, wt]
      simp; ring
  · intro k h1 h2
    rw [phi_refl M k (by omega), cos_refl]
    congr 1
    simp only [trigPoly, cos_refl, zero_mul, add_zero]

/-- The coefficients themselves: C_0 = 2 pi a_0, C_m = pi a_m, C_{-m} = pi b_m. -/
theorem C29_coefficients (M : ℕ) (a b : ℕ → ℝ) (m : ℕ) (hm : m ≤ M) :
    ∫ p in (0 : ℝ)..(2 * π), trigPoly M a b p * cos (m * p) = (if m = 0 then 2 * π else π) * a m := by
  have h : ∀ p, trigPoly M a b p * cos (m * p) = ∑ n ∈ Finset.range (M + 1),
      (a n / 2 * cos (((n : ℤ) - m : ℤ) * p) + a n / 2 * cos (((n : ℤ) + m : ℤ) * p) +
        b n / 2 * sin (((n : ℤ) - m : ℤ) * p) + b n / 2 * sin (((n : ℤ) + m : ℤ) * p)) := by
    intro p
    rw [trigPoly, Finset.sum_mul]
    apply Finset.sum_congr rfl
    intro n _
    push_cast
    rw [sub_mul, add_mul (n : ℝ), cos_sub, cos_add, sin_sub, sin_add]; ring
  simp only [h]
  rw [intervalIntegral.integral_finsetSum (fun n _ => by
    apply Continuous.intervalIntegrable; fun_prop)]
  have each : ∀ n ∈ Finset.range (M + 1), ∫ p in (0 : ℝ)..(2 * π),
      (a n / 2 * cos (((n : ℤ) - m : ℤ) * p) + a n / 2 * cos (((n : ℤ) + m : ℤ) * p) +
        b n / 2 * sin (((n : ℤ) - m : ℤ) * p) + b n / 2 * sin (((n : ℤ) + m : ℤ) * p)) =
      if n = m then (if m = 0 then 2 * π else π) * a m else 0 := by
    intro n _
    rw [intervalIntegral.integral_add (by apply Continuous.intervalIntegrable; fun_prop)
      (by apply Continuous.intervalIntegrable; fun_prop),
      intervalIntegral.integral_add (by apply Continuous.intervalIntegrable; fun_prop)
      (by apply Continuous.intervalIntegrable; fun_prop),
      intervalIntegral.integral_add (by apply Continuous.intervalIntegrable; fun_prop)
      (by apply Continuous.intervalIntegrable; fun_prop)]
    simp only [intervalIntegral.integral_const_mul, int_sin, mul_zero, add_zero]
    by_cases hn : n = m
    · subst hn
      rw [if_pos rfl]
      by_cases h0 : n = 0
      · subst h0
        simp
        ring
      · rw [int_cos ((n : ℤ) + n) (by omega), if_neg h0]
        simp
        ring
    · rw [if_neg hn, int_cos ((n : ℤ) - m) (by omega), int_cos ((n : ℤ) + m) (by omega)]
      ring
  rw [Finset.sum_congr rfl each, Finset.sum_ite_eq' (Finset.range (M + 1)) m, if_pos (by rw [Finset.mem_range]; omega)]

/-- A concrete case: f = 3 + 2 cos(phi) sampled at two nodes. -/
example : (transform 1 false (fun i => trigPoly 1 (fun m => if m = 0 then 3 else 2) (fun _ => 0) (phi 1 i)) 1)[1]? =
    some (π * 2) := by
  have := (C29_cosines_only 1 1 (fun m => if m = 0 then 3 else 2) _
    (fun i _ => by rw [Nat.mul_one])).2 1 le_rfl
  rw [this, C29_coefficients 1 _ _ 1 le_rfl]
  simp

end Verif.Fourier
