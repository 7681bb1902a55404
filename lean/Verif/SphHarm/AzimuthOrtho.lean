import Verif.SphHarm.Fourier
import Verif.SphHarm.Symmetry

/-! Discrete orthogonality of the azimuthal functions on the nodes of FourierTransformForward (math_sphharm.cpp:265-307). -/
namespace Verif.SphHarm
open Real Verif.Fourier

noncomputable section

theorem trigM_nat (n : ℕ) (p : ℝ) : trigM (n : ℤ) p = cos (n * p) := by
  rw [trigM, if_pos (by omega)]; norm_cast
theorem trigM_negnat (n : ℕ) (hn : 1 ≤ n) (p : ℝ) : trigM (-(n : ℤ)) p = sin (n * p) := by
  rw [trigM, if_neg (by omega)]; congr 1
  push_cast; rw [abs_neg, Nat.abs_cast]

/-- every element of the Fourier transform is a weighted sum over the nodes -/
theorem transform_get (M : ℕ) (b : Bool) (values : ℕ → ℝ) (stride : ℕ) (m : ℤ) (h1 : (if b then -(M : ℤ) else 0) ≤ m) (h2 : m ≤ M) :
    (transform M b values stride).getD (m - (if b then -(M : ℤ) else 0)).toNat 0 =
      ∑ k ∈ Finset.range (size M b), wt M b k * trigM m (phi M k) * values (k * stride) := by
  have hlt : (m - (if b then -(M : ℤ) else 0)).toNat < size M b := by
    rw [size]; cases b <;> simp at h1 ⊢ <;> omega
  rw [transform, List.getD_eq_getElem?_getD, List.getElem?_map, List.getElem?_range hlt]
  simp only [Option.map_some, Option.getD_some]
  have e : (if b = true then (((m - (if b then -(M : ℤ) else 0)).toNat : ℤ) - M) else (((m - (if b then -(M : ℤ) else 0)).toNat : ℕ) : ℤ)) = m := by
    cases b <;> simp at h1 ⊢ <;> omega
  rw [e, list_sum_range]
  apply Finset.sum_congr rfl
  intro k hk
  rw [Finset.mem_range] at hk
  congr 1
  have hk' : M < k → b = true ∧ k ≤ 2 * M := by
    intro h; rw [size] at hk; cases b <;> simp at hk ⊢ <;> omega
  have wtb : M < k → wt M b (2 * M + 1 - k) = wt M b k := by
    intro h; rw [wt, wt, if_pos (Or.inl (hk' h).1), if_pos (Or.inl (hk' h).1)]
  by_cases hm : 0 ≤ m
  · obtain ⟨n, rfl⟩ := Int.eq_ofNat_of_zero_le hm
    have hn : n ≤ M := by omega
    rw [if_neg (by omega), if_pos (show ((n : ℕ) : ℤ) ≥ 0 by omega), Int.toNat_natCast, trigM_nat]
    by_cases hkM : k ≤ M
    · rw [if_pos hkM, table_cos M b k n hkM hn]; ring
    · have hkM' : M < k := by omega
      rw [if_neg hkM, table_cos M b _ n (by omega) hn, phi_refl M k (by have := (hk' hkM').2; omega), cos_refl, wtb hkM']; ring
  · have hb : b = true := by
      cases b
      · simp at h1; omega
      · rfl
    subst hb
    obtain ⟨n, hn⟩ : ∃ n : ℕ, m = -(n : ℤ) := ⟨m.natAbs, by omega⟩
    subst hn
    have hn1 : 1 ≤ n := by omega
    have hnM : n ≤ M := by simp at h1; omega
    rw [if_neg (show ¬ (-(n : ℤ) ≥ 0) by omega), show ((M : ℤ) - -(n : ℤ)).toNat = M + n by omega, trigM_negnat n hn1]
    by_cases hkM : k ≤ M
    · rw [if_pos hkM, if_neg (by omega), table_sin M k n hkM hn1 hnM]; ring
    · have hkM' : M < k := by omega
      rw [if_neg hkM, if_pos ⟨by omega, by omega⟩, table_sin M _ n (by omega) hn1 hnM, phi_refl M k (by have := (hk' hkM').2; omega), sin_refl, wtb hkM']; ring

theorem int_cc (a b : ℕ) : ∫ p in (0 : ℝ)..(2 * π), cos (a * p) * cos (b * p) = if a = b then (if a = 0 then 2 * π else π) else 0 := by
  have h : ∀ p : ℝ, cos (a * p) * cos (b * p) = 1 / 2 * cos (((a : ℤ) - b : ℤ) * p) + 1 / 2 * cos (((a : ℤ) + b : ℤ) * p) := by
    intro p; push_cast; rw [sub_mul, add_mul, cos_sub, cos_add]; ring
  simp only [h]
  rw [intervalIntegral.integral_add (by apply Continuous.intervalIntegrable; fun_prop) (by apply Continuous.intervalIntegrable; fun_prop)]
  simp only [intervalIntegral.integral_const_mul]
  by_cases hab : a = b
  · subst hab
    rw [if_pos rfl]
    by_cases h0 : a = 0
    · subst h0; simp; ring
    · rw [if_neg h0, int_cos ((a : ℤ) + a) (by omega)]; simp
  · rw [if_neg hab, int_cos _ (by omega), int_cos _ (by omega)]; ring

theorem int_ss (a b : ℕ) (ha : 1 ≤ a) : ∫ p in (0 : ℝ)..(2 * π), sin (a * p) * sin (b * p) = if a = b then π else 0 := by
  have h : ∀ p : ℝ, sin (a * p) * sin (b * p) = 1 / 2 * cos (((a : ℤ) - b : ℤ) * p) - 1 / 2 * cos (((a : ℤ) + b : ℤ) * p) := by
    intro p; push_cast; rw [sub_mul, add_mul, cos_sub, cos_add]; ring
  simp only [h]
  rw [intervalIntegral.integral_sub (by apply Continuous.intervalIntegrable; fun_prop) (by apply Continuous.intervalIntegrable; fun_prop)]
  simp only [intervalIntegral.integral_const_mul]
  by_cases hab : a = b
  · subst hab
    rw [if_pos rfl, int_cos ((a : ℤ) + a) (by omega)]; simp
  · rw [if_neg hab, int_cos _ (by omega), int_cos _ (by omega)]; ring

theorem int_sc (a b : ℕ) : ∫ p in (0 : ℝ)..(2 * π), sin (a * p) * cos (b * p) = 0 := by
  have h : ∀ p : ℝ, sin (a * p) * cos (b * p) = 1 / 2 * sin (((a : ℤ) - b : ℤ) * p) + 1 / 2 * sin (((a : ℤ) + b : ℤ) * p) := by
    intro p; push_cast; rw [sub_mul, add_mul, sin_sub, sin_add]; ring
  simp only [h]
  rw [intervalIntegral.integral_add (by apply Continuous.intervalIntegrable; fun_prop) (by apply Continuous.intervalIntegrable; fun_prop)]
  simp only [intervalIntegral.integral_const_mul, int_sin]; ring

theorem quad_eq (M : ℕ) (g : ℝ → ℝ) : ∑ k ∈ Finset.range (size M true), wt M true k * g (phi M k) = quad M g := by
  rw [quad, Finset.mul_sum, size, if_pos rfl, show M * 2 + 1 = 2 * M + 1 by ring]
  exact Finset.sum_congr rfl fun k _ => by rw [wt, if_pos (Or.inl rfl), mul_one]

theorem quad_eq_false (M : ℕ) (g : ℝ → ℝ) (hg : ∀ p, g (2 * π - p) = g p) : ∑ k ∈ Finset.range (size M false), wt M false k * g (phi M k) = quad M g := by
  rw [quad, sum_fold M (fun k => g (phi M k)) (fun k _ hk => by rw [phi_refl M k (by omega), hg])]
  rw [size, if_neg (by simp), Finset.sum_range_succ', add_comm, mul_add, Finset.mul_sum]
  congr 1
  · rw [wt, if_pos (Or.inr rfl), mul_one]
  · exact Finset.sum_congr rfl fun k _ => by rw [wt, if_neg (by simp)]; ring

/-- discrete orthogonality of the azimuthal functions -/
theorem azimuth_ortho (M : ℕ) (b : Bool) (m n : ℤ) (h1 : (if b then -(M : ℤ) else 0) ≤ m) (h2 : m ≤ M) (h3 : (if b then -(M : ℤ) else 0) ≤ n) (h4 : n ≤ M) :
    ∑ k ∈ Finset.range (size M b), wt M b k * (trigM m (phi M k) * trigM n (phi M k)) = if m = n then (if m = 0 then 2 * π else π) else 0 := by
  by_cases hm : 0 ≤ m <;> by_cases hn : 0 ≤ n
  · obtain ⟨m, rfl⟩ := Int.eq_ofNat_of_zero_le hm
    obtain ⟨n, rfl⟩ := Int.eq_ofNat_of_zero_le hn
    simp only [trigM_nat]
    have := (exact_cc M m n (by omega) (by omega)).2
    rw [int_cc] at this
    have e : quad M (fun p => cos (m * p) * cos (n * p)) = if (m : ℤ) = n then (if (m : ℤ) = 0 then 2 * π else π) else 0 := by
      rw [this]; norm_cast
    rw [← e]
    cases b
    · exact quad_eq_false M (fun p => cos (m * p) * cos (n * p)) (fun p => by simp only [cos_refl])
    · exact quad_eq M (fun p => cos (m * p) * cos (n * p))
  all_goals
    have hb : b = true := by
      cases b
      · simp at h1 h3; omega
      · rfl
    subst hb
    simp only [if_true] at h1 h3
  · obtain ⟨m, rfl⟩ := Int.eq_ofNat_of_zero_le hm
    obtain ⟨n, rfl⟩ : ∃ k : ℕ, n = -(k : ℤ) := ⟨n.natAbs, by omega⟩
    simp only [trigM_nat, trigM_negnat n (by omega)]
    rw [if_neg (by omega), quad_eq M (fun p => cos (m * p) * sin (n * p))]
    have := (exact_sc M n m (by omega) (by omega)).2
    rw [int_sc] at this
    rw [← this]; congr 1; funext p; ring
  · obtain ⟨n, rfl⟩ := Int.eq_ofNat_of_zero_le hn
    obtain ⟨m, rfl⟩ : ∃ k : ℕ, m = -(k : ℤ) := ⟨m.natAbs, by omega⟩
    simp only [trigM_nat, trigM_negnat m (by omega)]
    rw [if_neg (by omega), quad_eq M (fun p => sin (m * p) * cos (n * p))]
    have := (exact_sc M m n (by omega) (by omega)).2
    rw [int_sc] at this
    exact this
  · obtain ⟨m, rfl⟩ : ∃ k : ℕ, m = -(k : ℤ) := ⟨m.natAbs, by omega⟩
    obtain ⟨n, rfl⟩ : ∃ k : ℕ, n = -(k : ℤ) := ⟨n.natAbs, by omega⟩
    simp only [trigM_negnat m (by omega), trigM_negnat n (by omega)]
    rw [quad_eq M (fun p => sin (m * p) * sin (n * p)), (exact_ss M m n (by omega) (by omega)).2, int_ss m n (by omega)]
    rw [if_neg (show ¬ (-(m : ℤ) = 0) by omega)]
    simp

end

end Verif.SphHarm
