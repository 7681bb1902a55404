import Verif.Spline.BSpline

/-! Model of the natural cubic B-spline basis, /repo/src/math_spline.cpp:166-221; C51. -/
namespace Verif.BSpline

noncomputable section

/-- math_spline.cpp:193-239 with the result of `fnc` (index of the segment, four values) given: returns the index of the
first function and the array. -/
def naturalCubic (grid : ℕ → ℝ) (size ind : ℕ) (B : ℕ → ℝ) : ℕ × (ℕ → ℝ) :=
  if size = 2 then
    let B0 := B 0 + 2 / 3 * B 1 + 1 / 3 * B 2
    let B1 := B 3 + 2 / 3 * B 2 + 1 / 3 * B 1
    (ind, fun i => if i = 0 then B0 else if i = 1 then B1 else if i = 2 ∨ i = 3 then 0 else B i)
  else
    let B := if ind + 3 = size then
        let dx1 := grid (size - 2) - grid (size - 1)
        let dx2 := grid (size - 3) - grid (size - 1)
        Function.update (Function.update B 2 (dx1 / (dx1 + dx2) * B 3 + B 2)) 3 (dx2 / (dx1 + dx2) * B 3)
      else B
    let B := if ind + 2 = size then
        let dx1 := grid (size - 2) - grid (size - 1)
        let dx2 := grid (size - 3) - grid (size - 1)
        Function.update (Function.update (Function.update B 1 (dx1 / (dx1 + dx2) * B 2 + B 1))
          2 (dx2 / (dx1 + dx2) * B 2 + B 3)) 3 0
      else B
    let B := if ind = 0 then
        let dx1 := grid 1 - grid 0
        let dx2 := grid 2 - grid 0
        Function.update (Function.update (Function.update (Function.update B 0 (dx2 / (dx1 + dx2) * B 1 + B 0))
          1 (dx1 / (dx1 + dx2) * B 1 + B 2)) 2 (B 3)) 3 0
      else B
    let B := if ind = 1 then
        let dx1 := grid 1 - grid 0
        let dx2 := grid 2 - grid 0
        Function.update (Function.update B 1 (dx1 / (dx1 + dx2) * B 0 + B 1)) 0 (dx2 / (dx1 + dx2) * B 0)
      else B
    (ind - 1, B)

/-- math_spline.cpp:155-163: the point is outside of the grid: values and derivatives at the end point `x0` (segment
`ind` is the first or the last one). -/
def extrapolated (N : ℕ) (x x0 : ℝ) (ind : ℕ) (grid : ℕ → ℝ) (size : ℕ) (i : ℕ) : ℝ :=
  values N x0 ind grid size i + derivs N 1 x0 ind grid size i * (x - x0)

/-! ## Specification -/

/-- The whole array of ordinary basis functions (numbers 0..size+1), given the four nonzero ones of a segment. -/
def spread (ind : ℕ) (B : ℕ → ℝ) (k : ℕ) : ℝ := if ind ≤ k ∧ k ≤ ind + 3 then B (k - ind) else 0

/-- The natural basis (numbers 0..size-1) as a linear combination of the ordinary one, as documented in
math_spline.cpp:168-176: the first three ordinary functions are replaced by two, and the last three likewise. -/
def natural (grid : ℕ → ℝ) (size : ℕ) (b : ℕ → ℝ) (k : ℕ) : ℝ :=
  if size = 2 then
    if k = 0 then b 0 + 2 / 3 * b 1 + 1 / 3 * b 2 else if k = 1 then b 3 + 2 / 3 * b 2 + 1 / 3 * b 1 else 0
  else
    let l := (grid 1 - grid 0) / (grid 1 - grid 0 + (grid 2 - grid 0))
    let r := (grid (size - 1) - grid (size - 2)) / (grid (size - 1) - grid (size - 2) + (grid (size - 1) - grid (size - 3)))
    (if k = 0 then b 0 + (1 - l) * b 1 else if k + 1 = size then b (size + 1) + (1 - r) * b size else b (k + 1)) +
      (if k = 1 then l * b 1 else 0) + (if k + 2 = size then r * b size else 0)

theorem frac {grid : ℕ → ℝ} {size : ℕ} (hg : Grid grid size) (h3 : 3 ≤ size) :
    (grid 2 - grid 0) / (grid 1 - grid 0 + (grid 2 - grid 0)) =
      1 - (grid 1 - grid 0) / (grid 1 - grid 0 + (grid 2 - grid 0)) ∧
    (grid (size - 2) - grid (size - 1)) / (grid (size - 2) - grid (size - 1) + (grid (size - 3) - grid (size - 1))) =
      (grid (size - 1) - grid (size - 2)) / (grid (size - 1) - grid (size - 2) + (grid (size - 1) - grid (size - 3))) ∧
    (grid (size - 3) - grid (size - 1)) / (grid (size - 2) - grid (size - 1) + (grid (size - 3) - grid (size - 1))) =
      1 - (grid (size - 1) - grid (size - 2)) / (grid (size - 1) - grid (size - 2) + (grid (size - 1) - grid (size - 3))) := by
  have a := hg 0 1 (by omega) (by omega)
  have b := hg 0 2 (by omega) (by omega)
  have c := hg (size - 2) (size - 1) (by omega) (by omega)
  have d := hg (size - 3) (size - 1) (by omega) (by omega)
  have e1 : grid 1 - grid 0 + (grid 2 - grid 0) ≠ 0 := by linarith
  have e2 : grid (size - 1) - grid (size - 2) + (grid (size - 1) - grid (size - 3)) ≠ 0 := by linarith
  have e3 : grid (size - 2) - grid (size - 1) + (grid (size - 3) - grid (size - 1)) ≠ 0 := by linarith
  refine ⟨?_, ?_, ?_⟩
  · field_simp; ring
  · rw [div_eq_div_iff e3 e2]; ring
  · rw [eq_sub_iff_add_eq, div_add_div _ _ e3 e2, div_eq_one_iff_eq (mul_ne_zero e3 e2)]; ring

theorem frac_bounds {grid : ℕ → ℝ} {size : ℕ} (hg : Grid grid size) (h3 : 3 ≤ size) :
    0 ≤ (grid 1 - grid 0) / (grid 1 - grid 0 + (grid 2 - grid 0)) ∧
    (grid 1 - grid 0) / (grid 1 - grid 0 + (grid 2 - grid 0)) ≤ 1 ∧
    0 ≤ (grid (size - 1) - grid (size - 2)) / (grid (size - 1) - grid (size - 2) + (grid (size - 1) - grid (size - 3))) ∧
    (grid (size - 1) - grid (size - 2)) / (grid (size - 1) - grid (size - 2) + (grid (size - 1) - grid (size - 3))) ≤ 1 := by
  have a := hg 0 1 (by omega) (by omega)
  have b := hg 0 2 (by omega) (by omega)
  have c := hg (size - 2) (size - 1) (by omega) (by omega)
  have d := hg (size - 3) (size - 1) (by omega) (by omega)
  refine ⟨div_nonneg (by linarith) (by linarith), ?_, div_nonneg (by linarith) (by linarith), ?_⟩
  · rw [div_le_one (by linarith)]; linarith
  · rw [div_le_one (by linarith)]; linarith

/-- C51: the code computes the natural basis: the returned array holds the functions number s, s+1, s+2, s+3 (s is the
returned index; those beyond the end are zero) and all other functions of the basis are zero on this segment. -/
theorem C51_naturalCubic (grid : ℕ → ℝ) (size ind : ℕ) (B : ℕ → ℝ) (hg : Grid grid size) (hi : ind + 1 < size) (k : ℕ)
    (hk : k < size) :
    natural grid size (spread ind B) k =
      if (naturalCubic grid size ind B).1 ≤ k ∧ k ≤ (naturalCubic grid size ind B).1 + 3 then
        (naturalCubic grid size ind B).2 (k - (naturalCubic grid size ind B).1) else 0 := by
  by_cases h2 : size = 2
  · have : ind = 0 := by omega
    subst this h2
    have : k = 0 ∨ k = 1 := by omega
    rcases this with rfl | rfl <;> simp [natural, naturalCubic, spread]
  · obtain ⟨f1, f2, f3⟩ := frac hg (show 3 ≤ size by omega)
    rw [naturalCubic, if_neg h2]
    simp only [f1, f2, f3]
    rw [natural, if_neg h2]
    generalize (grid 1 - grid 0) / (grid 1 - grid 0 + (grid 2 - grid 0)) = l
    generalize (grid (size - 1) - grid (size - 2)) / (grid (size - 1) - grid (size - 2) + (grid (size - 1) - grid (size - 3))) = r
    clear f1 f2 f3 hg
    have hind : ind = 0 ∨ ind = 1 ∨ ∃ n, ind = n + 2 := by
      rcases ind with _ | _ | n
      · simp
      · simp
      · right; right; exact ⟨n, rfl⟩
    have hsz : size = ind + 2 ∨ size = ind + 3 ∨ ∃ m, size = ind + m + 4 := by
      have : size = ind + 2 ∨ size = ind + 3 ∨ ind + 4 ≤ size := by omega
      rcases this with h | h | h
      · exact .inl h
      · exact .inr (.inl h)
      · exact .inr (.inr ⟨size - ind - 4, by omega⟩)
    have hk' : k < ind - 1 ∨ (∃ d, d ≤ 3 ∧ k = ind - 1 + d) ∨ ∃ d, k = ind - 1 + 4 + d := by
      have : k < ind - 1 ∨ k ≤ ind - 1 + 3 ∨ ind - 1 + 4 ≤ k := by omega
      rcases this with h | h | h
      · exact .inl h
      · by_cases h0 : ind - 1 ≤ k
        · exact .inr (.inl ⟨k - (ind - 1), by omega, by omega⟩)
        · exact .inl (by omega)
      · right; right; exact ⟨k - (ind - 1 + 4), by omega⟩
    rcases hind with rfl | rfl | ⟨n, rfl⟩
    · rcases hk' with h | ⟨d, hd, rfl⟩ | ⟨d, rfl⟩
      · omega
      · have : d = 0 ∨ d = 1 ∨ d = 2 ∨ d = 3 := by omega
        rcases hsz with rfl | rfl | ⟨m, rfl⟩
        · exact absurd rfl h2
        · rcases this with rfl | rfl | rfl | rfl
          · simp [spread, Function.update_apply]; try ring
          · simp [spread, Function.update_apply]; try ring
          · simp [spread, Function.update_apply]; try ring
          · omega
        · rcases this with rfl | rfl | rfl | rfl <;> simp [spread, Function.update_apply] <;> try ring
      · rcases hsz with rfl | rfl | ⟨m, rfl⟩
        · omega
        · omega
        · (simp (disch := omega) only [spread, if_pos, if_neg, Function.update_apply]; simp)
    · rcases hk' with h | ⟨d, hd, rfl⟩ | ⟨d, rfl⟩
      · omega
      · have : d = 0 ∨ d = 1 ∨ d = 2 ∨ d = 3 := by omega
        rcases hsz with rfl | rfl | ⟨m, rfl⟩
        · rcases this with rfl | rfl | rfl | rfl
          · simp [spread, Function.update_apply]; try ring
          · simp [spread, Function.update_apply]; try ring
          · simp [spread, Function.update_apply]; try ring
          · omega
        · rcases this with rfl | rfl | rfl | rfl <;> simp [spread, Function.update_apply] <;> try ring
        · rcases this with rfl | rfl | rfl | rfl <;> simp [spread, Function.update_apply] <;> try ring
      · rcases hsz with rfl | rfl | ⟨m, rfl⟩
        · omega
        · omega
        · (simp (disch := omega) only [spread, if_pos, if_neg, Function.update_apply]; simp)
    · rcases hk' with h | ⟨d, hd, rfl⟩ | ⟨d, rfl⟩
      · rcases hsz with rfl | rfl | ⟨m, rfl⟩ <;> (simp (disch := omega) only [spread, if_pos, if_neg, Function.update_apply]; simp)
      · have : d = 0 ∨ d = 1 ∨ d = 2 ∨ d = 3 := by omega
        rcases hsz with rfl | rfl | ⟨m, rfl⟩
        · rcases this with rfl | rfl | rfl | rfl
          · (simp (disch := omega) [spread, Function.update_apply, if_neg]; try ring)
          · (simp (disch := omega) [spread, Function.update_apply, if_neg]; try ring)
          · (simp (disch := omega) [spread, Function.update_apply, if_neg]; try ring)
          · omega
        · rcases this with rfl | rfl | rfl | rfl <;> (simp (disch := omega) [spread, Function.update_apply, if_neg]; try ring)
        · rcases this with rfl | rfl | rfl | rfl <;> (simp (disch := omega) [spread, Function.update_apply, if_neg]; try ring)
      · rcases hsz with rfl | rfl | ⟨m, rfl⟩
        · omega
        · omega
        · (simp (disch := omega) only [spread, if_pos, if_neg, Function.update_apply]; simp)

/-- The natural basis on a segment: k-th function as computed by the code (0 if not in the returned array). -/
def code (grid : ℕ → ℝ) (size ind : ℕ) (B : ℕ → ℝ) (k : ℕ) : ℝ :=
  if (naturalCubic grid size ind B).1 ≤ k ∧ k ≤ (naturalCubic grid size ind B).1 + 3 then
    (naturalCubic grid size ind B).2 (k - (naturalCubic grid size ind B).1) else 0

/-- C51: the sum of the four returned numbers is the sum of the four numbers given by the ordinary basis. -/
theorem naturalCubic_sum (grid : ℕ → ℝ) (size ind : ℕ) (B : ℕ → ℝ) (hg : Grid grid size) (hi : ind + 1 < size) :
    ∑ i ∈ Finset.range 4, (naturalCubic grid size ind B).2 i = ∑ i ∈ Finset.range 4, B i := by
  by_cases h2 : size = 2
  · rw [naturalCubic, if_pos h2]
    simp [Finset.sum_range_succ]; ring
  · obtain ⟨f1, f2, f3⟩ := frac hg (show 3 ≤ size by omega)
    rw [naturalCubic, if_neg h2]
    simp only [f1, f2, f3]
    generalize (grid 1 - grid 0) / (grid 1 - grid 0 + (grid 2 - grid 0)) = l
    generalize (grid (size - 1) - grid (size - 2)) / (grid (size - 1) - grid (size - 2) + (grid (size - 1) - grid (size - 3))) = r
    simp only [Finset.sum_range_succ, Finset.range_zero, Finset.sum_empty]
    have st : ∀ (c : Prop) [Decidable c] (B B' : ℕ → ℝ), 0 + B' 0 + B' 1 + B' 2 + B' 3 = 0 + B 0 + B 1 + B 2 + B 3 →
        0 + (if c then B' else B) 0 + (if c then B' else B) 1 + (if c then B' else B) 2 + (if c then B' else B) 3 =
          0 + B 0 + B 1 + B 2 + B 3 := by
      intro c _ B B' h; split_ifs <;> [exact h; rfl]
    refine (st _ _ _ ?_).trans ((st _ _ _ ?_).trans ((st _ _ _ ?_).trans (st _ _ _ ?_)))
    · simp only [Function.update_apply]; norm_num; ring
    · simp only [Function.update_apply]; norm_num; ring
    · simp only [Function.update_apply]; norm_num; ring
    · simp only [Function.update_apply]; norm_num; ring

/-- C51: values of the natural basis sum to one, inside the grid and (linear extrapolation) outside. -/
theorem C51_sum (grid : ℕ → ℝ) (size ind : ℕ) (hg : Grid grid size) (hi : ind + 1 < size) (x x0 : ℝ) :
    ∑ i ∈ Finset.range 4, (naturalCubic grid size ind (values 3 x ind grid size)).2 i = 1 ∧
    ∑ i ∈ Finset.range 4, (naturalCubic grid size ind (extrapolated 3 x x0 ind grid size)).2 i = 1 := by
  have a : ∀ x, ∑ i ∈ Finset.range 4, values 3 x ind grid size i = 1 := fun x => values_sum 3 grid size ind x hg hi
  have b := C50_derivs_sum_zero 0 3 (by omega) grid size ind hg hi x0
  refine ⟨by rw [naturalCubic_sum _ _ _ _ hg hi, a], ?_⟩
  rw [naturalCubic_sum _ _ _ _ hg hi]
  simp only [extrapolated, Finset.sum_add_distrib, ← Finset.sum_mul]
  rw [a, b]; ring

/-- C51: inside the grid the values are nonnegative (hence between zero and one). -/
theorem C51_nonneg (grid : ℕ → ℝ) (size ind : ℕ) (hg : Grid grid size) (hi : ind + 1 < size) (x : ℝ)
    (h1 : grid ind ≤ x) (h2 : x ≤ grid (ind + 1)) (k : ℕ) (hk : k < size) :
    0 ≤ code grid size ind (values 3 x ind grid size) k := by
  have h := (C37_partition_of_unity 3 grid size ind x hg hi h1 h2).1
  have hs : ∀ k, 0 ≤ spread ind (values 3 x ind grid size) k := by
    intro k; rw [spread]; split_ifs with hh
    · exact h _ (by omega)
    · exact le_refl _
  rw [code, ← C51_naturalCubic _ _ _ _ hg hi k hk, natural]
  by_cases h2 : size = 2
  · rw [if_pos h2]
    have := hs 0; have := hs 1; have := hs 2; have := hs 3
    split_ifs <;> positivity
  · rw [if_neg h2]
    obtain ⟨l0, l1, r0, r1⟩ := frac_bounds hg (show 3 ≤ size by omega)
    simp only
    revert l0 l1 r0 r1
    generalize (grid 1 - grid 0) / (grid 1 - grid 0 + (grid 2 - grid 0)) = l
    generalize (grid (size - 1) - grid (size - 2)) / (grid (size - 1) - grid (size - 2) + (grid (size - 1) - grid (size - 3))) = r
    intro l0 l1 r0 r1
    have e1 := mul_nonneg l0 (hs 1)
    have e2 := mul_nonneg (sub_nonneg.2 l1) (hs 1)
    have e3 := mul_nonneg r0 (hs size)
    have e4 := mul_nonneg (sub_nonneg.2 r1) (hs size)
    have e5 := hs 0
    have e6 := hs (size + 1)
    have e7 := hs (k + 1)
    refine add_nonneg (add_nonneg ?_ ?_) ?_
    · split_ifs <;> linarith
    · split_ifs <;> linarith
    · split_ifs <;> linarith

/-- Values of the degree 1 basis at the two ends of a segment. -/
theorem values_one_ends {grid : ℕ → ℝ} {size ind : ℕ} (hg : Grid grid size) (hi : ind + 1 < size) :
    values 1 (grid ind) ind grid size 0 = 1 ∧ values 1 (grid ind) ind grid size 1 = 0 ∧
    values 1 (grid (ind + 1)) ind grid size 0 = 0 ∧ values 1 (grid (ind + 1)) ind grid size 1 = 1 := by
  have h := hg ind (ind + 1) (by omega) hi
  have e0 : node grid size ind = grid ind := node_nat (by omega)
  have e1 : node grid size ((ind : ℤ) + 1) = grid (ind + 1) := by
    have := node_nat (grid := grid) (size := size) (i := ind + 1) (by omega)
    push_cast at this; exact this
  have hne : grid (ind + 1) - grid ind ≠ 0 := by linarith
  have hne' : grid ind - grid (ind + 1) ≠ 0 := by linarith
  have q0 : ∀ x, values 1 x ind grid size 0 = (x - grid (ind + 1)) / (grid ind - grid (ind + 1)) := by
    intro x
    have := values_sum 1 grid size ind x hg hi
    rw [Finset.sum_range_succ, Finset.sum_range_one] at this
    have q1 : values 1 x ind grid size 1 = (x - grid ind) / (grid (ind + 1) - grid ind) := by
      simp [values, inner, linInt, Function.update_apply, e0, e1, h.ne]
    rw [q1] at this
    have e : (x - grid (ind + 1)) / (grid ind - grid (ind + 1)) = 1 - (x - grid ind) / (grid (ind + 1) - grid ind) := by
      rw [eq_sub_iff_add_eq, div_add_div _ _ hne' hne, div_eq_one_iff_eq (mul_ne_zero hne' hne)]; ring
    rw [e]; linarith
  have q1 : ∀ x, values 1 x ind grid size 1 = (x - grid ind) / (grid (ind + 1) - grid ind) := by
    intro x; simp [values, inner, linInt, Function.update_apply, e0, e1, h.ne]
  refine ⟨?_, ?_, ?_, ?_⟩
  · rw [q0, div_self hne']
  · rw [q1]; simp
  · rw [q0]; simp
  · rw [q1, div_self hne]

end
end Verif.BSpline
