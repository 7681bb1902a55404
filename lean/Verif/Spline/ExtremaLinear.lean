import Verif.Spline.Extrema

/-! C77: extrema of linear interpolators (`findExtremaBspline<1>`, /repo/src/math_spline.cpp:1090-1119). -/
namespace Verif.Spline

open Verif.BSpline (Grid)
open Set

noncomputable section

/-- The state of the loop: the list so far; from its last element to the current node the function goes strictly in the direction s. -/
structure LInv (S : ℝ → ℝ) (a cur : ℝ) (s : ℤ) (L : List ℝ) : Prop where
  ex : ∃ σ back R, L = (back :: R).reverse ∧ Alternating S σ (back :: R) ∧ (back :: R).getLast? = some a ∧ back < cur ∧ σ ≠ s ∧
    (s = 1 ∧ StrictMonoOn S (Icc back cur) ∨ s = -1 ∧ StrictAntiOn S (Icc back cur))

theorem smono_join {S : ℝ → ℝ} {a b c : ℝ} (h1 : StrictMonoOn S (Icc a b)) (h2 : StrictMonoOn S (Icc b c)) (hab : a ≤ b) (hbc : b ≤ c) :
    StrictMonoOn S (Icc a c) := by
  have := h1.union h2 (isGreatest_Icc hab) (isLeast_Icc hbc)
  rwa [Icc_union_Icc_eq_Icc hab hbc] at this

theorem santi_join {S : ℝ → ℝ} {a b c : ℝ} (h1 : StrictAntiOn S (Icc a b)) (h2 : StrictAntiOn S (Icc b c)) (hab : a ≤ b) (hbc : b ≤ c) :
    StrictAntiOn S (Icc a c) := by
  have := h1.union h2 (isGreatest_Icc hab) (isLeast_Icc hbc)
  rwa [Icc_union_Icc_eq_Icc hab hbc] at this

/-- Appending a point c ≤ cur in the current direction. -/
theorem linv_close {S : ℝ → ℝ} {a cur c : ℝ} {s : ℤ} {L : List ℝ} (h : LInv S a cur s L) (hc : c ≤ cur) (hb : ∀ back, L.getLast? = some back → back < c) :
    ∃ R, L ++ [c] = (c :: R).reverse ∧ Alternating S s (c :: R) ∧ (c :: R).getLast? = some a := by
  obtain ⟨σ, back, R, h1, h2, h3, h4, h5, h6⟩ := h.ex
  have hbc : back < c := hb back (by rw [h1]; simp)
  refine ⟨back :: R, by rw [h1]; simp, ?_, by rw [List.getLast?_cons_cons]; exact h3⟩
  have m1 : back ∈ Icc back cur := ⟨le_rfl, h4.le⟩
  have m2 : c ∈ Icc back cur := ⟨hbc.le, hc⟩
  have sub : Icc back c ⊆ Icc back cur := Icc_subset_Icc_right hc
  rcases h6 with ⟨rfl, h'⟩ | ⟨rfl, h'⟩
  · exact Alternating.up h2 h5 hbc (h' m1 m2 hbc) (h'.mono sub).monotoneOn
  · exact Alternating.down h2 h5 hbc (h' m1 m2 hbc) (h'.mono sub).antitoneOn

/-- C77 for linear interpolators, if no two adjacent values are equal and the upper end of the interval is not at an interior node. -/
theorem C77_linear_partial (x f : ℕ → ℝ) (size : ℕ) (hg : Grid x size) (hs : 2 ≤ size) (hne : ∀ i, i + 1 < size → f i ≠ f (i + 1)) (x1 x2 : Option ℝ) (a b : ℝ)
    (ha : a = max (lower x x1 x2) (x 0)) (hb : b = min (upper x size x1 x2) (x (size - 1))) (hl : a < b) (hnode : ∀ i, i + 1 < size → b ≠ x i) :
    ∃ S : ℝ → Jet3, (∀ t, LinearInterpolator.evalDeriv x f size t = some (S t)) ∧
      ∃ R, findExtremaLinear x f size x1 x2 = some R ∧ ExtremaOf (fun t => (S t).val) a b R := by
  obtain ⟨S, hS, _, _, hseg, _⟩ := C69_linear x f size hg hs
  refine ⟨S, hS, ?_⟩
  set F : ℝ → ℝ := fun t => (S t).val with hF
  rw [findExtremaLinear, if_neg (by omega)]
  simp only [clipLimits_eq]
  rw [← ha, ← hb]
  have ha0 : x 0 ≤ a := by rw [ha]; exact le_max_right _ _
  have hb0 : b ≤ x (size - 1) := by rw [hb]; exact min_le_right _ _
  obtain ⟨i1, e1, h1, h2, h3, h4⟩ := bin_inside hg hs ha0 (hl.le.trans hb0)
  obtain ⟨i2, e2, g1, g2, g3, -⟩ := bin_inside hg hs (ha0.trans hl.le) hb0
  have h12 : i1 ≤ i2 := by
    have : i1 < i2 + 1 := index_mono hg (by omega) (by omega) (by linarith)
    omega
  have ha1 : a < x (i1 + 1) := by
    refine lt_of_le_of_ne h3 ?_
    intro e
    have := h4 e
    rw [show i1 + 1 = size - 1 by omega] at e
    linarith
  have hb2 : x i2 < b := lt_of_le_of_ne g2 (fun e => hnode i2 g1 e.symm)
  rw [e1, e2, if_pos ⟨by omega, by omega⟩, Int.toNat_natCast, show ((i1 : ℤ) + 1).toNat = i1 + 1 by omega, show ((i2 : ℤ) - i1).toNat = i2 - i1 by omega,
    if_pos ⟨hb2, (hne i2 g1).symm⟩]
  -- the direction on a segment
  have up : ∀ i, i + 1 < size → f i < f (i + 1) → StrictMonoOn F (Icc (x i) (x (i + 1))) := by
    intro i hi hf u hu v hv huv
    have hp : 0 < x (i + 1) - x i := sub_pos.2 (hg i (i + 1) (by omega) hi)
    simp only [hF]
    rw [hseg i hi u (Or.inl hu.1) (Or.inl hu.2), hseg i hi v (Or.inl hv.1) (Or.inl hv.2)]
    have : 0 < (f (i + 1) - f i) / (x (i + 1) - x i) := div_pos (sub_pos.2 hf) hp
    have := mul_lt_mul_of_pos_left (show u - x i < v - x i by linarith) this
    linarith
  have down : ∀ i, i + 1 < size → f (i + 1) < f i → StrictAntiOn F (Icc (x i) (x (i + 1))) := by
    intro i hi hf u hu v hv huv
    have hp : 0 < x (i + 1) - x i := sub_pos.2 (hg i (i + 1) (by omega) hi)
    simp only [hF]
    rw [hseg i hi u (Or.inl hu.1) (Or.inl hu.2), hseg i hi v (Or.inl hv.1) (Or.inl hv.2)]
    have : 0 < (f i - f (i + 1)) / (x (i + 1) - x i) := div_pos (sub_pos.2 hf) hp
    have := mul_lt_mul_of_pos_left (show u - x i < v - x i by linarith) this
    rw [show f (i + 1) - f i = -(f i - f (i + 1)) by ring, neg_div]
    linarith
  set step : List ℝ → ℕ → List ℝ := fun result i =>
      if f i ≠ f (i - 1) ∧ (f i - f (i - 1)) * (f (i + 1) - f i) ≤ 0 then result ++ [x i] else result with hstep
  have loop : ∀ m, i1 + m + 1 < size → ∃ s : ℤ, (s = 1 ∧ f (i1 + m) < f (i1 + m + 1) ∨ s = -1 ∧ f (i1 + m + 1) < f (i1 + m)) ∧
      LInv F a (x (i1 + m + 1)) s ((List.range' (i1 + 1) m).foldl step [a]) ∧
      ∀ back, ((List.range' (i1 + 1) m).foldl step [a]).getLast? = some back → back = a ∨ back ≤ x (i1 + m) := by
    intro m
    induction m with
    | zero =>
      intro hi
      have hi' : i1 + 1 < size := by omega
      have base : ∀ s : ℤ, (0 ≠ s) → (s = 1 ∧ StrictMonoOn F (Icc a (x (i1 + 1))) ∨ s = -1 ∧ StrictAntiOn F (Icc a (x (i1 + 1)))) →
          LInv F a (x (i1 + 0 + 1)) s ((List.range' (i1 + 1) 0).foldl step [a]) := by
        intro s h0 hd
        exact ⟨0, a, [], rfl, Alternating.one a, rfl, ha1, h0, hd⟩
      have sub : Icc a (x (i1 + 1)) ⊆ Icc (x i1) (x (i1 + 1)) := Icc_subset_Icc_left h2
      rcases lt_or_gt_of_ne (hne i1 hi') with hf | hf
      · exact ⟨1, Or.inl ⟨rfl, hf⟩, base 1 (by norm_num) (Or.inl ⟨rfl, (up i1 hi' hf).mono sub⟩), by simp⟩
      · exact ⟨-1, Or.inr ⟨rfl, hf⟩, base (-1) (by norm_num) (Or.inr ⟨rfl, (down i1 hi' hf).mono sub⟩), by simp⟩
    | succ m ih =>
      intro hi
      obtain ⟨s, hs', hinv, hback⟩ := ih (by omega)
      rw [List.range'_concat, List.foldl_append, List.foldl_cons, List.foldl_nil, one_mul]
      generalize (List.range' (i1 + 1) m).foldl step [a] = L at *
      rw [show i1 + 1 + m = i1 + m + 1 by omega, show i1 + (m + 1) = i1 + m + 1 by omega]
      have hx : x (i1 + m + 1) < x (i1 + m + 1 + 1) := hg _ _ (by omega) (by omega)
      have hx' : x (i1 + m) < x (i1 + m + 1) := hg _ _ (by omega) (by omega)
      have hax : a < x (i1 + m + 1) := lt_of_lt_of_le ha1 (Grid.le hg (by omega) (by omega))
      have hbk : ∀ back, L.getLast? = some back → back < x (i1 + m + 1) := by
        intro back h
        rcases hback back h with e | e
        · rw [e]; exact hax
        · linarith
      have bound : ∀ back, (step L (i1 + m + 1)).getLast? = some back → back = a ∨ back ≤ x (i1 + m + 1) := by
        intro back h
        rw [hstep] at h
        simp only at h
        split_ifs at h
        · right; simp at h; exact h.symm.le
        · rcases hback back h with e | e
          · exact Or.inl e
          · right; linarith
      have prev : i1 + m + 1 - 1 = i1 + m := by omega
      -- a turning point
      have turn : ∀ s' : ℤ, s ≠ s' → (s' = 1 ∧ StrictMonoOn F (Icc (x (i1 + m + 1)) (x (i1 + m + 1 + 1))) ∨
          s' = -1 ∧ StrictAntiOn F (Icc (x (i1 + m + 1)) (x (i1 + m + 1 + 1)))) → LInv F a (x (i1 + m + 1 + 1)) s' (L ++ [x (i1 + m + 1)]) := by
        intro s' hss hd
        obtain ⟨R, r1, r2, r3⟩ := linv_close hinv le_rfl hbk
        exact ⟨s, _, R, r1, r2, r3, hx, hss, hd⟩
      rcases hs' with ⟨rfl, hf⟩ | ⟨rfl, hf⟩
      · rcases lt_or_gt_of_ne (hne (i1 + m + 1) (by omega)) with hf' | hf'
        · refine ⟨1, Or.inl ⟨rfl, hf'⟩, ?_, bound⟩
          have hneg : ¬ (f (i1 + m + 1) ≠ f (i1 + m + 1 - 1) ∧ (f (i1 + m + 1) - f (i1 + m + 1 - 1)) * (f (i1 + m + 1 + 1) - f (i1 + m + 1)) ≤ 0) := by
            rw [prev]; rintro ⟨_, q⟩
            have := mul_pos (sub_pos.2 hf) (sub_pos.2 hf')
            linarith
          have : step L (i1 + m + 1) = L := by simp only [hstep]; rw [if_neg hneg]
          rw [this]
          obtain ⟨σ, back, R, q1, q2, q3, q4, q5, q6⟩ := hinv.ex
          refine ⟨σ, back, R, q1, q2, q3, q4.trans hx, q5, Or.inl ⟨rfl, ?_⟩⟩
          rcases q6 with q | q
          · exact smono_join q.2 (up _ (by omega) hf') q4.le hx.le
          · norm_num at q
        · refine ⟨-1, Or.inr ⟨rfl, hf'⟩, ?_, bound⟩
          have hpos : f (i1 + m + 1) ≠ f (i1 + m + 1 - 1) ∧ (f (i1 + m + 1) - f (i1 + m + 1 - 1)) * (f (i1 + m + 1 + 1) - f (i1 + m + 1)) ≤ 0 := by
            rw [prev]; exact ⟨hf.ne', (mul_neg_of_pos_of_neg (sub_pos.2 hf) (sub_neg.2 hf')).le⟩
          have : step L (i1 + m + 1) = L ++ [x (i1 + m + 1)] := by simp only [hstep]; rw [if_pos hpos]
          rw [this]
          exact turn (-1) (by norm_num) (Or.inr ⟨rfl, down _ (by omega) hf'⟩)
      · rcases lt_or_gt_of_ne (hne (i1 + m + 1) (by omega)) with hf' | hf'
        · refine ⟨1, Or.inl ⟨rfl, hf'⟩, ?_, bound⟩
          have hpos : f (i1 + m + 1) ≠ f (i1 + m + 1 - 1) ∧ (f (i1 + m + 1) - f (i1 + m + 1 - 1)) * (f (i1 + m + 1 + 1) - f (i1 + m + 1)) ≤ 0 := by
            rw [prev]; exact ⟨hf.ne, (mul_neg_of_neg_of_pos (sub_neg.2 hf) (sub_pos.2 hf')).le⟩
          have : step L (i1 + m + 1) = L ++ [x (i1 + m + 1)] := by simp only [hstep]; rw [if_pos hpos]
          rw [this]
          exact turn 1 (by norm_num) (Or.inl ⟨rfl, up _ (by omega) hf'⟩)
        · refine ⟨-1, Or.inr ⟨rfl, hf'⟩, ?_, bound⟩
          have hneg : ¬ (f (i1 + m + 1) ≠ f (i1 + m + 1 - 1) ∧ (f (i1 + m + 1) - f (i1 + m + 1 - 1)) * (f (i1 + m + 1 + 1) - f (i1 + m + 1)) ≤ 0) := by
            rw [prev]; rintro ⟨_, q⟩
            have := mul_pos_of_neg_of_neg (sub_neg.2 hf) (sub_neg.2 hf')
            linarith
          have : step L (i1 + m + 1) = L := by simp only [hstep]; rw [if_neg hneg]
          rw [this]
          obtain ⟨σ, back, R, q1, q2, q3, q4, q5, q6⟩ := hinv.ex
          refine ⟨σ, back, R, q1, q2, q3, q4.trans hx, q5, Or.inr ⟨rfl, ?_⟩⟩
          rcases q6 with q | q
          · norm_num at q
          · exact santi_join q.2 (down _ (by omega) hf') q4.le hx.le
  obtain ⟨s, _, hinv, hback⟩ := loop (i2 - i1) (by omega)
  rw [show i1 + (i2 - i1) = i2 by omega] at hinv hback
  obtain ⟨R, r1, r2, r3⟩ := linv_close hinv g3 (by
    intro back h
    rcases hback back h with e | e
    · rw [e]; exact hl
    · linarith)
  refine ⟨_, rfl, ?_, ⟨s, ?_⟩, b, ?_, le_rfl, fun t h1 h2 => by rw [le_antisymm h2 h1]⟩
  · rw [r1, List.head?_reverse]; exact r3
  · rw [r1, List.reverse_reverse]; exact r2
  · simp

theorem bin_grid {i : ℕ} {n : ℕ} (h : i + 1 < n) : bin (fun i => (i : ℝ)) n i = i := by
  have hg : Grid (fun i => (i : ℝ)) n := fun i j h _ => Nat.cast_lt.2 h
  rcases bin_cases hg (by omega) (i : ℝ) with ⟨h, _⟩ | ⟨h', _⟩ | ⟨h1, h2, _⟩ | ⟨k, hk, h1, h2, h3, e⟩
  · simp at h; have : (0:ℝ) ≤ i := Nat.cast_nonneg _; linarith
  · have : n - 1 < i := by exact_mod_cast h'
    omega
  · omega
  · have a1 : k ≤ i := by exact_mod_cast h1
    have a2 : i ≤ k + 1 := by exact_mod_cast h2
    rw [e]
    rcases Nat.lt_or_ge k i with h | h
    · have : i = k + 1 := by omega
      have := h3 (by rw [this])
      omega
    · have : i = k := by omega
      rw [this]

/-- C77 fails if the upper end of the interval is at an interior node: the nodes 0, 1, 2, the function y=x, and the interval 0..1. The end of the
interval, where the function attains the maximum, is missing. -/
theorem C77_refuted_endpoint : findExtremaLinear (fun i => (i : ℝ)) (fun i => (i : ℝ)) 3 (some 0) (some 1) = some [0] := by
  rw [findExtremaLinear, if_neg (by norm_num), clipLimits_eq]
  have b0 : bin (fun i => (i : ℝ)) 3 0 = 0 := by have := bin_grid (i := 0) (n := 3) (by norm_num); simpa using this
  have b1 : bin (fun i => (i : ℝ)) 3 1 = 1 := by have := bin_grid (i := 1) (n := 3) (by norm_num); simpa using this
  norm_num [lower, upper, b0, b1, List.range']

/-- C77 fails if two adjacent values are equal: the values 0, 1, 1, 2 at the nodes 0, 1, 2, 3. The function is nondecreasing, but the list of extrema
contains the point 1. -/
theorem C77_refuted_plateau : findExtremaLinear (fun i => (i : ℝ)) (fun i => if i = 0 then 0 else if i = 3 then 2 else 1) 4 none none = some [0, 1, 3] := by
  rw [findExtremaLinear, if_neg (by norm_num), clipLimits_eq]
  have b0 : bin (fun i => (i : ℝ)) 4 0 = 0 := by have := bin_grid (i := 0) (n := 4) (by norm_num); simpa using this
  have b3 : bin (fun i => (i : ℝ)) 4 3 = 2 := by
    have hg : Grid (fun i => (i : ℝ)) 4 := fun i j h _ => Nat.cast_lt.2 h
    rcases bin_cases hg (by norm_num) 3 with ⟨h, _⟩ | ⟨h, _⟩ | ⟨h1, h2, _⟩ | ⟨k, hk, h1, h2, h3, e⟩
    · norm_num at h
    · norm_num at h
    · omega
    · have a2 : 3 ≤ k + 1 := by exact_mod_cast h2
      rw [e, show k = 2 by omega]; rfl
  norm_num [lower, upper, b0, b3]
  rw [show Int.toNat 2 = 2 from rfl]
  norm_num [List.range']

/-- C77 for linear interpolators applies: a zigzag. -/
example : ∃ S : ℝ → Jet3, (∀ t, LinearInterpolator.evalDeriv (fun i => (i : ℝ)) (fun i => if i = 1 then 1 else 0) 3 t = some (S t)) ∧
      ∃ R, findExtremaLinear (fun i => (i : ℝ)) (fun i => if i = 1 then 1 else 0) 3 none none = some R ∧ ExtremaOf (fun t => (S t).val) 0 2 R := by
  refine C77_linear_partial _ _ 3 (fun i j h _ => Nat.cast_lt.2 h) (by norm_num) ?_ none none 0 2 ?_ ?_ (by norm_num) ?_
  · intro i hi
    obtain rfl | rfl : i = 0 ∨ i = 1 := by omega
    · norm_num
    · norm_num
  · norm_num [lower]
  · norm_num [upper]
  · intro i hi
    obtain rfl | rfl : i = 0 ∨ i = 1 := by omega
    · norm_num
    · norm_num

/-- C77 for cubic splines applies: y = t - t² on the segment 0..1, with the maximum at 1/2. -/
example : ∃ S : ℝ → Jet3, (∀ t, CubicSpline.evalDeriv (fun i => (i : ℝ)) (fun _ => 0) (fun i => if i = 0 then 1 else -1) 2 t = some (S t)) ∧
      ∃ R, findExtrema (fun i => (i : ℝ)) 2 (fun t => (S t).val) (rootsCubicDeriv (fun i => (i : ℝ)) (fun _ => 0) (fun i => if i = 0 then 1 else -1)) none none = some R ∧
        ExtremaOf (fun t => (S t).val) 0 1 R := by
  have hg : Grid (fun i => (i : ℝ)) 2 := fun i j h _ => Nat.cast_lt.2 h
  obtain ⟨S, hS, h⟩ := C77_cubic (fun i => (i : ℝ)) (fun _ => 0) (fun i => if i = 0 then 1 else -1) 2 hg (by norm_num) none none 0 1
    (by norm_num [lower]) (by norm_num [upper]) (by norm_num)
  have hder : ∀ t, 0 ≤ t → t ≤ 1 → (S t).der = 1 - 2 * t := by
    intro t h0 h1
    have := hS t
    obtain ⟨i, e, k, _⟩ := bin_inside hg (by norm_num) (show (fun i : ℕ => (i : ℝ)) 0 ≤ t by simpa using h0) (show t ≤ (fun i : ℕ => (i : ℝ)) (2 - 1) by simpa using h1)
    obtain rfl : i = 0 := by omega
    rw [CubicSpline.evalDeriv, e] at this
    norm_num at this
    rw [← this, cubic_poly _ _ _ _ _ _ _ (by norm_num)]
    norm_num
    ring
  refine ⟨S, hS, h ?_⟩
  have st : ∀ t, StationaryPoint (fun i => (i : ℝ)) 2 (fun t => (S t).der) t → t = 1 / 2 := by
    rintro t ⟨h1, i, hi, h2, h3, _⟩
    obtain rfl : i = 0 := by omega
    norm_num at h2 h3 h1
    rw [hder t h2 h3] at h1
    linarith
  intro s t hs' ht _ hst _
  rcases hs' with rfl | hs' <;> rcases ht with rfl | ht
  · norm_num [isLarger, dblEps]
  · rw [st t ht]; norm_num [isLarger, dblEps]
  · rw [st s hs']; norm_num [isLarger, dblEps]
  · rw [st s hs', st t ht] at hst; exact absurd hst (lt_irrefl _)

end
end Verif.Spline
