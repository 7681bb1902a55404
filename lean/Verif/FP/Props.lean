import Verif.FP.Step

/-! # Fokker-Planck solver: properties of the discretization and of the time step -/

namespace Verif.FP

open Real Verif.Band Verif.Band.BandMatrix

noncomputable section

/-! ## weights -/

/-- both weights of the flux are positive, for any ratio of advection and diffusion coefficients -/
theorem C104_wminus_pos (w : ℝ) : 0 < wminus w ∧ 0 < wminus w + w := by
  rw [wminus]
  split
  · next h =>
    have hw : w ≠ 0 := by rintro rfl; norm_num at h
    rcases lt_or_gt_of_ne hw with h0 | h0
    · have h1 : exp w - 1 < 0 := by have := exp_lt_exp.2 h0; simp only [exp_zero] at this; linarith
      refine ⟨div_pos_of_neg_of_neg h0 h1, ?_⟩
      have : w / (exp w - 1) + w = w * exp w / (exp w - 1) := by field_simp [h1.ne]; ring
      rw [this]
      exact div_pos_of_neg_of_neg (mul_neg_of_neg_of_pos h0 (exp_pos w)) h1
    · have h1 : 0 < exp w - 1 := by have := one_lt_exp_iff.2 h0; linarith
      exact ⟨div_pos h0 h1, by have := div_pos h0 h1; linarith⟩
  · next h =>
    rw [not_lt, abs_le] at h
    obtain ⟨h1, h2⟩ := h
    have a1 : w * w ≤ 0.0004 := by nlinarith
    have a2 : 0 ≤ w * w := mul_self_nonneg w
    set a := 1 - (1 / 60) * w * w with ha
    have a3 : 0.9 ≤ a ∧ a ≤ 1 := by constructor <;> nlinarith
    set b := w * a with hb
    have b3 : -0.02 ≤ b ∧ b ≤ 0.02 := by
      have : |b| ≤ 0.02 := by
        rw [hb, abs_mul]
        have u : |w| ≤ 0.02 := abs_le.2 ⟨h1, h2⟩
        have v : |a| ≤ 1 := abs_le.2 ⟨by linarith [a3.1], a3.2⟩
        calc |w| * |a| ≤ 0.02 * 1 := mul_le_mul u v (abs_nonneg _) (by norm_num)
          _ = 0.02 := by norm_num
      exact abs_le.1 this
    have e : 1 - (1 / 6) * w * a = 1 - (1 / 6) * b := by rw [hb]; ring
    rw [e]
    set c := 1 - (1 / 6) * b with hc
    have c3 : 0.9 ≤ c ∧ c ≤ 1.1 := by constructor <;> linarith [b3.1, b3.2]
    have d3 : |w * c| ≤ 0.022 := by
      rw [abs_mul]
      have u : |w| ≤ 0.02 := abs_le.2 ⟨h1, h2⟩
      have v : |c| ≤ 1.1 := abs_le.2 ⟨by linarith [c3.1], c3.2⟩
      calc |w| * |c| ≤ 0.02 * 1.1 := mul_le_mul u v (abs_nonneg _) (by norm_num)
        _ = 0.022 := by norm_num
    obtain ⟨d1, d2⟩ := abs_le.1 d3
    constructor <;> nlinarith

/-- the formula used for small arguments agrees with the exact one -/
theorem C104_wminus_accuracy (w : ℝ) : |wminus w * (exp w - 1) - w| ≤ 3e-15 * |w| := by
  by_cases h : |w| > 0.02
  · have hw : w ≠ 0 := by rintro rfl; norm_num at h
    have h1 : exp w - 1 ≠ 0 := by
      intro h0
      exact hw (exp_eq_one_iff w |>.1 (by linarith))
    rw [wminus, if_pos h, div_mul_cancel₀ _ h1, sub_self, abs_zero]
    positivity
  · rw [wminus, if_neg h]
    rw [not_lt] at h
    have hexp := Real.exp_bound (x := w) (by linarith) (n := 8) (by norm_num)
    set P := 1 - 0.5 * w * (1 - (1 / 6) * w * (1 - (1 / 60) * w * w)) with hP
    simp only [Finset.sum_range_succ, Finset.sum_range_zero, Nat.factorial] at hexp
    norm_num at hexp
    set R := exp w - (1 + w + w ^ 2 / 2 + w ^ 3 / 6 + w ^ 4 / 24 + w ^ 5 / 120 + w ^ 6 / 720 + w ^ 7 / 5040) with hR
    have hP2 : |P| ≤ 1.1 := by
      have h2 := abs_le.1 h
      have a1 : w * w ≤ 0.0004 := by nlinarith [h2.1, h2.2]
      have a2 : 0 ≤ w * w := mul_self_nonneg w
      have e : P = 1 - w / 2 + w * w / 12 - (w * w) * (w * w) / 720 := by rw [hP]; ring
      rw [e, abs_le]
      constructor <;> nlinarith [h2.1, h2.2]
    have e : P * (exp w - 1) - w = P * R - w ^ 7 * (1 / 30240 + w * (1 / 24192) - w ^ 2 * (1 / 201600) + w ^ 3 * (1 / 518400) + w ^ 4 * (1 / 3628800)) := by
      have : exp w = R + (1 + w + w ^ 2 / 2 + w ^ 3 / 6 + w ^ 4 / 24 + w ^ 5 / 120 + w ^ 6 / 720 + w ^ 7 / 5040) := by rw [hR]; ring
      rw [this, hP]
      ring
    have hQ : |1 / 30240 + w * (1 / 24192) - w ^ 2 * (1 / 201600) + w ^ 3 * (1 / 518400) + w ^ 4 * (1 / 3628800)| ≤ 3.5e-5 := by
      have h2 := abs_le.1 h
      have a1 : w ^ 2 ≤ 0.0004 := by nlinarith [h2.1, h2.2]
      have a2 : 0 ≤ w ^ 2 := sq_nonneg w
      rw [abs_le]
      constructor <;> nlinarith [h2.1, h2.2, mul_nonneg a2 (show 0 ≤ 0.02 - w by linarith [h2.2]), mul_nonneg a2 (show 0 ≤ 0.02 + w by linarith [h2.1]), mul_nonneg a2 a2, mul_nonneg a2 (sub_nonneg.2 a1)]
    have h6 : |w| ^ 6 ≤ 0.02 ^ 6 := pow_le_pow_left₀ (abs_nonneg _) h 6
    have h7 : |w| ^ 7 ≤ 0.02 ^ 7 := pow_le_pow_left₀ (abs_nonneg _) h 7
    have t1 : |P * R| ≤ |w| * (1.1 * (0.02 ^ 7 / 35840)) := by
      rw [abs_mul]
      calc |P| * |R| ≤ 1.1 * (|w| ^ 8 * (1 / 35840)) := mul_le_mul hP2 hexp (abs_nonneg _) (by norm_num)
        _ = |w| * (1.1 * (|w| ^ 7 / 35840)) := by ring
        _ ≤ _ := by gcongr
    have t2 : |w ^ 7 * (1 / 30240 + w * (1 / 24192) - w ^ 2 * (1 / 201600) + w ^ 3 * (1 / 518400) + w ^ 4 * (1 / 3628800))| ≤ |w| * (0.02 ^ 6 * 3.5e-5) := by
      rw [abs_mul, abs_pow]
      calc |w| ^ 7 * _ ≤ |w| ^ 7 * 3.5e-5 := mul_le_mul_of_nonneg_left hQ (by positivity)
        _ = |w| * (|w| ^ 6 * 3.5e-5) := by ring
        _ ≤ _ := by gcongr
    rw [e]
    refine (abs_sub _ _).trans ((add_le_add t1 t2).trans ?_)
    rw [← mul_add, mul_comm]
    exact mul_le_mul_of_nonneg_right (by norm_num) (abs_nonneg _)

/-! ## grid -/

/-- a grid of phase volumes: positive and increasing -/
structure Grid (gridh : ℕ → ℝ) (n : ℕ) : Prop where
  two : 2 ≤ n
  pos : ∀ i < n, 0 < gridh i
  mono : ∀ i, i + 1 < n → gridh i < gridh (i + 1)

theorem Grid.scaled {gridh : ℕ → ℝ} {n : ℕ} (g : Grid gridh n) (i : ℕ) (hi : i + 1 < n) : gridScaled gridh i < gridScaled gridh (i + 1) :=
  log_lt_log (g.pos i (by omega)) (g.mono i hi)

/-- masses attributed to the nodes are positive -/
theorem gridWeights_pos {gridh : ℕ → ℝ} {n : ℕ} (g : Grid gridh n) (i : ℕ) (hi : i < n) : 0 < gridWeights gridh n i := by
  have h2 := g.two
  rw [gridWeights]
  apply mul_pos (exp_pos _)
  by_cases a : i > 0
  · have s1 := g.scaled (i - 1) (by omega)
    rw [Nat.sub_add_cancel a] at s1
    rw [if_pos a]
    simp only [auxGridScaled, Nat.sub_add_cancel a]
    by_cases b : i < n - 1
    · have s2 := g.scaled i (by omega)
      rw [if_pos b]
      linarith
    · rw [if_neg b, show n - 1 = i by omega]
      linarith
  · have hi0 : i = 0 := by omega
    subst hi0
    have s2 := g.scaled 0 (by omega)
    rw [if_neg a, if_pos (show 0 < n - 1 by omega), auxGridScaled]
    linarith

theorem auxGridMult_pos {gridh : ℕ → ℝ} {n : ℕ} (g : Grid gridh n) (i : ℕ) (hi : i + 1 < n) : 0 < auxGridMult gridh i := by
  have := g.scaled i hi
  rw [auxGridMult]
  exact div_pos (div_pos one_pos (by linarith)) (exp_pos _)

/-! ## relaxation matrix -/

theorem dif_pos' {gridh : ℕ → ℝ} {n : ℕ} (g : Grid gridh n) {gridDif : ℕ → ℝ} (i : ℕ) (hi : i + 1 < n) (hd : 0 < gridDif i) : 0 < dif gridh gridDif i :=
  mul_pos hd (auxGridMult_pos g i hi)

/-- elements off the diagonal are non-negative -/
theorem elt_off {gridh : ℕ → ℝ} {n : ℕ} (g : Grid gridh n) {gridAdv gridDif : ℕ → ℝ} (hd : ∀ i, i + 1 < n → 0 < gridDif i) (i j : ℕ) (hij : i ≠ j) : 0 ≤ elt gridh n gridAdv gridDif i j := by
  rw [elt]
  split
  · next h => exact (mul_pos (dif_pos' g j (by omega) (hd j (by omega))) (C104_wminus_pos _).1).le
  · split
    · next h => exact (mul_pos (dif_pos' g i (by omega) (hd i (by omega))) (C104_wminus_pos _).2).le
    · rw [if_neg (fun h => hij h.1)]

theorem flux_telescope (gridh : ℕ → ℝ) (n : ℕ) (gridAdv gridDif f : ℕ → ℝ) (m : ℕ) :
    ∑ i ∈ Finset.range (m + 1), (flux gridh n gridAdv gridDif f i - if i > 0 then flux gridh n gridAdv gridDif f (i - 1) else 0) = flux gridh n gridAdv gridDif f m := by
  induction m with
  | zero => simp
  | succ m ih => rw [Finset.sum_range_succ, ih]; simp

/-- sums of columns are zero: relaxation conserves the mass -/
theorem elt_col {gridh : ℕ → ℝ} {n : ℕ} (hn : 2 ≤ n) (gridAdv gridDif : ℕ → ℝ) (j : ℕ) (hj : j < n) : ∑ i ∈ Finset.range n, elt gridh n gridAdv gridDif i j = 0 := by
  have h1 : ∀ i ∈ Finset.range n, elt gridh n gridAdv gridDif i j =
      flux gridh n gridAdv gridDif (fun k => if k = j then 1 else 0) i - if i > 0 then flux gridh n gridAdv gridDif (fun k => if k = j then 1 else 0) (i - 1) else 0 := by
    intro i hi
    rw [← elt_sum _ _ _ _ _ _ (Finset.mem_range.1 hi)]
    simp [hj]
  obtain ⟨m, rfl⟩ : ∃ m, n = m + 1 := ⟨n - 1, by omega⟩
  rw [Finset.sum_congr rfl h1, flux_telescope, flux, if_neg (by omega)]

/-! ## one step -/

/-- the matrices come from the finite-difference scheme; the diffusion coefficients are positive, and the loss-cone rate is not -/
structure Setup (gridh gridAdv gridDif : ℕ → ℝ) (rate : ℝ → ℝ) (p : Input) : Prop where
  grid : Grid gridh p.dim
  weight : weightMatrix gridh p.dim = some p.weight
  relax : relaxationMatrix gridh p.dim gridAdv gridDif = some p.relax
  difpos : ∀ i, i + 1 < p.dim → 0 < gridDif i
  drain : p.absorbing = true → projMatrix gridh p.dim rate = some p.drain
  ratepos : p.absorbing = true → ∀ i < p.dim, rate (gridh i) ≤ 0

/-- the matrix of the previous step comes from the same scheme -/
def Prev (gridh : ℕ → ℝ) (p : Input) : Prop := ∃ adv dif, relaxationMatrix gridh p.dim adv dif = some p.prevRelax

section

variable {gridh gridAdv gridDif : ℕ → ℝ} {rate : ℝ → ℝ} {p : Input}

theorem Setup.denseW (h : Setup gridh gridAdv gridDif rate p) : p.weight.n = p.dim ∧ p.weight.band = 1 ∧ ∀ r c, dense p.weight r c = if r = c ∧ r < p.dim then gridWeights gridh p.dim r else 0 := by
  obtain ⟨M, e, hM⟩ := diagMatrix_dense p.dim h.grid.two (gridWeights gridh p.dim)
  have := h.weight
  rw [weightMatrix, e, Option.some.injEq] at this
  rwa [← this]

theorem Setup.denseR (h : Setup gridh gridAdv gridDif rate p) : p.relax.n = p.dim ∧ p.relax.band = 1 ∧ ∀ r c, dense p.relax r c = elt gridh p.dim gridAdv gridDif r c := by
  obtain ⟨M, e, hM⟩ := relaxationMatrix_dense gridh p.dim h.grid.two gridAdv gridDif
  have := h.relax
  rw [e, Option.some.injEq] at this
  rwa [← this]

theorem Setup.denseD (h : Setup gridh gridAdv gridDif rate p) (ha : p.absorbing = true) : p.drain.n = p.dim ∧ p.drain.band = 1 ∧
    ∀ r c, dense p.drain r c = if r = c ∧ r < p.dim then rate (gridh r) * gridWeights gridh p.dim r else 0 := by
  obtain ⟨M, e, hM⟩ := diagMatrix_dense p.dim h.grid.two (projVector gridh p.dim rate)
  have := h.drain ha
  rw [projMatrix, e, Option.some.injEq] at this
  rwa [← this]

theorem Setup.sizes (h : Setup gridh gridAdv gridDif rate p) (u : Bool) (hu : u = true → Prev gridh p) : Sizes p u := by
  have h2 := h.grid.two
  obtain ⟨a1, a2, -⟩ := h.denseW
  obtain ⟨b1, b2, -⟩ := h.denseR
  refine ⟨h2, a1, by omega, ⟨b1, by omega⟩, fun e => ?_, fun e => ?_⟩
  · obtain ⟨adv, df, hp⟩ := hu e
    obtain ⟨M, e, c1, c2, -⟩ := relaxationMatrix_dense gridh p.dim h2 adv df
    rw [e, Option.some.injEq] at hp
    rw [← hp]
    exact ⟨c1, by omega⟩
  · obtain ⟨c1, c2, -⟩ := h.denseD e
    exact ⟨c1, by omega⟩

/-- rate of loss at the given node -/
def loss (rate : ℝ → ℝ) (gridh : ℕ → ℝ) (p : Input) (i : ℕ) : ℝ := if p.absorbing = true then rate (gridh i) else 0

theorem Setup.lhs0 (h : Setup gridh gridAdv gridDif rate p) (dt : ℝ) (r c : ℕ) :
    FP.lhs0 p dt r c = (if r = c ∧ r < p.dim then gridWeights gridh p.dim r * (1 - dt * loss rate gridh p r) else 0) - dt * elt gridh p.dim gridAdv gridDif r c := by
  rw [FP.lhs0, h.denseW.2.2, h.denseR.2.2, loss]
  by_cases ha : p.absorbing = true
  · rw [if_pos ha, if_pos ha, (h.denseD ha).2.2]
    split <;> ring
  · rw [if_neg ha, if_neg ha]
    split <;> ring

theorem Setup.loss_nonpos (h : Setup gridh gridAdv gridDif rate p) (i : ℕ) (hi : i < p.dim) : loss rate gridh p i ≤ 0 := by
  rw [loss]
  split
  · next ha => exact h.ratepos ha i hi
  · exact le_rfl

theorem Setup.off (h : Setup gridh gridAdv gridDif rate p) {dt : ℝ} (hdt : 0 ≤ dt) (i j : ℕ) (hij : i ≠ j) : FP.lhs0 p dt i j ≤ 0 := by
  rw [h.lhs0, if_neg (fun e => hij e.1)]
  have := mul_nonneg hdt (elt_off h.grid (gridAdv := gridAdv) h.difpos i j hij)
  linarith

theorem Setup.col (h : Setup gridh gridAdv gridDif rate p) {dt : ℝ} (hdt : 0 ≤ dt) (j : ℕ) (hj : j < p.dim) : 0 < ∑ i ∈ Finset.range p.dim, FP.lhs0 p dt i j := by
  simp only [h.lhs0]
  rw [Finset.sum_sub_distrib, ← Finset.mul_sum, elt_col h.grid.two _ _ j hj, mul_zero, sub_zero]
  rw [Finset.sum_eq_single j]
  · rw [if_pos ⟨rfl, hj⟩]
    apply mul_pos (gridWeights_pos h.grid j hj)
    have := mul_nonneg hdt (neg_nonneg.2 (h.loss_nonpos j hj))
    linarith
  · intro b _ hb
    rw [if_neg (fun e => hb e.1)]
  · intro hn
    exact absurd (Finset.mem_range.2 hj) hn

end

/-- leading minors of a matrix with positive column sums, in which some rows are replaced by those of the unit matrix -/
theorem minors (n : ℕ) (M : BandMatrix ℝ) (L : ℕ → ℕ → ℝ) (D : ℕ → Prop) (hoff : ∀ i < n, ∀ j < n, i ≠ j → L i j ≤ 0) (hcol : ∀ j < n, 0 < ∑ i ∈ Finset.range n, L i j)
    (hD : ∀ i < n, D i → ∀ j < n, dense M i j = if j = i then 1 else 0) (hN : ∀ i < n, ¬ D i → ∀ j < n, dense M i j = L i j) :
    ∀ k, 1 ≤ k → k ≤ n → (leading M k).det ≠ 0 := by
  intro k hk1 hk2 hd
  obtain ⟨v, hv, hv0⟩ := Matrix.exists_mulVec_eq_zero_iff.2 hd
  set w : ℕ → ℝ := fun i => if h : i < k then v ⟨i, h⟩ else 0 with hw
  have hcol' : ∀ j < k, 0 < ∑ i ∈ Finset.range k, L i j := by
    intro j hj
    refine lt_of_lt_of_le (hcol j (by omega)) ?_
    have hsub : Finset.range k ⊆ Finset.range n := Finset.range_subset_range.2 hk2
    rw [← Finset.sum_sdiff hsub]
    have : ∑ i ∈ Finset.range n \ Finset.range k, L i j ≤ 0 := by
      apply Finset.sum_nonpos
      intro i hi
      rw [Finset.mem_sdiff, Finset.mem_range, Finset.mem_range] at hi
      exact hoff i hi.1 j (by omega) (by omega)
    linarith
  have hrow : ∀ i < k, ∑ j ∈ Finset.range k, dense M i j * w j = 0 := by
    intro i hi
    have := congrFun hv0 ⟨i, hi⟩
    rw [Finset.sum_range]
    rw [Pi.zero_apply] at this
    refine Eq.trans ?_ this
    simp only [Matrix.mulVec, dotProduct]
    apply Finset.sum_congr rfl
    intro j _
    rw [hw]
    simp only [j.2, dif_pos]
    rfl
  have hDz : ∀ i < k, D i → w i = 0 := by
    intro i hi hDi
    rw [← hrow i hi]
    rw [Finset.sum_eq_single i]
    · rw [hD i (by omega) hDi i (by omega), if_pos rfl, one_mul]
    · intro b hb hbi
      rw [hD i (by omega) hDi b (by have := Finset.mem_range.1 hb; omega), if_neg hbi, zero_mul]
    · intro hn
      exact absurd (Finset.mem_range.2 hi) hn
  have hLz : ∀ i < k, ¬ D i → ∑ j ∈ Finset.range k, L i j * w j = 0 := by
    intro i hi hDi
    rw [← hrow i hi]
    apply Finset.sum_congr rfl
    intro j hj
    rw [hN i (by omega) hDi j (by have := Finset.mem_range.1 hj; omega)]
  have p1 := mmatrix_nonneg k L w D (fun i hi j hj => hoff i (by omega) j (by omega)) hcol' (fun i hi hd => (hDz i hi hd).ge) (fun i hi hd => (hLz i hi hd).ge)
  have p2 := mmatrix_nonneg k L (fun i => - w i) D (fun i hi j hj => hoff i (by omega) j (by omega)) hcol' (fun i hi hd => by rw [hDz i hi hd, neg_zero])
    (fun i hi hd => by simp only [mul_neg, Finset.sum_neg_distrib]; rw [hLz i hi hd, neg_zero])
  apply hv
  funext i
  have a := p1 i i.2
  have b := p2 i i.2
  have : w i = 0 := by linarith
  rw [hw] at this
  simpa only [i.2, dif_pos, Pi.zero_apply] using this

section

variable {gridh gridAdv gridDif : ℕ → ℝ} {rate : ℝ → ℝ} {p : Input}

theorem Setup.solve (h : Setup gridh gridAdv gridDif rate p) (u : Bool) (hu : u = true → Prev gridh p) {dt : ℝ} (hdt : 0 ≤ dt) (prevdt : ℝ) :
    ∃ s, assemble p u dt prevdt = some s ∧ s.1.n = p.dim ∧ s.1.band = p.weight.band ∧ (∀ k, 1 ≤ k → k ≤ s.1.n → (leading s.1 k).det ≠ 0) ∧
      (∀ r c, dense s.1 r c = if r = p.dim - 1 then (if c = p.dim - 1 then 1 else 0) else if p.absorbing = true ∧ r = 0 then (if c = 0 then 1 else 0) else FP.lhs0 p dt r c) ∧
      (∀ i < p.dim, s.2 i = if i = p.dim - 1 then p.gridf (p.dim - 1) else if p.absorbing = true ∧ i = 0 then p.gridf 0 else
        mv p.weight p.dim p.gridf i + corr p u dt prevdt i + dt * src p i) := by
  obtain ⟨s, e, n1, b1, d1, r1⟩ := assemble_dense p u dt prevdt (h.sizes u hu)
  refine ⟨s, e, n1, b1, ?_, d1, r1⟩
  rw [n1]
  apply minors p.dim s.1 (FP.lhs0 p dt) (fun i => i = p.dim - 1 ∨ (p.absorbing = true ∧ i = 0)) (fun i _ j _ hij => h.off hdt i j hij) (h.col hdt)
  · intro i hi hD j hj
    rw [d1]
    rcases hD with hD | hD
    · rw [if_pos hD, hD]
    · by_cases h1 : i = p.dim - 1
      · rw [if_pos h1, h1]
      · rw [if_neg h1, if_pos hD, hD.2]
  · intro i hi hD j hj
    rw [d1, if_neg (fun e => hD (Or.inl e)), if_neg (fun e => hD (Or.inr e))]

/-- product of the matrix and a vector, in terms of the fluxes -/
theorem Setup.lhs0_mv (h : Setup gridh gridAdv gridDif rate p) (dt : ℝ) (x : ℕ → ℝ) (i : ℕ) (hi : i < p.dim) :
    ∑ j ∈ Finset.range p.dim, FP.lhs0 p dt i j * x j = gridWeights gridh p.dim i * (1 - dt * loss rate gridh p i) * x i -
      dt * (flux gridh p.dim gridAdv gridDif x i - if i > 0 then flux gridh p.dim gridAdv gridDif x (i - 1) else 0) := by
  rw [← elt_sum _ _ _ _ _ _ hi, Finset.mul_sum]
  simp only [h.lhs0, sub_mul]
  rw [Finset.sum_sub_distrib]
  congr 1
  · rw [Finset.sum_eq_single i]
    · rw [if_pos ⟨rfl, hi⟩]
    · intro b _ hb
      rw [if_neg (fun e => hb e.1.symm), zero_mul]
    · intro hn
      exact absurd (Finset.mem_range.2 hi) hn
  · apply Finset.sum_congr rfl
    intro j _
    ring

theorem Setup.weight_mv (h : Setup gridh gridAdv gridDif rate p) (x : ℕ → ℝ) (i : ℕ) (hi : i < p.dim) : mv p.weight p.dim x i = gridWeights gridh p.dim i * x i := by
  rw [mv]
  simp only [h.denseW.2.2]
  rw [Finset.sum_eq_single i]
  · rw [if_pos ⟨rfl, hi⟩]
  · intro b _ hb
    rw [if_neg (fun e => hb e.1.symm), zero_mul]
  · intro hn
    exact absurd (Finset.mem_range.2 hi) hn

theorem Setup.lostCone_some (h : Setup gridh gridAdv gridDif rate p) (ha : p.absorbing = true) (dt : ℝ) : ∃ l, lostCone p dt = some l := by
  obtain ⟨a1, a2, -⟩ := h.denseW
  obtain ⟨c1, c2, -⟩ := h.denseD ha
  obtain ⟨L1, eL1⟩ := Option.isSome_iff_exists.1 ((C33_daxpy (-dt) p.drain p.weight).1.1 ⟨by omega, by omega⟩)
  rw [lostCone, eL1]
  exact ⟨_, rfl⟩

theorem Setup.evolve_some (h : Setup gridh gridAdv gridDif rate p) (u : Bool) (dt prevdt : ℝ) (s) (hs : assemble p u dt prevdt = some s) :
    ∃ o, evolveComp p u dt prevdt = some o ∧ o.newf = solveBand s.1 s.2 ∧ o.sourceMass = (if p.sourceRate > 0 then dt * ∑ i ∈ Finset.range p.dim, p.gridSourceRate i else 0) ∧
      (p.absorbing = false → o.drainMass = 0 ∧ o.accretedMass = 0) ∧
      (p.absorbing = true → ∃ l, lostCone p dt = some l ∧ o.drainMass = lostInner p dt o.newf + l ∧ o.accretedMass = -o.drainMass * p.captureMassFraction) := by
  unfold evolveComp
  rw [hs, Option.bind_some]
  by_cases ha : p.absorbing = true
  · obtain ⟨l, hl⟩ := h.lostCone_some ha dt
    rw [if_pos ha, hl, Option.bind_some]
    exact ⟨_, rfl, rfl, rfl, fun e => absurd ha (by rw [e]; simp), fun _ => ⟨l, rfl, rfl, by simp only; ring⟩⟩
  · rw [if_neg ha]
    exact ⟨_, rfl, rfl, rfl, fun _ => ⟨rfl, rfl⟩, fun e => absurd e ha⟩

end

end

end Verif.FP
