import Verif.FP.Props

/-! # Fokker-Planck solver: conservation, positivity and equilibrium -/

namespace Verif.FP

open Real Verif.Band Verif.Band.BandMatrix

noncomputable section

section

variable {gridh gridAdv gridDif : ℕ → ℝ} {rate : ℝ → ℝ} {p : Input}

/-- C104: for any grid, any coefficients and any length of the step, the step succeeds, and its result satisfies the implicit (backward Euler) equations:
the change of mass of each node is the difference of fluxes at its two sides, plus the mass created, minus the mass lost in the loss cone; the value
in the last node (and in the first one, if absorbing) does not change -/
theorem C104_step (h : Setup gridh gridAdv gridDif rate p) (u : Bool) (hu : u = true → Prev gridh p) {dt : ℝ} (hdt : 0 ≤ dt) (prevdt : ℝ) :
    ∃ o, evolveComp p u dt prevdt = some o ∧ o.newf (p.dim - 1) = p.gridf (p.dim - 1) ∧ (p.absorbing = true → o.newf 0 = p.gridf 0) ∧
      ∀ i, i + 1 < p.dim → (p.absorbing = true → i ≠ 0) →
        gridWeights gridh p.dim i * (o.newf i - p.gridf i) = dt * (flux gridh p.dim gridAdv gridDif o.newf i - if i > 0 then flux gridh p.dim gridAdv gridDif o.newf (i - 1) else 0)
          + dt * (loss rate gridh p i * gridWeights gridh p.dim i * o.newf i) + dt * src p i + corr p u dt prevdt i := by
  have h2 := h.grid.two
  obtain ⟨s, hs, n1, b1, hm, d1, r1⟩ := h.solve u hu hdt prevdt
  obtain ⟨o, ho, hf, -⟩ := h.evolve_some u dt prevdt s hs
  have hsol := C34_solveBand s.1 (by rw [b1, h.denseW.2.1]; omega) s.2 hm
  rw [← hf] at hsol
  refine ⟨o, ho, ?_, ?_, ?_⟩
  · have := hsol (p.dim - 1) (by omega)
    rw [r1 _ (by omega), if_pos rfl, n1, Finset.sum_eq_single (p.dim - 1)] at this
    · rw [← this, d1, if_pos rfl, if_pos rfl, one_mul]
    · intro b _ hb
      rw [d1, if_pos rfl, if_neg hb, zero_mul]
    · intro hn
      exact absurd (Finset.mem_range.2 (show p.dim - 1 < p.dim by omega)) hn
  · intro ha
    have := hsol 0 (by omega)
    rw [r1 _ (by omega), if_neg (by omega), if_pos ⟨ha, rfl⟩, n1, Finset.sum_eq_single 0] at this
    · rw [← this, d1, if_neg (by omega), if_pos ⟨ha, rfl⟩, if_pos rfl, one_mul]
    · intro b _ hb
      rw [d1, if_neg (by omega), if_pos ⟨ha, rfl⟩, if_neg hb, zero_mul]
    · intro hn
      exact absurd (Finset.mem_range.2 (show 0 < p.dim by omega)) hn
  · intro i hi ha
    have hna : ¬ (p.absorbing = true ∧ i = 0) := fun e => ha e.1 e.2
    have := hsol i (by omega)
    rw [r1 _ (by omega), if_neg (by omega), if_neg hna, n1] at this
    have e : ∑ j ∈ Finset.range p.dim, dense s.1 i j * o.newf j = ∑ j ∈ Finset.range p.dim, FP.lhs0 p dt i j * o.newf j := by
      apply Finset.sum_congr rfl
      intro j _
      rw [d1, if_neg (by omega), if_neg hna]
    rw [e, h.lhs0_mv dt _ i (by omega), h.weight_mv _ i (by omega)] at this
    linear_combination this

/-- C104: without the correction term the distribution function remains non-negative, however long the step is -/
theorem C104_nonneg (h : Setup gridh gridAdv gridDif rate p) {dt : ℝ} (hdt : 0 ≤ dt) (prevdt : ℝ) (hf : ∀ i < p.dim, 0 ≤ p.gridf i) (hs : ∀ i < p.dim, 0 ≤ p.gridSourceRate i) :
    ∃ o, evolveComp p false dt prevdt = some o ∧ ∀ i < p.dim, 0 ≤ o.newf i := by
  have h2 := h.grid.two
  obtain ⟨o, ho, h3, h4, h5⟩ := C104_step h false (fun e => absurd e (by simp)) hdt prevdt
  refine ⟨o, ho, ?_⟩
  apply mmatrix_nonneg p.dim (FP.lhs0 p dt) o.newf (fun i => i = p.dim - 1 ∨ (p.absorbing = true ∧ i = 0)) (fun i _ j _ hij => h.off hdt i j hij) (h.col hdt)
  · rintro i hi (e | e)
    · rw [e, h3]; exact hf _ (by omega)
    · rw [e.2, h4 e.1]; exact hf _ (by omega)
  · intro i hi hD
    have := h5 i (by omega) (fun ha e => hD (Or.inr ⟨ha, e⟩))
    rw [h.lhs0_mv dt _ i hi]
    have hc : corr p false dt prevdt i = 0 := by rw [corr, if_neg (by simp)]
    have hsrc : 0 ≤ src p i := by
      rw [src]; split
      · exact hs i hi
      · exact le_rfl
    have a1 := mul_nonneg (gridWeights_pos h.grid i hi).le (hf i hi)
    have a2 := mul_nonneg hdt hsrc
    rw [hc] at this
    nlinarith

/-- mass of a component (galaxymodel_fokkerplanck.cpp:1011) -/
def mass (p : Input) (f : ℕ → ℝ) : ℝ := ∑ i ∈ Finset.range p.dim, f i * p.gridMass i

theorem sum_interior (n : ℕ) (hn : 2 ≤ n) (g : ℕ → ℝ) : ∑ i ∈ Finset.range n, g i = g 0 + ∑ i ∈ Finset.Ico 1 (n - 1), g i + g (n - 1) := by
  obtain ⟨m, rfl⟩ : ∃ m, n = m + 2 := ⟨n - 2, by omega⟩
  rw [Finset.sum_range_succ, show m + 2 - 1 = m + 1 by omega, Finset.range_eq_Ico, Finset.sum_eq_sum_Ico_succ_bot (by omega)]

theorem flux_interior (gridh : ℕ → ℝ) (n : ℕ) (hn : 2 ≤ n) (gridAdv gridDif f : ℕ → ℝ) :
    ∑ i ∈ Finset.Ico 1 (n - 1), (flux gridh n gridAdv gridDif f i - if i > 0 then flux gridh n gridAdv gridDif f (i - 1) else 0) =
      flux gridh n gridAdv gridDif f (n - 2) - flux gridh n gridAdv gridDif f 0 := by
  obtain ⟨m, rfl⟩ : ∃ m, n = m + 2 := ⟨n - 2, by omega⟩
  have := flux_telescope gridh (m + 2) gridAdv gridDif f m
  rw [Finset.range_eq_Ico, Finset.sum_eq_sum_Ico_succ_bot (by omega)] at this
  simp only [gt_iff_lt, lt_self_iff_false, if_false, sub_zero] at this
  rw [show m + 2 - 1 = m + 1 by omega, show m + 2 - 2 = m by omega]
  simp only [gt_iff_lt]
  linarith

/-- C105 (partial: the flux through the outer boundary, the correction and the true loss-cone term are not recorded by the code): the budget of mass in one step: the change of the total mass is the mass created by the source, plus the flux through the outer
boundary, plus the mass lost in the loss cone, plus the mass lost through the inner boundary if it is absorbing, plus the sum of the correction terms -/
theorem C105_mass_budget_partial (h : Setup gridh gridAdv gridDif rate p) (u : Bool) (hu : u = true → Prev gridh p) {dt : ℝ} (hdt : 0 ≤ dt) (prevdt : ℝ)
    (hm : ∀ i < p.dim, p.gridMass i = gridWeights gridh p.dim i) (hs0 : p.gridSourceRate 0 = 0) (hs1 : p.gridSourceRate (p.dim - 1) = 0) (hf0 : p.absorbing = true → p.gridf 0 = 0) :
    ∃ o, evolveComp p u dt prevdt = some o ∧ mass p o.newf - mass p p.gridf = o.sourceMass + dt * flux gridh p.dim gridAdv gridDif o.newf (p.dim - 2)
      + (if p.absorbing = true then lostInner p dt o.newf else 0)
      + dt * ∑ i ∈ Finset.Ico 1 (p.dim - 1), loss rate gridh p i * gridWeights gridh p.dim i * o.newf i
      + ∑ i ∈ Finset.Ico 1 (p.dim - 1), corr p u dt prevdt i := by
  have h2 := h.grid.two
  obtain ⟨o, ho, h3, h4, h5⟩ := C104_step h u hu hdt prevdt
  obtain ⟨s, hs, -⟩ := h.solve u hu hdt prevdt
  obtain ⟨o', ho', -, hsm, -⟩ := h.evolve_some u dt prevdt s hs
  have : o' = o := by rw [ho] at ho'; exact (Option.some.inj ho').symm
  subst this
  refine ⟨o', ho', ?_⟩
  have e1 : mass p o'.newf - mass p p.gridf = ∑ i ∈ Finset.range p.dim, gridWeights gridh p.dim i * (o'.newf i - p.gridf i) := by
    rw [mass, mass, ← Finset.sum_sub_distrib]
    apply Finset.sum_congr rfl
    intro i hi
    rw [hm i (Finset.mem_range.1 hi)]
    ring
  have e2 : ∑ i ∈ Finset.Ico 1 (p.dim - 1), gridWeights gridh p.dim i * (o'.newf i - p.gridf i) =
      dt * (flux gridh p.dim gridAdv gridDif o'.newf (p.dim - 2) - flux gridh p.dim gridAdv gridDif o'.newf 0) +
      dt * ∑ i ∈ Finset.Ico 1 (p.dim - 1), loss rate gridh p i * gridWeights gridh p.dim i * o'.newf i + dt * ∑ i ∈ Finset.Ico 1 (p.dim - 1), src p i +
      ∑ i ∈ Finset.Ico 1 (p.dim - 1), corr p u dt prevdt i := by
    rw [← flux_interior _ _ h2, Finset.mul_sum, Finset.mul_sum, Finset.mul_sum, ← Finset.sum_add_distrib, ← Finset.sum_add_distrib, ← Finset.sum_add_distrib]
    apply Finset.sum_congr rfl
    intro i hi
    rw [Finset.mem_Ico] at hi
    exact h5 i (by omega) (fun _ => by omega)
  have e3 : o'.sourceMass = dt * ∑ i ∈ Finset.Ico 1 (p.dim - 1), src p i := by
    rw [hsm]
    by_cases hsr : p.sourceRate > 0
    · rw [if_pos hsr, sum_interior _ h2, hs0, hs1]
      simp only [src, if_pos hsr, zero_add, add_zero]
    · rw [if_neg hsr]
      simp only [src, if_neg hsr, Finset.sum_const_zero, mul_zero]
  rw [e1, sum_interior _ h2, e2, h3, sub_self, mul_zero, add_zero, e3]
  by_cases ha : p.absorbing = true
  · rw [if_pos ha, h4 ha, sub_self, mul_zero, zero_add]
    have e4 : lostInner p dt o'.newf = - dt * flux gridh p.dim gridAdv gridDif o'.newf 0 := by
      rw [lostInner, h.denseW.2.1]
      simp only [List.range_one, List.foldl_cons, List.foldl_nil, h.denseW.2.2, h.denseR.2.2]
      rw [if_neg (by omega), elt, if_neg (by omega), if_pos (by omega), flux, if_pos (by omega), h4 ha, hf0 ha]
      ring
    rw [e4]
    ring
  · rw [if_neg ha]
    have := h5 0 (by omega) (fun e => absurd e ha)
    rw [this]
    have c0 : corr p u dt prevdt 0 = 0 := by rw [corr, if_neg (by simp)]
    have l0 : loss rate gridh p 0 = 0 := by rw [loss, if_neg ha]
    have s0 : src p 0 = 0 := by rw [src]; split
                                · exact hs0
                                · rfl
    rw [c0, l0, s0]
    simp only [gt_iff_lt, lt_self_iff_false, if_false, sub_zero]
    ring

/-- C105: the mass recorded as lost in the loss cone is the one that would be lost in the absence of relaxation -/
theorem C105_lossCone (h : Setup gridh gridAdv gridDif rate p) (ha : p.absorbing = true) {dt : ℝ} (hdt : 0 ≤ dt) :
    lostCone p dt = some (∑ i ∈ Finset.range p.dim, p.gridf i * (dt * rate (gridh i) / (1 - dt * rate (gridh i))) * p.gridMass i) := by
  have h2 := h.grid.two
  obtain ⟨a1, a2, a3⟩ := h.denseW
  obtain ⟨c1, c2, c3⟩ := h.denseD ha
  obtain ⟨L, eL⟩ := Option.isSome_iff_exists.1 ((C33_daxpy (-dt) p.drain p.weight).1.1 ⟨by omega, by omega⟩)
  obtain ⟨nL, bL, dL⟩ := (C33_daxpy (-dt) p.drain p.weight).2 L eL
  rw [lostCone, eL, Option.bind_some]
  have hpos : ∀ i < p.dim, 0 < 1 - dt * rate (gridh i) := by
    intro i hi
    have := mul_nonneg hdt (neg_nonneg.2 (h.ratepos ha i hi))
    linarith
  have dL' : ∀ r c, dense L r c = if r = c ∧ r < p.dim then gridWeights gridh p.dim r * (1 - dt * rate (gridh r)) else 0 := by
    intro r c
    rw [dL, a3, c3]
    split <;> ring
  have hu := C34_unique L (by omega) (dgemv false 1 p.weight p.gridf 0 (fun _ => 0)) (fun i => p.gridf i / (1 - dt * rate (gridh i))) (by
    rw [nL, a1]
    refine minors p.dim L (dense L) (fun _ => False) (fun i hi j hj hij => ?_) (fun j hj => ?_) (fun i hi hD => hD.elim) (fun i hi _ j hj => rfl)
    · rw [dL', if_neg (fun e => hij e.1)]
    · rw [Finset.sum_eq_single j]
      · rw [dL', if_pos ⟨rfl, hj⟩]
        exact mul_pos (gridWeights_pos h.grid j hj) (hpos j hj)
      · intro b _ hb
        rw [dL', if_neg (fun e => hb e.1)]
      · intro hn
        exact absurd (Finset.mem_range.2 hj) hn) (by
    intro i hi
    have hi' : i < p.dim := by omega
    rw [C33_dgemv _ _ _ _ _ _ _ (by omega), nL, a1, Finset.sum_eq_single i]
    · have := h.weight_mv p.gridf i hi'
      rw [mv] at this
      simp only [Bool.false_eq_true, if_false, one_mul, mul_zero, add_zero]
      rw [this, dL', if_pos ⟨rfl, hi'⟩]
      have := (hpos i hi').ne'
      field_simp
    · intro b _ hb
      rw [dL', if_neg (fun e => hb e.1.symm), zero_mul]
    · intro hn
      exact absurd (Finset.mem_range.2 hi') hn)
  simp only [Option.some.injEq]
  apply Finset.sum_congr rfl
  intro i hi
  have hi' := Finset.mem_range.1 hi
  rw [hu i (by omega)]
  have := (hpos i hi').ne'
  field_simp
  ring

/-- C104: a distribution function with no fluxes between nodes is an equilibrium: the step does not change it -/
theorem C104_equilibrium_flux (h : Setup gridh gridAdv gridDif rate p) {dt : ℝ} (hdt : 0 ≤ dt) (prevdt : ℝ) (ha : p.absorbing = false) (hs : ¬ p.sourceRate > 0)
    (heq : ∀ i, i + 1 < p.dim → flux gridh p.dim gridAdv gridDif p.gridf i = 0) : ∃ o, evolveComp p false dt prevdt = some o ∧ ∀ i < p.dim, o.newf i = p.gridf i := by
  have h2 := h.grid.two
  obtain ⟨s, hss, n1, b1, hm, d1, r1⟩ := h.solve false (fun e => absurd e (by simp)) hdt prevdt
  obtain ⟨o, ho, hf, -⟩ := h.evolve_some false dt prevdt s hss
  refine ⟨o, ho, ?_⟩
  rw [hf, ← n1]
  apply C34_unique s.1 (by rw [b1, h.denseW.2.1]; omega) s.2 _ hm
  intro i hi
  have hi' : i < p.dim := by omega
  rw [r1 i hi', n1]
  have hna : ¬ (p.absorbing = true ∧ i = 0) := by rw [ha]; simp
  by_cases hl : i = p.dim - 1
  · rw [if_pos hl, Finset.sum_eq_single i]
    · rw [d1, if_pos hl, if_pos hl, one_mul, hl]
    · intro b _ hb
      rw [d1, if_pos hl, if_neg (fun e => hb (e.trans hl.symm)), zero_mul]
    · intro hn
      exact absurd (Finset.mem_range.2 hi') hn
  · rw [if_neg hl, if_neg hna]
    have e : ∑ j ∈ Finset.range p.dim, dense s.1 i j * p.gridf j = ∑ j ∈ Finset.range p.dim, FP.lhs0 p dt i j * p.gridf j := by
      apply Finset.sum_congr rfl
      intro j _
      rw [d1, if_neg hl, if_neg hna]
    rw [e, h.lhs0_mv dt _ i hi', h.weight_mv _ i hi', heq i (by omega)]
    have l0 : loss rate gridh p i = 0 := by rw [loss, if_neg (by rw [ha]; simp)]
    have c0 : corr p false dt prevdt i = 0 := by rw [corr, if_neg (by simp)]
    have s0 : src p i = 0 := by rw [src, if_neg hs]
    have f0 : (if i > 0 then flux gridh p.dim gridAdv gridDif p.gridf (i - 1) else 0) = 0 := by
      split
      · exact heq (i - 1) (by omega)
      · rfl
    rw [l0, c0, s0, f0]
    ring

/-- C104: the ratio of neighbouring values in an equilibrium is the exponent of the ratio of advection and diffusion coefficients times the step of the grid (Chang & Cooper) -/
theorem C104_equilibrium (h : Setup gridh gridAdv gridDif rate p) {dt : ℝ} (hdt : 0 ≤ dt) (prevdt : ℝ) (ha : p.absorbing = false) (hs : ¬ p.sourceRate > 0)
    (hw : ∀ i, i + 1 < p.dim → gridAdv i = 0 ∨ 0.02 < |gridAdv i / (gridDif i * auxGridMult gridh i)|)
    (heq : ∀ i, i + 1 < p.dim → p.gridf i = p.gridf (i + 1) * exp (gridAdv i / (gridDif i * auxGridMult gridh i))) :
    ∃ o, evolveComp p false dt prevdt = some o ∧ ∀ i < p.dim, o.newf i = p.gridf i := by
  refine C104_equilibrium_flux h hdt prevdt ha hs (fun i hi => ?_)
  rw [flux, if_pos hi, heq i hi, rat, dif]
  rcases hw i hi with h0 | h0
  · rw [h0, zero_div, exp_zero]
    ring
  · set w := gridAdv i / (gridDif i * auxGridMult gridh i) with hwd
    have hw0 : w ≠ 0 := by rintro e; rw [e] at h0; norm_num at h0
    have h1 : exp w - 1 ≠ 0 := fun e => hw0 (exp_eq_one_iff w |>.1 (by linarith))
    rw [wminus, if_pos h0]
    field_simp
    ring

/-- C105: what is recorded in a step: the integral of the source over the step; the mass lost through the inner boundary plus the loss-cone term; the given fraction of the
lost mass goes to the black hole -/
theorem C105_recorded (h : Setup gridh gridAdv gridDif rate p) (u : Bool) (hu : u = true → Prev gridh p) {dt : ℝ} (hdt : 0 ≤ dt) (prevdt : ℝ) :
    ∃ o, evolveComp p u dt prevdt = some o ∧ o.sourceMass = dt * ∑ i ∈ Finset.range p.dim, src p i ∧ o.accretedMass = -(o.drainMass * p.captureMassFraction) ∧
      o.drainMass = if p.absorbing = true then lostInner p dt o.newf + ∑ i ∈ Finset.range p.dim, p.gridf i * (dt * rate (gridh i) / (1 - dt * rate (gridh i))) * p.gridMass i else 0 := by
  obtain ⟨s, hs, -⟩ := h.solve u hu hdt prevdt
  obtain ⟨o, ho, -, hsm, hna, hab⟩ := h.evolve_some u dt prevdt s hs
  refine ⟨o, ho, ?_, ?_⟩
  · rw [hsm]
    simp only [src]
    split
    · rfl
    · simp
  · by_cases ha : p.absorbing = true
    · obtain ⟨l, hl, h1, h2⟩ := hab ha
      rw [C105_lossCone h ha hdt, Option.some.injEq] at hl
      rw [if_pos ha, hl, h2, h1]
      exact ⟨by ring, rfl⟩
    · obtain ⟨h1, h2⟩ := hna (by simpa using ha)
      rw [if_neg ha, h1, h2]
      exact ⟨by ring, rfl⟩

end

end

end Verif.FP
