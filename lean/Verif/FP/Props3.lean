import Verif.FP.Props2

/-! # Fokker-Planck solver: examples, and what does not hold -/

namespace Verif.FP

open Real Verif.Band Verif.Band.BandMatrix

noncomputable section

/-- a grid: h = 1, e, e^2, ... -/
def exGrid (i : ℕ) : ℝ := exp i

/-- diffusion coefficients; there is no advection -/
def exDif (i : ℕ) : ℝ := exp (i + 0.5)

def emptyMat : BandMatrix ℝ := ⟨0, 0, fun _ => 0⟩

/-- the setup of the solver on this grid; the relaxation matrix was k times larger in the previous step -/
def exInput (n : ℕ) (f : ℕ → ℝ) (absorbing : Bool) (rate : ℝ → ℝ) (k : ℝ) : Input where
  weight := (weightMatrix exGrid n).getD emptyMat
  relax := (relaxationMatrix exGrid n (fun _ => 0) exDif).getD emptyMat
  prevRelax := (relaxationMatrix exGrid n (fun _ => 0) (fun i => k * exDif i)).getD emptyMat
  drain := (projMatrix exGrid n rate).getD emptyMat
  gridMass := gridWeights exGrid n
  gridf := f
  dim := n
  sourceRate := 0
  gridSourceRate := fun _ => 0
  absorbing := absorbing
  captureMassFraction := 1

theorem getD_of {α : Type} {o : Option α} {d : α} (h : ∃ x, o = some x) : o = some (o.getD d) := by
  obtain ⟨x, rfl⟩ := h
  rfl

theorem exGrid_grid (n : ℕ) (hn : 2 ≤ n) : Grid exGrid n := ⟨hn, fun _ _ => exp_pos _, fun i _ => exp_lt_exp.2 (by push_cast; linarith)⟩

theorem exSetup (n : ℕ) (hn : 2 ≤ n) (f : ℕ → ℝ) (a : Bool) (rate : ℝ → ℝ) (k : ℝ) (hr : ∀ h, rate h ≤ 0) : Setup exGrid (fun _ => 0) exDif rate (exInput n f a rate k) where
  grid := exGrid_grid n hn
  weight := getD_of (by obtain ⟨M, e, -⟩ := diagMatrix_dense n hn (gridWeights exGrid n); exact ⟨M, e⟩)
  relax := getD_of (by obtain ⟨M, e, -⟩ := relaxationMatrix_dense exGrid n hn (fun _ => 0) exDif; exact ⟨M, e⟩)
  difpos := fun _ _ => exp_pos _
  drain := fun _ => getD_of (by obtain ⟨M, e, -⟩ := diagMatrix_dense n hn (projVector exGrid n rate); exact ⟨M, e⟩)
  ratepos := fun _ i _ => hr _

theorem exPrev (n : ℕ) (hn : 2 ≤ n) (f : ℕ → ℝ) (a : Bool) (rate : ℝ → ℝ) (k : ℝ) : Prev exGrid (exInput n f a rate k) :=
  ⟨fun _ => 0, fun i => k * exDif i, getD_of (by obtain ⟨M, e, -⟩ := relaxationMatrix_dense exGrid n hn (fun _ => 0) (fun i => k * exDif i); exact ⟨M, e⟩)⟩

theorem exScaled (i : ℕ) : gridScaled exGrid i = i := by rw [gridScaled, exGrid, log_exp]

theorem exDif_eq (k : ℝ) (i : ℕ) : dif exGrid (fun i => k * exDif i) i = k := by
  rw [dif, auxGridMult, auxGridScaled, exScaled, exScaled, exDif]
  push_cast
  rw [show (0.5 : ℝ) * (i + (i + 1)) = i + 0.5 by ring, show (i : ℝ) + 1 - i = 1 by ring]
  have := exp_ne_zero ((i : ℝ) + 0.5)
  field_simp

theorem wminus_zero : wminus 0 = 1 := by rw [wminus, if_neg (by norm_num)]; ring

theorem exFlux (n : ℕ) (k : ℝ) (f : ℕ → ℝ) (i : ℕ) : flux exGrid n (fun _ => 0) (fun i => k * exDif i) f i = if i + 1 < n then k * (f (i + 1) - f i) else 0 := by
  rw [flux]
  split
  · rw [rat, exDif_eq, zero_div, wminus_zero]
    ring
  · rfl

theorem exFlux1 (n : ℕ) (f : ℕ → ℝ) (i : ℕ) : flux exGrid n (fun _ => 0) exDif f i = if i + 1 < n then f (i + 1) - f i else 0 := by
  have := exFlux n 1 f i
  simpa only [one_mul] using this

theorem exW0 (n : ℕ) (hn : 2 ≤ n) : gridWeights exGrid n 0 = 1 / 2 := by
  rw [gridWeights, if_neg (show ¬ 0 > 0 by omega), if_pos (show 0 < n - 1 by omega), auxGridScaled, exScaled, exScaled]
  norm_num

/-- the hypotheses of the theorems are satisfied -/
example : ∃ (p : Input) (rate : ℝ → ℝ), Setup exGrid (fun _ => 0) exDif rate p ∧ Prev exGrid p ∧ p.dim = 3 ∧ p.absorbing = true ∧ rate 1 ≠ 0 ∧ p.gridf 1 ≠ 0 ∧ p.gridf 0 = 0 :=
  ⟨exInput 3 (fun i => i) true (fun _ => -1) 1, fun _ => -1, exSetup 3 (by norm_num) _ _ _ _ (fun _ => by norm_num), exPrev 3 (by norm_num) _ _ _ _, rfl, rfl, by norm_num, by simp [exInput], by simp [exInput]⟩

/-- the hypotheses of the theorem on equilibria are satisfied with advection -/
example : ∃ (p : Input) (gridAdv : ℕ → ℝ), Setup exGrid gridAdv exDif (fun _ => 0) p ∧ p.dim = 3 ∧ p.absorbing = false ∧ ¬ p.sourceRate > 0 ∧
    (∀ i, i + 1 < p.dim → gridAdv i = 0 ∨ 0.02 < |gridAdv i / (exDif i * auxGridMult exGrid i)|) ∧
    (∀ i, i + 1 < p.dim → p.gridf i = p.gridf (i + 1) * exp (gridAdv i / (exDif i * auxGridMult exGrid i))) ∧ p.gridf 1 ≠ p.gridf 0 := by
  have e : ∀ i, exDif i * auxGridMult exGrid i = 1 := by
    intro i
    have := exDif_eq 1 i
    simpa only [one_mul, dif] using this
  refine ⟨{ exInput 3 (fun i => exp (-i)) false (fun _ => 0) 1 with relax := (relaxationMatrix exGrid 3 (fun _ => 1) exDif).getD emptyMat }, fun _ => 1, ?_, rfl, rfl, by simp [exInput], ?_, ?_, ?_⟩
  · refine ⟨exGrid_grid 3 (by norm_num), (exSetup 3 (by norm_num) (fun i => exp (-i)) false (fun _ => 0) 1 (fun _ => le_rfl)).weight,
      getD_of (d := emptyMat) (by obtain ⟨M, e, -⟩ := relaxationMatrix_dense exGrid 3 (by norm_num) (fun _ => 1) exDif; exact ⟨M, e⟩), fun _ _ => exp_pos _, fun h => ?_, fun h => ?_⟩
    · simp [exInput] at h
    · simp [exInput] at h
  · intro i _
    rw [e]
    norm_num
  · intro i _
    rw [e]
    simp only [exInput]
    rw [← exp_add]
    congr 1
    push_cast
    ring
  · simp only [exInput]
    intro h
    have := exp_injective h
    norm_num at this

/-- without absorption, without a source and without the correction term, the total mass changes in one step, and this is not accounted for in any of the
recorded quantities: the flux through the outer boundary, where the value is fixed -/
theorem C105_outer_leak : ∃ (p : Input) (o : Output), Setup exGrid (fun _ => 0) exDif (fun _ => 0) p ∧ evolveComp p false 1 0 = some o ∧
    o.sourceMass = 0 ∧ o.drainMass = 0 ∧ mass p o.newf ≠ mass p p.gridf := by
  have hS := exSetup 2 le_rfl (fun i => i) false (fun _ => 0) 1 (fun _ => le_rfl)
  obtain ⟨o, ho, hb⟩ := C105_mass_budget_partial hS false (fun e => absurd e (by simp)) (dt := 1) (by norm_num) 0 (fun _ _ => rfl) rfl rfl (fun e => absurd e (by simp [exInput]))
  obtain ⟨o', ho', h3, h4, h5⟩ := C104_step hS false (fun e => absurd e (by simp)) (dt := 1) (by norm_num) 0
  have : o' = o := by rw [ho] at ho'; exact (Option.some.inj ho').symm
  subst this
  obtain ⟨s, hs, -⟩ := hS.solve false (fun e => absurd e (by simp)) (dt := 1) (by norm_num) 0
  obtain ⟨o2, ho2, -, hsm, hna, -⟩ := hS.evolve_some false 1 0 s hs
  have : o2 = o' := by rw [ho'] at ho2; exact (Option.some.inj ho2).symm
  subst this
  refine ⟨_, o2, hS, ho, ?_, (hna rfl).1, ?_⟩
  · rw [hsm]; simp [exInput]
  · intro h
    rw [h, sub_self, hsm] at hb
    have h50 := h5 0 (by simp [exInput]) (fun e => absurd e (by simp [exInput]))
    simp only [exInput, exFlux1, loss, src, corr, exW0 2 le_rfl] at hb h50 h3
    norm_num at hb h50 h3
    linarith

/-- the correction term can make the distribution function negative, although it was non-negative before -/
theorem C104_correction_negative : ∃ (p : Input) (o : Output), Setup exGrid (fun _ => 0) exDif (fun _ => 0) p ∧ Prev exGrid p ∧ useCorrection 1 1 ∧
    evolveComp p true 1 1 = some o ∧ (∀ i < p.dim, 0 ≤ p.gridf i) ∧ o.newf 1 < 0 := by
  have hS := exSetup 3 (by norm_num) (fun i => if i = 0 then 1 else 0) false (fun _ => 0) 3 (fun _ => le_rfl)
  have hP := exPrev 3 (by norm_num) (fun i => if i = 0 then 1 else 0) false (fun _ => 0) 3
  obtain ⟨o, ho, h3, h4, h5⟩ := C104_step hS true (fun _ => hP) (dt := 1) (by norm_num) 1
  refine ⟨_, o, hS, hP, by rw [useCorrection]; norm_num, ho, ?_, ?_⟩
  · intro i _
    simp only [exInput]
    split <;> norm_num
  · have h50 := h5 0 (by simp [exInput]) (fun e => absurd e (by simp [exInput]))
    have h51 := h5 1 (by simp [exInput]) (fun e => absurd e (by simp [exInput]))
    have hW := gridWeights_pos (exGrid_grid 3 (by norm_num)) 1 (by norm_num)
    have hc : corr (exInput 3 (fun i => if i = 0 then 1 else 0) false (fun _ => 0) 3) true 1 1 1 = -2 := by
      obtain ⟨M, e, -, -, dM⟩ := relaxationMatrix_dense exGrid 3 (by norm_num) (fun _ => 0) (fun i => 3 * exDif i)
      rw [corr, if_pos (by simp), mv, mv]
      simp only [hS.denseR.2.2]
      have e2 : (exInput 3 (fun i => if i = 0 then 1 else 0) false (fun _ => 0) 3).prevRelax = M := by simp only [exInput, e, Option.getD_some]
      simp only [e2, dM]
      rw [elt_sum _ _ _ _ _ _ (by simp [exInput])]
      simp only [exInput]
      rw [elt_sum _ _ _ _ _ _ (by norm_num)]
      simp only [exFlux1, exFlux]
      norm_num
    have c0 : corr (exInput 3 (fun i => if i = 0 then 1 else 0) false (fun _ => 0) 3) true 1 1 0 = 0 := by rw [corr, if_neg (by simp)]
    rw [hc] at h51
    rw [c0] at h50
    simp only [exInput, exFlux1, loss, src, exW0 3 (by norm_num)] at h50 h51 h3
    norm_num at h50 h51 h3
    nlinarith

/-- the correction term is not conservative: its sum over the nodes, apart from the fixed outer one, is not zero and not a flux through a boundary -/
theorem C105_correction_mass : ∃ (p : Input) (o : Output), Setup exGrid (fun _ => 0) exDif (fun _ => 0) p ∧ Prev exGrid p ∧ evolveComp p true 1 1 = some o ∧
    o.sourceMass = 0 ∧ o.drainMass = 0 ∧ mass p o.newf - mass p p.gridf = flux exGrid p.dim (fun _ => 0) exDif o.newf (p.dim - 2) - 2 ∧
    (∀ i, 1 ≤ i → i < p.dim → p.gridf i = 0) := by
  have hS := exSetup 3 (by norm_num) (fun i => if i = 0 then 1 else 0) false (fun _ => 0) 3 (fun _ => le_rfl)
  have hP := exPrev 3 (by norm_num) (fun i => if i = 0 then 1 else 0) false (fun _ => 0) 3
  obtain ⟨o, ho, hb⟩ := C105_mass_budget_partial hS true (fun _ => hP) (dt := 1) (by norm_num) 1 (fun _ _ => rfl) rfl rfl (fun e => absurd e (by simp [exInput]))
  obtain ⟨s, hs, -⟩ := hS.solve true (fun _ => hP) (dt := 1) (by norm_num) 1
  obtain ⟨o2, ho2, -, hsm, hna, -⟩ := hS.evolve_some true 1 1 s hs
  have : o2 = o := by rw [ho] at ho2; exact (Option.some.inj ho2).symm
  subst this
  have hsm0 : o2.sourceMass = 0 := by rw [hsm]; simp [exInput]
  refine ⟨_, o2, hS, hP, ho, hsm0, (hna rfl).1, ?_, ?_⟩
  · rw [hb, hsm0]
    have hc : corr (exInput 3 (fun i => if i = 0 then 1 else 0) false (fun _ => 0) 3) true 1 1 1 = -2 := by
      obtain ⟨M, e, -, -, dM⟩ := relaxationMatrix_dense exGrid 3 (by norm_num) (fun _ => 0) (fun i => 3 * exDif i)
      rw [corr, if_pos (by simp), mv, mv]
      simp only [hS.denseR.2.2]
      have e2 : (exInput 3 (fun i => if i = 0 then 1 else 0) false (fun _ => 0) 3).prevRelax = M := by simp only [exInput, e, Option.getD_some]
      simp only [e2, dM]
      rw [elt_sum _ _ _ _ _ _ (by simp [exInput])]
      simp only [exInput]
      rw [elt_sum _ _ _ _ _ _ (by norm_num)]
      simp only [exFlux1, exFlux]
      norm_num
    have e1 : Finset.Ico 1 ((exInput 3 (fun i => if i = 0 then 1 else 0) false (fun _ => 0) 3).dim - 1) = {1} := rfl
    rw [e1, Finset.sum_singleton, Finset.sum_singleton, hc, loss]
    simp [exInput]
    ring
  · intro i h1 _
    simp only [exInput]
    rw [if_neg (by omega)]

/-- the mass recorded as lost in the loss cone is not the one by which the mass of the system decreases: here nothing is recorded although mass is lost -/
theorem C105_lossCone_mismatch : ∃ (p : Input) (rate : ℝ → ℝ) (o : Output), Setup exGrid (fun _ => 0) exDif rate p ∧ p.absorbing = true ∧ p.gridf 0 = 0 ∧ evolveComp p false 1 0 = some o ∧
    o.sourceMass = 0 ∧ lostCone p 1 = some 0 ∧ o.drainMass = lostInner p 1 o.newf ∧
    mass p o.newf - mass p p.gridf < flux exGrid p.dim (fun _ => 0) exDif o.newf (p.dim - 2) + o.drainMass := by
  set rate : ℝ → ℝ := fun h => if h = exp 1 then -1 else 0 with hrate
  have hr : ∀ h, rate h ≤ 0 := by intro h; rw [hrate]; simp only; split <;> norm_num
  set f : ℕ → ℝ := fun i => if i = 2 then 1 else 0 with hf
  have hS := exSetup 3 (by norm_num) f true rate 1 hr
  obtain ⟨o, ho, hb⟩ := C105_mass_budget_partial hS false (fun e => absurd e (by simp)) (dt := 1) (by norm_num) 0 (fun _ _ => rfl) rfl rfl (fun _ => by simp [exInput, hf])
  obtain ⟨o', ho', h3, h4, h5⟩ := C104_step hS false (fun e => absurd e (by simp)) (dt := 1) (by norm_num) 0
  have : o' = o := by rw [ho] at ho'; exact (Option.some.inj ho').symm
  subst this
  obtain ⟨s, hs, -⟩ := hS.solve false (fun e => absurd e (by simp)) (dt := 1) (by norm_num) 0
  obtain ⟨o2, ho2, -, hsm, -, hab⟩ := hS.evolve_some false 1 0 s hs
  have : o2 = o' := by rw [ho'] at ho2; exact (Option.some.inj ho2).symm
  subst this
  have hl := C105_lossCone hS rfl (dt := 1) (by norm_num)
  have e2 : exp (2 : ℝ) ≠ exp 1 := fun e => by have := exp_injective e; norm_num at this
  have hl0 : lostCone (exInput 3 f true rate 1) 1 = some 0 := by
    rw [hl]
    simp only [exInput, Finset.sum_range_succ, Finset.sum_range_zero, hf, exGrid, hrate]
    simp [e2]
  obtain ⟨l, hl1, hd, -⟩ := hab rfl
  rw [hl0, Option.some.injEq] at hl1
  have hsm0 : o2.sourceMass = 0 := by rw [hsm]; simp [exInput]
  refine ⟨_, rate, o2, hS, rfl, by simp [exInput, hf], ho, hsm0, hl0, by rw [hd, ← hl1, add_zero], ?_⟩
  rw [hb, hsm0, hd, ← hl1]
  have h51 := h5 1 (by simp [exInput]) (fun _ => by norm_num)
  have hW := gridWeights_pos (exGrid_grid 3 (by norm_num)) 1 (by norm_num)
  have r1 : rate (exGrid 1) = -1 := by rw [hrate]; simp [exGrid]
  have e1 : Finset.Ico 1 ((exInput 3 f true rate 1).dim - 1) = {1} := rfl
  rw [e1, Finset.sum_singleton, Finset.sum_singleton]
  have h40 := h4 rfl
  have c0 : corr (exInput 3 f true rate 1) false 1 0 1 = 0 := by rw [corr, if_neg (by simp)]
  have d3 : (exInput 3 f true rate 1).dim = 3 := rfl
  have g3 : (exInput 3 f true rate 1).gridf = f := rfl
  have f0 : f 0 = 0 := by simp [hf]
  have f1 : f 1 = 0 := by simp [hf]
  have f2 : f 2 = 1 := by simp [hf]
  have L1 : loss rate exGrid (exInput 3 f true rate 1) 1 = -1 := by rw [loss, if_pos (show (exInput 3 f true rate 1).absorbing = true from rfl), r1]
  have s1 : src (exInput 3 f true rate 1) 1 = 0 := by rw [src, if_neg (by simp [exInput])]
  rw [c0, L1, s1] at h51
  rw [c0, L1, if_pos (show (exInput 3 f true rate 1).absorbing = true from rfl)]
  simp only [d3, g3, exFlux1, f0, f1, f2] at h51 h40 h3 ⊢
  norm_num at h51 h40 h3 ⊢
  rw [h3, h40] at h51
  have : 0 < o2.newf 1 := by
    by_contra hneg
    push Not at hneg
    nlinarith
  exact mul_pos hW this

/-- if stars are captured by the black hole (the inner boundary is absorbing) but draining of the loss cone is switched off, then every step ends with an exception,
whatever the other parameters are: the loss-cone matrix is empty -/
theorem C105_no_losscone_throws (gridh gridAdv gridDif : ℕ → ℝ) (p : Input) (mat : BandMatrix ℝ) (hn : 2 ≤ p.dim) (hw : weightMatrix gridh p.dim = some p.weight)
    (_hr : relaxationMatrix gridh p.dim gridAdv gridDif = some p.relax) (ha : p.absorbing = true) (hd : p.drain = initialDrain false mat) (u : Bool) (dt prevdt : ℝ) :
    evolveComp p u dt prevdt = none := by
  obtain ⟨W, eW, nW, bW, -⟩ := diagMatrix_dense p.dim hn (gridWeights gridh p.dim)
  rw [weightMatrix, eW, Option.some.injEq] at hw
  have key : ∀ L : BandMatrix ℝ, L.n = p.dim → daxpy (-dt) p.drain L = none := by
    intro L hL
    rw [← Option.not_isSome_iff_eq_none]
    intro hsome
    have := ((C33_daxpy (-dt) p.drain L).1.2 hsome).1
    rw [hd, initialDrain, if_neg (by simp)] at this
    simp only at this
    omega
  rw [evolveComp]
  have : assemble p u dt prevdt = none := by
    unfold assemble
    rcases e1 : daxpy (-dt) p.relax p.weight with _ | L1
    · rfl
    · rw [Option.bind_some]
      have hL1 : L1.n = p.dim := by rw [((C33_daxpy (-dt) p.relax p.weight).2 L1 e1).1, ← hw, nW]
      rw [Option.bind_eq_none_iff]
      intro rhs _
      rw [if_pos ha, key L1 hL1]
      rfl
  rw [this]
  rfl

/-- the hypotheses are satisfied -/
example : ∃ p : Input, 2 ≤ p.dim ∧ weightMatrix exGrid p.dim = some p.weight ∧ relaxationMatrix exGrid p.dim (fun _ => 0) exDif = some p.relax ∧ p.absorbing = true ∧ p.drain = initialDrain false p.weight := by
  have h := exSetup 5 (by norm_num) (fun _ => 1) true (fun _ => 0) 1 (fun _ => le_rfl)
  exact ⟨{ exInput 5 (fun _ => 1) true (fun _ => 0) 1 with drain := emptyMat }, by simp [exInput], h.weight, h.relax, rfl, by simp [initialDrain, emptyMat]⟩

end

end Verif.FP
