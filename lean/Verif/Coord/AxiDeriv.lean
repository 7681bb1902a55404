import Verif.Coord.AxiProps
import Mathlib.Analysis.SpecialFunctions.Trigonometric.ArctanDeriv
import Mathlib.Analysis.Real.Pi.Bounds

/-!
# C59: Axi coordinates — derivatives

The angle is ν = arccot(cot ν) ∈ (0, π) off the symmetry axis (coord.h:237-271).
-/

namespace Verif.Coord.Axi

open Real

/-- a point given by the angle ν itself -/
structure PosNu where (rho nu phi : ℝ)

/-- the Axi point with angle ν (0 < ν < π): the code stores cot ν -/
noncomputable def PosNu.toAxi (q : PosNu) : PosAxi := ⟨q.rho, .fin (cos q.nu / sin q.nu), q.phi⟩

/-- the angle ν ∈ [0, π] of a stored cotangent -/
noncomputable def Cot.angle : Cot → ℝ
  | .fin x => π / 2 - arctan x
  | .posInf => 0
  | .negInf => π
  | .nan => 0

/-- total derivative along every differentiable curve -/
def IsGradNu (F : PosNu → ℝ) (p : PosNu) (g : GradAxi) : Prop :=
  ∀ (rho nu phi : ℝ → ℝ) (rho' nu' phi' t : ℝ), HasDerivAt rho rho' t → HasDerivAt nu nu' t → HasDerivAt phi phi' t →
    (⟨rho t, nu t, phi t⟩ : PosNu) = p →
    HasDerivAt (fun s => F ⟨rho s, nu s, phi s⟩) (g.drho * rho' + g.dnu * nu' + g.dphi * phi') t

/-- Hessian: total derivative of each component of the gradient -/
def IsHessNu (G : PosNu → GradAxi) (p : PosNu) (h : HessAxi) : Prop :=
  IsGradNu (fun q => (G q).drho) p ⟨h.drho2, h.drhodnu, h.drhodphi⟩ ∧
  IsGradNu (fun q => (G q).dnu) p ⟨h.drhodnu, h.dnu2, h.dnudphi⟩ ∧
  IsGradNu (fun q => (G q).dphi) p ⟨h.drhodphi, h.dnudphi, h.dphi2⟩

/-- R(ρ,ν) as returned by the code (0 if NaN) -/
noncomputable def Rof (D2 : ℝ) (q : PosNu) : ℝ := match axiToCyl D2 q.toAxi with | some p => p.R | none => 0
/-- z(ρ,ν) as returned by the code (0 if NaN) -/
noncomputable def zof (D2 : ℝ) (q : PosNu) : ℝ := match axiToCyl D2 q.toAxi with | some p => p.z | none => 0

/-- the angle and its cotangent correspond -/
theorem angle_toAxi (q : PosNu) (h : 0 < q.nu ∧ q.nu < π) : q.toAxi.cotnu.angle = q.nu := by
  simp only [PosNu.toAxi, Cot.angle]
  have hs := sin_pos_of_pos_of_lt_pi h.1 h.2
  have : cos q.nu / sin q.nu = tan (π / 2 - q.nu) := by
    rw [tan_eq_sin_div_cos, sin_pi_div_two_sub, cos_pi_div_two_sub]
  rw [this, arctan_tan (by linarith) (by linarith)]; ring

theorem sin_cos_toAxi (q : PosNu) (hs : 0 < sin q.nu) :
    q.toAxi.cotnu.sin = some (sin q.nu) ∧ q.toAxi.cotnu.cos = some (cos q.nu) := by
  have := Cot.div_sin_cos hs.le (sin_sq_add_cos_sq q.nu)
  unfold Cot.div at this
  rw [if_pos hs.ne'] at this
  exact this

theorem Rof_eq (D2 : ℝ) (q : PosNu) (hs : 0 < sin q.nu) : Rof D2 q = chiOf D2 q.rho * sin q.nu := by
  obtain ⟨a, b⟩ := sin_cos_toAxi q hs
  simp only [Rof, axiToCyl, a, b, Option.pure_def, Option.bind_eq_bind, Option.bind_some]
  rfl
theorem zof_eq (D2 : ℝ) (q : PosNu) (hs : 0 < sin q.nu) : zof D2 q = psiOf D2 q.rho * cos q.nu := by
  obtain ⟨a, b⟩ := sin_cos_toAxi q hs
  simp only [zof, axiToCyl, a, b, Option.pure_def, Option.bind_eq_bind, Option.bind_some]
  rfl

theorem hasDerivAt_chiOf {D2 : ℝ} {rho : ℝ → ℝ} {rho' t : ℝ} (h : HasDerivAt rho rho' t) :
    HasDerivAt (fun s => chiOf D2 (rho s)) (dchi D2 (rho t) * rho') t := by
  unfold chiOf dchi
  split_ifs with h1
  · simpa using h
  · push Not at h1
    have hp : 0 < rho t ^ 2 + |D2| := by have := abs_pos.mpr h1.ne; positivity
    refine (((h.pow 2).add_const |D2|).sqrt hp.ne').congr_deriv ?_
    simp only [chiOf, not_le.mpr h1, if_false]
    have := sqrt_pos.mpr hp
    simp only [Pi.pow_apply]
    field_simp
    norm_num
    ring

theorem hasDerivAt_psiOf {D2 : ℝ} {rho : ℝ → ℝ} {rho' t : ℝ} (h : HasDerivAt rho rho' t) (h0 : D2 ≠ 0 ∨ 0 < rho t) :
    HasDerivAt (fun s => psiOf D2 (rho s)) (dpsi D2 (rho t) * rho') t := by
  unfold psiOf dpsi
  split_ifs with h1 h2
  · have h3 : D2 = 0 := le_antisymm h2 h1
    have h4 : 0 < rho t := by rcases h0 with h | h; exact absurd h3 h; exact h
    subst h3
    have : ∀ᶠ s in nhds t, √(rho s ^ 2 + |(0:ℝ)|) = rho s := by
      filter_upwards [h.continuousAt.eventually (lt_mem_nhds h4)] with s hs
      rw [abs_zero, add_zero, sqrt_sq hs.le]
    exact (h.congr_deriv (one_mul _).symm).congr_of_eventuallyEq this
  · push Not at h2
    have hp : 0 < rho t ^ 2 + |D2| := by have := abs_pos.mpr h2.ne'; positivity
    refine (((h.pow 2).add_const |D2|).sqrt hp.ne').congr_deriv ?_
    simp only [psiOf, h1, if_true]
    have := sqrt_pos.mpr hp
    simp only [Pi.pow_apply]
    field_simp
    norm_num
    ring
  · simpa using h
  · rename_i h2 
    exact absurd (not_le.mp h2).le h1

/-- **C59**: the first derivatives of the map (ρ,ν) → (R,z) -/
theorem C59_deriv_axi_cyl (D2 : ℝ) (q : PosNu) (hn : 0 < q.nu ∧ q.nu < π) (h0 : D2 ≠ 0 ∨ 0 < q.rho) :
    ∃ d, derivAxiCyl D2 q.toAxi = some d ∧
      IsGradNu (Rof D2) q ⟨d.dRdrho, d.dRdnu, 0⟩ ∧ IsGradNu (zof D2) q ⟨d.dzdrho, d.dzdnu, 0⟩ := by
  have hs := sin_pos_of_pos_of_lt_pi hn.1 hn.2
  obtain ⟨a, b⟩ := sin_cos_toAxi q hs
  refine ⟨_, by simp only [derivAxiCyl, a, b, Option.pure_def, Option.bind_eq_bind, Option.bind_some]; rfl, ?_, ?_⟩
  · intro rho nu phi rho' nu' phi' t h1 h2 h3 e
    subst e
    have ev : ∀ᶠ s in nhds t, Rof D2 ⟨rho s, nu s, phi s⟩ = chiOf D2 (rho s) * sin (nu s) := by
      filter_upwards [h2.sin.continuousAt.eventually (lt_mem_nhds hs)] with s hs
      exact Rof_eq D2 _ hs
    refine (((hasDerivAt_chiOf h1).mul h2.sin).congr_deriv ?_).congr_of_eventuallyEq ev
    simp only [PosNu.toAxi]; ring
  · intro rho nu phi rho' nu' phi' t h1 h2 h3 e
    subst e
    have ev : ∀ᶠ s in nhds t, zof D2 ⟨rho s, nu s, phi s⟩ = psiOf D2 (rho s) * cos (nu s) := by
      filter_upwards [h2.sin.continuousAt.eventually (lt_mem_nhds hs)] with s hs
      exact zof_eq D2 _ hs
    refine (((hasDerivAt_psiOf h1 h0).mul h2.cos).congr_deriv ?_).congr_of_eventuallyEq ev
    simp only [PosNu.toAxi]; ring

example : ∃ d, derivAxiCyl (-4) (⟨0, 1, 2⟩ : PosNu).toAxi = some d ∧
    IsGradNu (Rof (-4)) ⟨0, 1, 2⟩ ⟨d.dRdrho, d.dRdnu, 0⟩ ∧ IsGradNu (zof (-4)) ⟨0, 1, 2⟩ ⟨d.dzdrho, d.dzdnu, 0⟩ :=
  C59_deriv_axi_cyl _ _ ⟨by norm_num, by linarith [pi_gt_three]⟩ (by norm_num)

/-- the gradients as returned by the code, as functions of the point -/
noncomputable def gradR (D2 : ℝ) (q : PosNu) : GradAxi :=
  match derivAxiCyl D2 q.toAxi with | some d => ⟨d.dRdrho, d.dRdnu, 0⟩ | none => ⟨0, 0, 0⟩
/-- the gradients as returned by the code, as functions of the point -/
noncomputable def gradZ (D2 : ℝ) (q : PosNu) : GradAxi :=
  match derivAxiCyl D2 q.toAxi with | some d => ⟨d.dzdrho, d.dzdnu, 0⟩ | none => ⟨0, 0, 0⟩

theorem gradR_eq (D2 : ℝ) (q : PosNu) (hs : 0 < sin q.nu) :
    gradR D2 q = ⟨dchi D2 q.rho * sin q.nu, chiOf D2 q.rho * cos q.nu, 0⟩ := by
  obtain ⟨a, b⟩ := sin_cos_toAxi q hs
  simp only [gradR, derivAxiCyl, a, b, Option.pure_def, Option.bind_eq_bind, Option.bind_some]
  rfl
theorem gradZ_eq (D2 : ℝ) (q : PosNu) (hs : 0 < sin q.nu) :
    gradZ D2 q = ⟨dpsi D2 q.rho * cos q.nu, -psiOf D2 q.rho * sin q.nu, 0⟩ := by
  obtain ⟨a, b⟩ := sin_cos_toAxi q hs
  simp only [gradZ, derivAxiCyl, a, b, Option.pure_def, Option.bind_eq_bind, Option.bind_some]
  rfl

theorem hasDerivAt_dchi {D2 : ℝ} {rho : ℝ → ℝ} {rho' t : ℝ} (h : HasDerivAt rho rho' t) :
    HasDerivAt (fun s => dchi D2 (rho s)) ((open Classical in if D2 ≥ 0 then 0 else -D2 / chiOf D2 (rho t) ^ 3) * rho') t := by
  have hc := hasDerivAt_chiOf (D2 := D2) h
  unfold dchi at *
  split_ifs with h1
  · simpa using hasDerivAt_const t (1:ℝ)
  · push Not at h1
    simp only [not_le.mpr h1, if_false] at hc
    have hp : 0 < rho t ^ 2 + |D2| := by have := abs_pos.mpr h1.ne; positivity
    have hchi : 0 < chiOf D2 (rho t) := by simp only [chiOf, not_le.mpr h1, if_false]; exact sqrt_pos.mpr hp
    have hc2 : chiOf D2 (rho t) ^ 2 = rho t ^ 2 - D2 := by
      simp only [chiOf, not_le.mpr h1, if_false]; rw [sq_sqrt hp.le, abs_of_neg h1]; ring
    refine (h.div hc hchi.ne').congr_deriv ?_
    field_simp
    rw [hc2]; ring

theorem hasDerivAt_dpsi {D2 : ℝ} {rho : ℝ → ℝ} {rho' t : ℝ} (h : HasDerivAt rho rho' t) :
    HasDerivAt (fun s => dpsi D2 (rho s)) ((open Classical in if D2 ≤ 0 then 0 else D2 / psiOf D2 (rho t) ^ 3) * rho') t := by
  by_cases h1 : D2 ≤ 0
  · simp only [dpsi, h1, if_true]
    simpa using hasDerivAt_const t (1:ℝ)
  · have hc := hasDerivAt_psiOf (D2 := D2) h (Or.inl (not_le.mp h1).ne')
    push Not at h1
    simp only [dpsi, not_le.mpr h1, if_false] at hc ⊢
    have hp : 0 < rho t ^ 2 + |D2| := by have := abs_pos.mpr h1.ne'; positivity
    have hchi : 0 < psiOf D2 (rho t) := by simp only [psiOf, h1.le, if_true]; exact sqrt_pos.mpr hp
    have hc2 : psiOf D2 (rho t) ^ 2 = rho t ^ 2 + D2 := by
      simp only [psiOf, h1.le, if_true]; rw [sq_sqrt hp.le, abs_of_pos h1]
    refine (h.div hc hchi.ne').congr_deriv ?_
    field_simp
    rw [hc2]; ring

/-- **C59**: the second derivatives of the map (ρ,ν) → (R,z) -/
theorem C59_deriv2_axi_cyl (D2 : ℝ) (q : PosNu) (hn : 0 < q.nu ∧ q.nu < π) (h0 : D2 ≠ 0 ∨ 0 < q.rho) :
    ∃ d, deriv2AxiCyl D2 q.toAxi = some d ∧
      IsHessNu (gradR D2) q ⟨d.d2Rdrho2, d.d2Rdnu2, 0, d.d2Rdrhodnu, 0, 0⟩ ∧
      IsHessNu (gradZ D2) q ⟨d.d2zdrho2, d.d2zdnu2, 0, d.d2zdrhodnu, 0, 0⟩ := by
  have hs := sin_pos_of_pos_of_lt_pi hn.1 hn.2
  obtain ⟨a, b⟩ := sin_cos_toAxi q hs
  refine ⟨_, by simp only [deriv2AxiCyl, a, b, Option.pure_def, Option.bind_eq_bind, Option.bind_some]; rfl, ⟨?_, ?_, ?_⟩, ?_, ?_, ?_⟩
  all_goals
    intro rho nu phi rho' nu' phi' t h1 h2 h3 e
    subst e
    have ev : ∀ᶠ s in nhds t, 0 < sin (nu s) := h2.sin.continuousAt.eventually (lt_mem_nhds hs)
  · refine (((hasDerivAt_dchi h1).mul h2.sin).congr_deriv ?_).congr_of_eventuallyEq
      (ev.mono fun s hs => by simp only [gradR_eq D2 ⟨rho s, nu s, phi s⟩ hs]; rfl)
    simp only [PosNu.toAxi]
    split_ifs <;> ring
  · refine (((hasDerivAt_chiOf h1).mul h2.cos).congr_deriv ?_).congr_of_eventuallyEq
      (ev.mono fun s hs => by simp only [gradR_eq D2 ⟨rho s, nu s, phi s⟩ hs]; rfl)
    simp only [PosNu.toAxi]
    ring
  · refine ((hasDerivAt_const t (0:ℝ)).congr_deriv (by ring)).congr_of_eventuallyEq
      (ev.mono fun s hs => by simp only [gradR_eq D2 ⟨rho s, nu s, phi s⟩ hs])
  · refine (((hasDerivAt_dpsi h1).mul h2.cos).congr_deriv ?_).congr_of_eventuallyEq
      (ev.mono fun s hs => by simp only [gradZ_eq D2 ⟨rho s, nu s, phi s⟩ hs]; rfl)
    simp only [PosNu.toAxi]
    split_ifs <;> ring
  · refine (((hasDerivAt_psiOf h1 h0).neg.mul h2.sin).congr_deriv ?_).congr_of_eventuallyEq
      (ev.mono fun s hs => by simp only [gradZ_eq D2 ⟨rho s, nu s, phi s⟩ hs]; rfl)
    simp only [PosNu.toAxi, Pi.neg_apply]
    ring
  · refine ((hasDerivAt_const t (0:ℝ)).congr_deriv (by ring)).congr_of_eventuallyEq
      (ev.mono fun s hs => by simp only [gradZ_eq D2 ⟨rho s, nu s, phi s⟩ hs])

/-! ## cylindrical → Axi -/

/-- the computed location, in closed form -/
theorem loc_closed (D2 : ℝ) (p : PosCyl) (hR : 0 ≤ p.R) (h0 : D2 = 0 → ¬ (p.R = 0 ∧ p.z = 0)) :
    let l := getPosAxi D2 p
    let dif := (p.R ^ 2 + p.z ^ 2 - D2) / 2
    √(dif ^ 2 + p.R ^ 2 * D2) = ((l.chi * l.cosnu) ^ 2 + (l.psi * l.sinnu) ^ 2) / 2 ∧
    l.chi = √(√(dif ^ 2 + p.R ^ 2 * D2) + dif) ∧ l.psi = √(√(dif ^ 2 + p.R ^ 2 * D2) + dif + D2) := by
  obtain ⟨e1, e2, e3, e4, hc, hp, hs, -⟩ := getPosAxi_spec D2 p hR h0
  intro l dif
  change p.R = l.chi * l.sinnu at e1
  change p.z = l.psi * l.cosnu at e2
  change l.sinnu ^ 2 + l.cosnu ^ 2 = 1 at e3
  change l.psi ^ 2 = l.chi ^ 2 + D2 at e4
  have c2 : l.cosnu ^ 2 = 1 - l.sinnu ^ 2 := by linarith
  have hdif : dif = ((l.chi * l.sinnu) ^ 2 + (l.psi * l.cosnu) ^ 2 - D2) / 2 := by simp only [dif]; rw [e1, e2]
  have a : dif ^ 2 + p.R ^ 2 * D2 = (((l.chi * l.cosnu) ^ 2 + (l.psi * l.sinnu) ^ 2) / 2) ^ 2 := by
    rw [hdif, e1]
    generalize l.chi = chi at *
    generalize l.psi = psi at *
    generalize l.sinnu = s at *
    generalize l.cosnu = c at *
    simp only [mul_pow, c2, e4]; ring
  have b : √(dif ^ 2 + p.R ^ 2 * D2) = ((l.chi * l.cosnu) ^ 2 + (l.psi * l.sinnu) ^ 2) / 2 := by
    rw [a, sqrt_sq (by positivity)]
  have cc : √(dif ^ 2 + p.R ^ 2 * D2) + dif = l.chi ^ 2 := by
    rw [b, hdif]
    generalize l.chi = chi at *
    generalize l.psi = psi at *
    generalize l.sinnu = s at *
    generalize l.cosnu = c at *
    simp only [mul_pow, c2, e4]; ring
  exact ⟨b, by rw [cc]; exact (sqrt_sq hc).symm, by rw [cc, ← e4]; exact (sqrt_sq hp).symm⟩

/-- off the axis and off the focal disk everything is positive -/
theorem loc_pos (D2 : ℝ) (p : PosCyl) (hR : 0 < p.R) (hrho : (cylToAxi D2 p).rho ≠ 0) :
    0 < (getPosAxi D2 p).chi ∧ 0 < (getPosAxi D2 p).psi ∧ 0 < (getPosAxi D2 p).sinnu := by
  obtain ⟨e1, e2, e3, e4, hc, hp, hs, -⟩ := getPosAxi_spec D2 p hR.le (fun _ h => hR.ne' h.1)
  have hc' : 0 < (getPosAxi D2 p).chi := lt_of_le_of_ne hc (by rintro h; rw [← h, zero_mul] at e1; exact hR.ne' e1)
  have hs' : 0 < (getPosAxi D2 p).sinnu := lt_of_le_of_ne hs (by rintro h; rw [← h, mul_zero] at e1; exact hR.ne' e1)
  refine ⟨hc', ?_, hs'⟩
  unfold cylToAxi at hrho
  simp only at hrho
  split_ifs at hrho with h
  · nlinarith
  · exact lt_of_le_of_ne hp (Ne.symm hrho)

theorem alg_s {chi psi s c R' z' W : ℝ} (hc : chi ≠ 0) (hW : W ≠ 0) (h : W = (chi * c) ^ 2 + (psi * s) ^ 2) :
    (R' * chi - chi * s * (psi * (psi * s * R' + chi * c * z') * (1 / W))) / chi ^ 2 = c * (1 / W * (chi * c * R' - psi * s * z')) := by
  field_simp
  linear_combination R' * h
theorem alg_c {chi psi s c R' z' W : ℝ} (hc : psi ≠ 0) (hW : W ≠ 0) (h : W = (chi * c) ^ 2 + (psi * s) ^ 2) :
    (z' * psi - psi * c * (chi * (psi * s * R' + chi * c * z') * (1 / W))) / psi ^ 2 = -s * (1 / W * (chi * c * R' - psi * s * z')) := by
  field_simp
  linear_combination z' * h

/-- how chi, psi, sin ν, cos ν and M change along a curve -/
theorem loc_deriv (D2 : ℝ) {R z phi : ℝ → ℝ} {R' z' t : ℝ} (hR : HasDerivAt R R' t) (hz : HasDerivAt z z' t)
    (hR0 : 0 < R t) (hrho : (cylToAxi D2 ⟨R t, z t, phi t⟩).rho ≠ 0) :
    let l := fun s => getPosAxi D2 ⟨R s, z s, phi s⟩
    let M := 1 / (((l t).chi * (l t).cosnu) ^ 2 + ((l t).psi * (l t).sinnu) ^ 2)
    let w := (l t).psi * (l t).sinnu * R' + (l t).chi * (l t).cosnu * z'
    let nu' := M * ((l t).chi * (l t).cosnu * R' - (l t).psi * (l t).sinnu * z')
    HasDerivAt (fun s => (l s).chi) ((l t).psi * w * M) t ∧ HasDerivAt (fun s => (l s).psi) ((l t).chi * w * M) t ∧
    HasDerivAt (fun s => (l s).sinnu) ((l t).cosnu * nu') t ∧ HasDerivAt (fun s => (l s).cosnu) (-(l t).sinnu * nu') t ∧
    (∀ᶠ s in nhds t, 0 < R s ∧ 0 < (l s).chi ∧ 0 < (l s).psi ∧ 0 < (l s).sinnu) := by
  intro l M w nu'
  obtain ⟨e1, e2, e3, e4, -, -, -, -⟩ := getPosAxi_spec D2 ⟨R t, z t, phi t⟩ hR0.le (fun _ h => hR0.ne' h.1)
  obtain ⟨hc, hp, hs⟩ := loc_pos D2 ⟨R t, z t, phi t⟩ hR0 hrho
  obtain ⟨k1, k2, k3⟩ := loc_closed D2 ⟨R t, z t, phi t⟩ hR0.le (fun _ h => hR0.ne' h.1)
  have evR : ∀ᶠ s in nhds t, 0 < R s := hR.continuousAt.eventually (lt_mem_nhds hR0)
  -- derivatives of chi and psi from the closed form
  set dif : ℝ → ℝ := fun s => (R s ^ 2 + z s ^ 2 - D2) / 2 with hdif
  set det : ℝ → ℝ := fun s => √(dif s ^ 2 + R s ^ 2 * D2) with hdet
  have ddif : HasDerivAt dif (R t * R' + z t * z') t := by
    refine ((((hR.pow 2).add (hz.pow 2)).sub_const D2).div_const 2).congr_deriv ?_
    norm_num; ring
  have W0 : 0 < ((l t).chi * (l t).cosnu) ^ 2 + ((l t).psi * (l t).sinnu) ^ 2 := by
    have : 0 < (l t).psi * (l t).sinnu := mul_pos hp hs
    positivity
  have k1' : det t = (((l t).chi * (l t).cosnu) ^ 2 + ((l t).psi * (l t).sinnu) ^ 2) / 2 := k1
  have k2' : (l t).chi = √(det t + dif t) := k2
  have k3' : (l t).psi = √(det t + dif t + D2) := k3
  have e1' : R t = (l t).chi * (l t).sinnu := e1
  have e2' : z t = (l t).psi * (l t).cosnu := e2
  have e4' : (l t).psi ^ 2 = (l t).chi ^ 2 + D2 := e4
  have hc' : 0 < (l t).chi := hc
  have hp' : 0 < (l t).psi := hp
  have dt0 : 0 < det t := by rw [k1']; positivity
  have rad : dif t ^ 2 + R t ^ 2 * D2 ≠ 0 := by
    intro h
    have : det t = √(dif t ^ 2 + R t ^ 2 * D2) := rfl
    rw [h, sqrt_zero] at this
    linarith
  have ddet : HasDerivAt det ((dif t * (R t * R' + z t * z') + R t * R' * D2) / det t) t := by
    refine (((ddif.pow 2).add ((hR.pow 2).mul_const D2)).sqrt rad).congr_deriv ?_
    have : √(dif t ^ 2 + R t ^ 2 * D2) = det t := rfl
    simp only [Pi.add_apply, Pi.pow_apply, this]
    field_simp
    norm_num
    ring
  have chisq : (l t).chi ^ 2 = det t + dif t := by
    have : 0 < det t + dif t := by
      by_contra h; push Not at h
      rw [sqrt_eq_zero_of_nonpos h] at k2'; linarith
    rw [k2', sq_sqrt this.le]
  have cpos : det t + dif t ≠ 0 := by rw [← chisq]; positivity
  have ppos : det t + dif t + D2 ≠ 0 := by rw [← chisq, ← e4']; positivity
  have dchi' : HasDerivAt (fun s => √(det s + dif s)) ((l t).psi * w * M) t := by
    refine ((ddet.add ddif).sqrt cpos).congr_deriv ?_
    simp only [Pi.add_apply]
    rw [← k2']
    have hd : dif t = (l t).chi ^ 2 - det t := by linarith
    rw [hd, e1', e2', k1']
    simp only [M, w]
    have hD : D2 = (l t).psi ^ 2 - (l t).chi ^ 2 := by linarith
    rw [hD]
    have W1 := W0.ne'
    simp only [mul_pow] at W1 ⊢
    field_simp
    ring
  have dpsi' : HasDerivAt (fun s => √(det s + dif s + D2)) ((l t).chi * w * M) t := by
    refine (((ddet.add ddif).add_const D2).sqrt ppos).congr_deriv ?_
    simp only [Pi.add_apply]
    rw [← k3']
    have hd : dif t = (l t).chi ^ 2 - det t := by linarith
    rw [hd, e1', e2', k1']
    simp only [M, w]
    have hD : D2 = (l t).psi ^ 2 - (l t).chi ^ 2 := by linarith
    rw [hD]
    have W1 := W0.ne'
    simp only [mul_pow] at W1 ⊢
    field_simp
    ring
  have evchi : ∀ᶠ s in nhds t, (l s).chi = √(det s + dif s) := by
    filter_upwards [evR] with s hs
    exact (loc_closed D2 ⟨R s, z s, phi s⟩ hs.le (fun _ h => hs.ne' h.1)).2.1
  have evpsi : ∀ᶠ s in nhds t, (l s).psi = √(det s + dif s + D2) := by
    filter_upwards [evR] with s hs
    exact (loc_closed D2 ⟨R s, z s, phi s⟩ hs.le (fun _ h => hs.ne' h.1)).2.2
  have evcpos : ∀ᶠ s in nhds t, 0 < √(det s + dif s) :=
    dchi'.continuousAt.eventually (lt_mem_nhds (by simp only; rw [← k2']; exact hc'))
  have evppos : ∀ᶠ s in nhds t, 0 < √(det s + dif s + D2) :=
    dpsi'.continuousAt.eventually (lt_mem_nhds (by simp only; rw [← k3']; exact hp'))
  have hchi := dchi'.congr_of_eventuallyEq evchi
  have hpsi := dpsi'.congr_of_eventuallyEq evpsi
  have evsin : ∀ᶠ s in nhds t, (l s).sinnu = R s / (l s).chi := by
    filter_upwards [evR, evchi, evcpos] with s h1 h2 h3
    have := (getPosAxi_spec D2 ⟨R s, z s, phi s⟩ h1.le (fun _ h => h1.ne' h.1)).1
    have h4 : (l s).chi ≠ 0 := by rw [h2]; exact h3.ne'
    rw [eq_div_iff h4, mul_comm]
    exact this.symm
  have evcos : ∀ᶠ s in nhds t, (l s).cosnu = z s / (l s).psi := by
    filter_upwards [evR, evpsi, evppos] with s h1 h2 h3
    have := (getPosAxi_spec D2 ⟨R s, z s, phi s⟩ h1.le (fun _ h => h1.ne' h.1)).2.1
    have h4 : (l s).psi ≠ 0 := by rw [h2]; exact h3.ne'
    rw [eq_div_iff h4, mul_comm]
    exact this.symm
  refine ⟨hchi, hpsi, ?_, ?_, ?_⟩
  · refine ((hR.div hchi hc'.ne').congr_deriv ?_).congr_of_eventuallyEq evsin
    rw [e1']
    exact alg_s hc'.ne' W0.ne' rfl
  · refine ((hz.div hpsi hp'.ne').congr_deriv ?_).congr_of_eventuallyEq evcos
    rw [e2']
    exact alg_c hp'.ne' W0.ne' rfl
  · filter_upwards [evR, evchi, evcpos, evpsi, evppos, evsin] with s h1 h2 h3 h4 h5 h6
    refine ⟨h1, by rw [h2]; exact h3, by rw [h4]; exact h5, ?_⟩
    rw [h6]; exact div_pos h1 (by rw [h2]; exact h3)

/-- **C59**: the first derivatives of the map (R,z) → (ρ,ν), off the symmetry axis and off the focal disk -/
theorem C59_deriv_cyl_axi (D2 : ℝ) (p : PosCyl) (hR : 0 < p.R) (hrho : (cylToAxi D2 p).rho ≠ 0) :
    IsGradCyl (fun q => (cylToAxi D2 q).rho) p ⟨(derivCylAxi D2 p).drhodR, (derivCylAxi D2 p).drhodz, 0⟩ ∧
    IsGradCyl (fun q => (cylToAxi D2 q).cotnu.angle) p ⟨(derivCylAxi D2 p).dnudR, (derivCylAxi D2 p).dnudz, 0⟩ := by
  constructor
  · intro R z phi R' z' phi' t h1 h2 h3 e
    subst e
    obtain ⟨a, b, -⟩ := loc_deriv D2 (phi := phi) h1 h2 hR hrho
    by_cases hD : D2 ≥ 0
    · simp only [cylToAxi, derivCylAxi, hD, if_true]
      refine a.congr_deriv ?_
      ring
    · simp only [cylToAxi, derivCylAxi, hD, if_false]
      refine b.congr_deriv ?_
      ring
  · intro R z phi R' z' phi' t h1 h2 h3 e
    subst e
    obtain ⟨-, -, a, b, ev⟩ := loc_deriv D2 (phi := phi) h1 h2 hR hrho
    obtain ⟨-, -, hs⟩ := loc_pos D2 ⟨R t, z t, phi t⟩ hR hrho
    obtain ⟨-, -, e3, -⟩ := getPosAxi_spec D2 ⟨R t, z t, phi t⟩ hR.le (fun _ h => hR.ne' h.1)
    have ev' : ∀ᶠ s in nhds t, (cylToAxi D2 ⟨R s, z s, phi s⟩).cotnu.angle =
        π / 2 - arctan ((getPosAxi D2 ⟨R s, z s, phi s⟩).cosnu / (getPosAxi D2 ⟨R s, z s, phi s⟩).sinnu) := by
      filter_upwards [ev] with s hs
      simp only [cylToAxi, Cot.div]
      rw [if_pos hs.2.2.2.ne']
      rfl
    refine (((b.div a hs.ne').arctan.const_sub (π / 2)).congr_deriv ?_).congr_of_eventuallyEq ev'
    simp only [derivCylAxi]
    generalize hl : getPosAxi D2 ⟨R t, z t, phi t⟩ = l at *
    have c2 : l.cosnu ^ 2 = 1 - l.sinnu ^ 2 := by linarith
    have hw : 1 + (l.cosnu / l.sinnu) ^ 2 = 1 / l.sinnu ^ 2 := by field_simp; linarith
    simp only [Pi.div_apply]
    rw [hl, hw]
    generalize 1 / ((l.chi * l.cosnu) ^ 2 + (l.psi * l.sinnu) ^ 2) = M
    field_simp
    linear_combination M * (l.chi * l.cosnu * R' - l.psi * l.sinnu * z') * e3

example : IsGradCyl (fun q => (cylToAxi 0 q).rho) ⟨1, 2, 0⟩ ⟨(derivCylAxi 0 ⟨1, 2, 0⟩).drhodR, (derivCylAxi 0 ⟨1, 2, 0⟩).drhodz, 0⟩ := by
  refine (C59_deriv_cyl_axi 0 ⟨1, 2, 0⟩ (by norm_num) ?_).1
  have := (C59_cyl_axi_cyl 0 ⟨1, 2, 0⟩ (by norm_num) (by norm_num))
  intro h
  simp only [axiToCyl] at this
  obtain ⟨s, c, hs, hc, -⟩ := Cot.sin_cos_spec (cylToAxi 0 ⟨1, 2, 0⟩).cotnu (by
    intro hn; rw [hn] at this; simp [Cot.sin] at this)
  simp [hs, hc, h, chiOf] at this

/-! ### second derivatives -/

/-- the value of the derivative of `W = (chi cos ν)² + (psi sin ν)²` -/
theorem hasDerivAt_W {chi psi sn cs : ℝ → ℝ} {W w nu' t D2 : ℝ} (h1 : HasDerivAt chi (psi t * w * (1 / W)) t)
    (h2 : HasDerivAt psi (chi t * w * (1 / W)) t) (h3 : HasDerivAt sn (cs t * nu') t) (h4 : HasDerivAt cs (-sn t * nu') t)
    (h5 : sn t ^ 2 + cs t ^ 2 = 1) (h6 : psi t ^ 2 = chi t ^ 2 + D2) (hW0 : W ≠ 0)
    (hW : W = (chi t * cs t) ^ 2 + (psi t * sn t) ^ 2) :
    HasDerivAt (fun s => 1 / ((chi s * cs s) ^ 2 + (psi s * sn s) ^ 2))
      (-(2 * (chi t * psi t * w / W + D2 * sn t * cs t * nu')) / W ^ 2) t := by
  have a : HasDerivAt (fun s => (chi s * cs s) ^ 2 + (psi s * sn s) ^ 2) (2 * (chi t * psi t * w / W + D2 * sn t * cs t * nu')) t := by
    refine (((h1.mul h4).pow 2).add ((h2.mul h3).pow 2)).congr_deriv ?_
    have hD : D2 = psi t ^ 2 - chi t ^ 2 := by linarith
    rw [hD]
    simp only [Pi.mul_apply]
    norm_num
    field_simp
    linear_combination (chi t * psi t * w) * h5
  have b := (hasDerivAt_const t (1:ℝ)).div a (by rw [← hW]; exact hW0)
  refine b.congr_deriv ?_
  rw [← hW]; ring

section algebra
set_option linter.unusedSimpArgs false
variable {chi psi s c D2 W R' z' : ℝ}

theorem alg_A1 (h5 : s ^ 2 + c ^ 2 = 1) (h6 : psi ^ 2 = chi ^ 2 + D2) (hW0 : W ≠ 0) (hW : W = (chi * c) ^ 2 + (psi * s) ^ 2)
    (w nu' : ℝ) (hw : w = psi * s * R' + chi * c * z') (hn : nu' = 1 / W * (chi * c * R' - psi * s * z')) :
    (((-(2 * (chi * psi * w / W + D2 * s * c * nu')) / W ^ 2) * psi + (1 / W) * (chi * w * (1 / W))) * s + (1 / W) * psi * (c * nu')) * psi + (1 / W) * psi * s * (chi * w * (1 / W)) =
    (1 / W) ^ 2 * psi * (chi * psi * c ^ 2 * (1 - 4 * (1 / W) * D2 * s ^ 2) + 0) * R' +
    (1 / W) ^ 2 * c * s * psi * (chi ^ 2 + (1 / W) * ((chi * chi * c) ^ 2 + (psi * psi * s) ^ 2 - 3 * (chi * psi) ^ 2)) * z' := by
  have hD : D2 = psi ^ 2 - chi ^ 2 := by linarith
  have c2 : c ^ 2 = 1 - s ^ 2 := by linarith
  have hW' : W = chi ^ 2 + D2 * s ^ 2 := by rw [hW, hD, mul_pow, mul_pow, c2]; ring
  rw [hn, hw]
  field_simp
  rw [hW', hD]
  have c3 : c ^ 3 = c * (1 - s ^ 2) := by rw [← c2]; ring
  have c4 : c ^ 4 = (1 - s ^ 2) ^ 2 := by rw [← c2]; ring
  have c5 : c ^ 5 = c * (1 - s ^ 2) ^ 2 := by rw [← c2]; ring
  ring_nf
  simp only [c2, c3, c4, c5]
  ring

theorem alg_A2 (h5 : s ^ 2 + c ^ 2 = 1) (h6 : psi ^ 2 = chi ^ 2 + D2) (hW0 : W ≠ 0) (hW : W = (chi * c) ^ 2 + (psi * s) ^ 2)
    (w nu' : ℝ) (hw : w = psi * s * R' + chi * c * z') (hn : nu' = 1 / W * (chi * c * R' - psi * s * z')) :
    (((-(2 * (chi * psi * w / W + D2 * s * c * nu')) / W ^ 2) * chi + (1 / W) * (psi * w * (1 / W))) * c + (1 / W) * chi * (-s * nu')) * psi + (1 / W) * chi * c * (chi * w * (1 / W)) =
    (1 / W) ^ 2 * c * s * psi * (chi ^ 2 + (1 / W) * ((chi * chi * c) ^ 2 + (psi * psi * s) ^ 2 - 3 * (chi * psi) ^ 2)) * R' +
    (1 / W) ^ 2 * chi * (psi * psi * s ^ 2 * (1 + 4 * (1 / W) * D2 * c ^ 2) - D2 * c ^ 2) * z' := by
  have hD : D2 = psi ^ 2 - chi ^ 2 := by linarith
  have c2 : c ^ 2 = 1 - s ^ 2 := by linarith
  have hW' : W = chi ^ 2 + D2 * s ^ 2 := by rw [hW, hD, mul_pow, mul_pow, c2]; ring
  rw [hn, hw]
  field_simp
  rw [hW', hD]
  have c3 : c ^ 3 = c * (1 - s ^ 2) := by rw [← c2]; ring
  have c4 : c ^ 4 = (1 - s ^ 2) ^ 2 := by rw [← c2]; ring
  have c5 : c ^ 5 = c * (1 - s ^ 2) ^ 2 := by rw [← c2]; ring
  ring_nf
  simp only [c2, c3, c4, c5]
  ring

theorem alg_B1 (h5 : s ^ 2 + c ^ 2 = 1) (h6 : psi ^ 2 = chi ^ 2 + D2) (hW0 : W ≠ 0) (hW : W = (chi * c) ^ 2 + (psi * s) ^ 2)
    (w nu' : ℝ) (hw : w = psi * s * R' + chi * c * z') (hn : nu' = 1 / W * (chi * c * R' - psi * s * z')) :
    (((-(2 * (chi * psi * w / W + D2 * s * c * nu')) / W ^ 2) * psi + (1 / W) * (chi * w * (1 / W))) * s + (1 / W) * psi * (c * nu')) * chi + (1 / W) * psi * s * (psi * w * (1 / W)) =
    (1 / W) ^ 2 * psi * (chi * chi * c ^ 2 * (1 - 4 * (1 / W) * D2 * s ^ 2) + D2 * s ^ 2) * R' +
    (1 / W) ^ 2 * c * s * chi * (psi ^ 2 + (1 / W) * ((chi * chi * c) ^ 2 + (psi * psi * s) ^ 2 - 3 * (chi * psi) ^ 2)) * z' := by
  have hD : D2 = psi ^ 2 - chi ^ 2 := by linarith
  have c2 : c ^ 2 = 1 - s ^ 2 := by linarith
  have hW' : W = chi ^ 2 + D2 * s ^ 2 := by rw [hW, hD, mul_pow, mul_pow, c2]; ring
  rw [hn, hw]
  field_simp
  rw [hW', hD]
  have c3 : c ^ 3 = c * (1 - s ^ 2) := by rw [← c2]; ring
  have c4 : c ^ 4 = (1 - s ^ 2) ^ 2 := by rw [← c2]; ring
  have c5 : c ^ 5 = c * (1 - s ^ 2) ^ 2 := by rw [← c2]; ring
  ring_nf
  simp only [c2, c3, c4, c5]
  ring

theorem alg_B2 (h5 : s ^ 2 + c ^ 2 = 1) (h6 : psi ^ 2 = chi ^ 2 + D2) (hW0 : W ≠ 0) (hW : W = (chi * c) ^ 2 + (psi * s) ^ 2)
    (w nu' : ℝ) (hw : w = psi * s * R' + chi * c * z') (hn : nu' = 1 / W * (chi * c * R' - psi * s * z')) :
    (((-(2 * (chi * psi * w / W + D2 * s * c * nu')) / W ^ 2) * chi + (1 / W) * (psi * w * (1 / W))) * c + (1 / W) * chi * (-s * nu')) * chi + (1 / W) * chi * c * (psi * w * (1 / W)) =
    (1 / W) ^ 2 * c * s * chi * (psi ^ 2 + (1 / W) * ((chi * chi * c) ^ 2 + (psi * psi * s) ^ 2 - 3 * (chi * psi) ^ 2)) * R' +
    (1 / W) ^ 2 * chi * (psi * chi * s ^ 2 * (1 + 4 * (1 / W) * D2 * c ^ 2) - 0) * z' := by
  have hD : D2 = psi ^ 2 - chi ^ 2 := by linarith
  have c2 : c ^ 2 = 1 - s ^ 2 := by linarith
  have hW' : W = chi ^ 2 + D2 * s ^ 2 := by rw [hW, hD, mul_pow, mul_pow, c2]; ring
  rw [hn, hw]
  field_simp
  rw [hW', hD]
  have c3 : c ^ 3 = c * (1 - s ^ 2) := by rw [← c2]; ring
  have c4 : c ^ 4 = (1 - s ^ 2) ^ 2 := by rw [← c2]; ring
  have c5 : c ^ 5 = c * (1 - s ^ 2) ^ 2 := by rw [← c2]; ring
  ring_nf
  simp only [c2, c3, c4, c5]
  ring

theorem alg_N1 (h5 : s ^ 2 + c ^ 2 = 1) (h6 : psi ^ 2 = chi ^ 2 + D2) (hW0 : W ≠ 0) (hW : W = (chi * c) ^ 2 + (psi * s) ^ 2)
    (w nu' : ℝ) (hw : w = psi * s * R' + chi * c * z') (hn : nu' = 1 / W * (chi * c * R' - psi * s * z')) :
    ((-(2 * (chi * psi * w / W + D2 * s * c * nu')) / W ^ 2) * chi + (1 / W) * (psi * w * (1 / W))) * c + (1 / W) * chi * (-s * nu') =
    (1 / W) ^ 3 * c * s * ((chi * chi * c) ^ 2 + (psi * psi * s) ^ 2 - 3 * (chi * psi) ^ 2) * R' +
    (1 / W) ^ 3 * psi * chi * ((psi * s) ^ 2 * (3 - 2 * s ^ 2) - (chi * c) ^ 2 * (3 - 2 * c ^ 2)) * z' := by
  have hD : D2 = psi ^ 2 - chi ^ 2 := by linarith
  have c2 : c ^ 2 = 1 - s ^ 2 := by linarith
  have hW' : W = chi ^ 2 + D2 * s ^ 2 := by rw [hW, hD, mul_pow, mul_pow, c2]; ring
  rw [hn, hw]
  field_simp
  rw [hW', hD]
  have c3 : c ^ 3 = c * (1 - s ^ 2) := by rw [← c2]; ring
  have c4 : c ^ 4 = (1 - s ^ 2) ^ 2 := by rw [← c2]; ring
  have c5 : c ^ 5 = c * (1 - s ^ 2) ^ 2 := by rw [← c2]; ring
  ring_nf
  simp only [c2, c3, c4, c5]
  ring

theorem alg_N2 (h5 : s ^ 2 + c ^ 2 = 1) (h6 : psi ^ 2 = chi ^ 2 + D2) (hW0 : W ≠ 0) (hW : W = (chi * c) ^ 2 + (psi * s) ^ 2)
    (w nu' : ℝ) (hw : w = psi * s * R' + chi * c * z') (hn : nu' = 1 / W * (chi * c * R' - psi * s * z')) :
    ((-(2 * (chi * psi * w / W + D2 * s * c * nu')) / W ^ 2) * psi + (1 / W) * (chi * w * (1 / W))) * s + (1 / W) * psi * (c * nu') =
    -((1 / W) ^ 3 * psi * chi * ((psi * s) ^ 2 * (3 - 2 * s ^ 2) - (chi * c) ^ 2 * (3 - 2 * c ^ 2))) * R' +
    (1 / W) ^ 3 * c * s * ((chi * chi * c) ^ 2 + (psi * psi * s) ^ 2 - 3 * (chi * psi) ^ 2) * z' := by
  have hD : D2 = psi ^ 2 - chi ^ 2 := by linarith
  have c2 : c ^ 2 = 1 - s ^ 2 := by linarith
  have hW' : W = chi ^ 2 + D2 * s ^ 2 := by rw [hW, hD, mul_pow, mul_pow, c2]; ring
  rw [hn, hw]
  field_simp
  rw [hW', hD]
  have c3 : c ^ 3 = c * (1 - s ^ 2) := by rw [← c2]; ring
  have c4 : c ^ 4 = (1 - s ^ 2) ^ 2 := by rw [← c2]; ring
  have c5 : c ^ 5 = c * (1 - s ^ 2) ^ 2 := by rw [← c2]; ring
  ring_nf
  simp only [c2, c3, c4, c5]
  ring

end algebra

/-- the gradient of ρ returned by the code, as a function of the point -/
noncomputable def gradRho (D2 : ℝ) (q : PosCyl) : GradCyl := ⟨(derivCylAxi D2 q).drhodR, (derivCylAxi D2 q).drhodz, 0⟩
/-- the gradient of ν returned by the code, as a function of the point -/
noncomputable def gradNu (D2 : ℝ) (q : PosCyl) : GradCyl := ⟨(derivCylAxi D2 q).dnudR, (derivCylAxi D2 q).dnudz, 0⟩

/-- **C59**: the second derivatives of the map (R,z) → (ρ,ν), off the symmetry axis and off the focal disk -/
theorem C59_deriv2_cyl_axi (D2 : ℝ) (p : PosCyl) (hR : 0 < p.R) (hrho : (cylToAxi D2 p).rho ≠ 0) :
    let d := deriv2CylAxi D2 p
    IsHessCyl (gradRho D2) p ⟨d.d2rhodR2, d.d2rhodz2, 0, d.d2rhodRdz, 0, 0⟩ ∧
    IsHessCyl (gradNu D2) p ⟨d.d2nudR2, d.d2nudz2, 0, d.d2nudRdz, 0, 0⟩ := by
  intro d
  have key : ∀ (R z phi : ℝ → ℝ) (R' z' t : ℝ), HasDerivAt R R' t → HasDerivAt z z' t → (⟨R t, z t, phi t⟩ : PosCyl) = p →
      HasDerivAt (fun s => (derivCylAxi D2 ⟨R s, z s, phi s⟩).drhodR) (d.d2rhodR2 * R' + d.d2rhodRdz * z') t ∧
      HasDerivAt (fun s => (derivCylAxi D2 ⟨R s, z s, phi s⟩).drhodz) (d.d2rhodRdz * R' + d.d2rhodz2 * z') t ∧
      HasDerivAt (fun s => (derivCylAxi D2 ⟨R s, z s, phi s⟩).dnudR) (d.d2nudR2 * R' + d.d2nudRdz * z') t ∧
      HasDerivAt (fun s => (derivCylAxi D2 ⟨R s, z s, phi s⟩).dnudz) (d.d2nudRdz * R' + d.d2nudz2 * z') t := by
    intro R z phi R' z' t h1 h2 e
    subst e
    obtain ⟨k1, k2, k3, k4, -⟩ := loc_deriv D2 (phi := phi) h1 h2 hR hrho
    obtain ⟨-, hp, hs⟩ := loc_pos D2 ⟨R t, z t, phi t⟩ hR hrho
    obtain ⟨-, -, e3, e4, -⟩ := getPosAxi_spec D2 ⟨R t, z t, phi t⟩ hR.le (fun _ h => hR.ne' h.1)
    have hW0 : ((getPosAxi D2 ⟨R t, z t, phi t⟩).chi * (getPosAxi D2 ⟨R t, z t, phi t⟩).cosnu) ^ 2 +
        ((getPosAxi D2 ⟨R t, z t, phi t⟩).psi * (getPosAxi D2 ⟨R t, z t, phi t⟩).sinnu) ^ 2 ≠ 0 := by
      have : 0 < (getPosAxi D2 ⟨R t, z t, phi t⟩).psi * (getPosAxi D2 ⟨R t, z t, phi t⟩).sinnu := mul_pos hp hs
      positivity
    have kM := hasDerivAt_W (chi := fun s => (getPosAxi D2 ⟨R s, z s, phi s⟩).chi) (psi := fun s => (getPosAxi D2 ⟨R s, z s, phi s⟩).psi)
      (sn := fun s => (getPosAxi D2 ⟨R s, z s, phi s⟩).sinnu) (cs := fun s => (getPosAxi D2 ⟨R s, z s, phi s⟩).cosnu)
      k1 k2 k3 k4 e3 e4 hW0 rfl
    have e3' : (getPosAxi D2 ⟨R t, z t, phi t⟩).sinnu ^ 2 + (getPosAxi D2 ⟨R t, z t, phi t⟩).cosnu ^ 2 = 1 := e3
    refine ⟨?_, ?_, ?_, ?_⟩
    · by_cases hD : D2 ≥ 0
      · simp only [derivCylAxi, hD, if_true, d, deriv2CylAxi]
        refine (((kM.mul k2).mul k3).mul k2).congr_deriv ?_
        exact alg_A1 e3' e4 hW0 rfl _ _ rfl rfl
      · simp only [derivCylAxi, hD, if_false, d, deriv2CylAxi]
        refine (((kM.mul k2).mul k3).mul k1).congr_deriv ?_
        exact alg_B1 e3' e4 hW0 rfl _ _ rfl rfl
    · by_cases hD : D2 ≥ 0
      · have hite : ∀ x : ℝ, (open Classical in if D2 ≤ 0 then 0 else D2 * x) = D2 * x := by
          intro x; split_ifs with h
          · rw [le_antisymm h hD]; ring
          · rfl
        simp only [derivCylAxi, hD, if_true, d, deriv2CylAxi, hite]
        refine (((kM.mul k1).mul k4).mul k2).congr_deriv ?_
        exact alg_A2 e3' e4 hW0 rfl _ _ rfl rfl
      · have hD' : D2 ≤ 0 := (not_le.mp hD).le
        simp only [derivCylAxi, hD, if_false, d, deriv2CylAxi, hD', if_true]
        refine (((kM.mul k1).mul k4).mul k1).congr_deriv ?_
        exact alg_B2 e3' e4 hW0 rfl _ _ rfl rfl
    · simp only [derivCylAxi, d, deriv2CylAxi]
      refine ((kM.mul k1).mul k4).congr_deriv ?_
      exact alg_N1 e3' e4 hW0 rfl _ _ rfl rfl
    · simp only [derivCylAxi, d, deriv2CylAxi]
      refine ((kM.neg.mul k2).mul k3).congr_deriv ?_
      have := alg_N2 e3' e4 hW0 rfl _ _ (R' := R') (z' := z') rfl rfl
      simp only [Pi.neg_apply, Pi.mul_apply]
      linear_combination -this
  refine ⟨⟨?_, ?_, ?_⟩, ?_, ?_, ?_⟩
  · intro R z phi R' z' phi' t h1 h2 h3 e
    exact ((key R z phi R' z' t h1 h2 e).1).congr_deriv (by ring)
  · intro R z phi R' z' phi' t h1 h2 h3 e
    exact ((key R z phi R' z' t h1 h2 e).2.1).congr_deriv (by ring)
  · intro R z phi R' z' phi' t h1 h2 h3 e
    exact (hasDerivAt_const t (0:ℝ)).congr_deriv (by ring)
  · intro R z phi R' z' phi' t h1 h2 h3 e
    exact ((key R z phi R' z' t h1 h2 e).2.2.1).congr_deriv (by ring)
  · intro R z phi R' z' phi' t h1 h2 h3 e
    exact ((key R z phi R' z' t h1 h2 e).2.2.2).congr_deriv (by ring)
  · intro R z phi R' z' phi' t h1 h2 h3 e
    exact (hasDerivAt_const t (0:ℝ)).congr_deriv (by ring)

/-- the point in terms of the angle ν -/
noncomputable def PosAxi.toNu (q : PosAxi) : PosNu := ⟨q.rho, q.cotnu.angle, q.phi⟩

/-- **C59**: the velocity components are `h_ρ dρ/dt` and `h_ν dν/dt` with the scale factors
`h_ρ = √(chi² + Δ² sin²ν) / √(ρ²+|Δ²|)` and `h_ν = √(chi² + Δ² sin²ν)` of the coordinate system (`h_ρ = 1` if Δ² = 0) -/
theorem C59_velocity (D2 : ℝ) (R z phi : ℝ → ℝ) (t vR vz vphi : ℝ) (h1 : HasDerivAt R vR t) (h2 : HasDerivAt z vz t)
    (hR : 0 < R t) (hrho : (cylToAxi D2 ⟨R t, z t, phi t⟩).rho ≠ 0) :
    let l := getPosAxi D2 ⟨R t, z t, phi t⟩
    let h := √(l.chi ^ 2 + D2 * l.sinnu ^ 2)
    let eta := open Classical in if D2 ≥ 0 then l.psi else l.chi
    let v := vCylToAxi D2 ⟨R t, z t, phi t, vR, vz, vphi⟩
    HasDerivAt (fun s => (cylToAxi D2 ⟨R s, z s, phi s⟩).rho) (v.vrho / (h / eta)) t ∧
    HasDerivAt (fun s => (cylToAxi D2 ⟨R s, z s, phi s⟩).cotnu.angle) (v.vnu / h) t := by
  intro l h eta v
  obtain ⟨a, b⟩ := C59_deriv_cyl_axi D2 ⟨R t, z t, phi t⟩ hR hrho
  have a' := a R z (fun _ => phi t) vR vz 0 t h1 h2 (hasDerivAt_const _ _) rfl
  have b' := b R z (fun _ => phi t) vR vz 0 t h1 h2 (hasDerivAt_const _ _) rfl
  obtain ⟨hc, hp, hs⟩ := loc_pos D2 ⟨R t, z t, phi t⟩ hR hrho
  obtain ⟨e1, e2, e3, e4, -⟩ := getPosAxi_spec D2 ⟨R t, z t, phi t⟩ hR.le (fun _ h => hR.ne' h.1)
  change 0 < l.chi at hc
  change 0 < l.psi at hp
  change 0 < l.sinnu at hs
  change R t = l.chi * l.sinnu at e1
  change z t = l.psi * l.cosnu at e2
  change l.sinnu ^ 2 + l.cosnu ^ 2 = 1 at e3
  change l.psi ^ 2 = l.chi ^ 2 + D2 at e4
  have hh : l.chi ^ 2 + D2 * l.sinnu ^ 2 = (l.chi * l.cosnu) ^ 2 + (l.psi * l.sinnu) ^ 2 := by
    rw [mul_pow, mul_pow, e4]; linear_combination -l.chi ^ 2 * e3
  have W0 : 0 < (l.chi * l.cosnu) ^ 2 + (l.psi * l.sinnu) ^ 2 := by
    have : 0 < l.psi * l.sinnu := mul_pos hp hs
    positivity
  have hpos : 0 < h := sqrt_pos.mpr (by rw [hh]; exact W0)
  have hsq : h ^ 2 = (l.chi * l.cosnu) ^ 2 + (l.psi * l.sinnu) ^ 2 := by rw [← hh]; exact sq_sqrt (by rw [hh]; exact W0.le)
  have heta : 0 < eta := by simp only [eta]; split_ifs <;> assumption
  have hv : v.vrho = (l.psi * l.sinnu * vR + l.chi * l.cosnu * vz) / h ∧ v.vnu = (l.chi * l.cosnu * vR - l.psi * l.sinnu * vz) / h := by
    by_cases hD : D2 = 0
    · subst hD
      have ecp : l.psi = l.chi := (sq_eq_sq₀ hp.le hc.le).mp (by rw [e4, add_zero])
      have hr : √(R t ^ 2 + z t ^ 2) = l.chi := by
        rw [e1, e2, ecp, show (l.chi * l.sinnu) ^ 2 + (l.chi * l.cosnu) ^ 2 = l.chi ^ 2 by linear_combination l.chi ^ 2 * e3, sqrt_sq hc.le]
      have hhc : h = l.chi := by simp only [h]; rw [zero_mul, add_zero, sqrt_sq hc.le]
      have hne : ¬ (R t = 0 ∧ z t = 0) := fun h => hR.ne' h.1
      simp only [v, vCylToAxi, hne, if_true, if_false, hr, hhc]
      rw [e1, e2, ecp]
      constructor <;> field_simp
    · have hd : √((l.chi * l.cosnu) ^ 2 + (l.psi * l.sinnu) ^ 2) = h := by rw [← hh]
      have hl : getPosAxi D2 (PosVelCyl.pos ⟨R t, z t, phi t, vR, vz, vphi⟩) = l := rfl
      simp only [v, vCylToAxi, hD, if_false, hl, hd, ne_eq, hpos.ne', not_false_eq_true, if_true]
      constructor <;> field_simp
  have phi_ind : ∀ s, (cylToAxi D2 ⟨R s, z s, phi s⟩).rho = (cylToAxi D2 ⟨R s, z s, phi t⟩).rho ∧
      (cylToAxi D2 ⟨R s, z s, phi s⟩).cotnu = (cylToAxi D2 ⟨R s, z s, phi t⟩).cotnu := fun s => ⟨rfl, rfl⟩
  constructor
  · refine a'.congr_deriv ?_
    simp only [derivCylAxi]
    change 1 / ((l.chi * l.cosnu) ^ 2 + (l.psi * l.sinnu) ^ 2) * l.psi * l.sinnu * eta * vR +
      1 / ((l.chi * l.cosnu) ^ 2 + (l.psi * l.sinnu) ^ 2) * l.chi * l.cosnu * eta * vz + 0 * 0 = _
    rw [hv.1, ← hsq]
    field_simp
    ring
  · refine b'.congr_deriv ?_
    simp only [derivCylAxi]
    change 1 / ((l.chi * l.cosnu) ^ 2 + (l.psi * l.sinnu) ^ 2) * l.chi * l.cosnu * vR +
      -(1 / ((l.chi * l.cosnu) ^ 2 + (l.psi * l.sinnu) ^ 2)) * l.psi * l.sinnu * vz + 0 * 0 = _
    rw [hv.2, ← hsq]
    field_simp
    ring

/-! ### chain rules for gradients and Hessians -/

/-- **C59**: `toGrad<Axi,Cyl>` is the gradient of the function expressed in cylindrical coordinates -/
theorem C59_grad_axi_cyl (D2 : ℝ) (F : PosNu → ℝ) (p : PosCyl) (g : GradAxi) (hR : 0 < p.R) (hrho : (cylToAxi D2 p).rho ≠ 0)
    (hF : IsGradNu F (cylToAxi D2 p).toNu g) :
    IsGradCyl (fun q => F (cylToAxi D2 q).toNu) p (toGradAxiCyl g (derivCylAxi D2 p)) := by
  obtain ⟨k1, k2⟩ := C59_deriv_cyl_axi D2 p hR hrho
  intro R z phi R' z' phi' t h1 h2 h3 e
  have a := k1 R z phi R' z' phi' t h1 h2 h3 e
  have b := k2 R z phi R' z' phi' t h1 h2 h3 e
  subst e
  refine (hF _ _ _ _ _ _ t a b h3 rfl).congr_deriv ?_
  simp only [toGradAxiCyl]; ring

/-- **C59**: `toGrad<Cyl,Axi>` is the gradient of the function expressed in (ρ,ν,φ) -/
theorem C59_grad_cyl_axi (D2 : ℝ) (F : PosCyl → ℝ) (q : PosNu) (g : GradCyl) (hn : 0 < q.nu ∧ q.nu < π) (h0 : D2 ≠ 0 ∨ 0 < q.rho)
    (hF : IsGradCyl F ⟨Rof D2 q, zof D2 q, q.phi⟩ g) :
    ∃ d, derivAxiCyl D2 q.toAxi = some d ∧
      IsGradNu (fun q => F ⟨Rof D2 q, zof D2 q, q.phi⟩) q (toGradCylAxi g d) := by
  obtain ⟨d, hd, k1, k2⟩ := C59_deriv_axi_cyl D2 q hn h0
  refine ⟨d, hd, ?_⟩
  intro rho nu phi rho' nu' phi' t h1 h2 h3 e
  have a := k1 rho nu phi rho' nu' phi' t h1 h2 h3 e
  have b := k2 rho nu phi rho' nu' phi' t h1 h2 h3 e
  subst e
  refine (hF _ _ _ _ _ _ t a b h3 rfl).congr_deriv ?_
  simp only [toGradCylAxi]; ring

/-- **C59**: `toHess<Axi,Cyl>` is the Hessian of the function expressed in cylindrical coordinates -/
theorem C59_hess_axi_cyl (D2 : ℝ) (G : PosNu → GradAxi) (p : PosCyl) (H : HessAxi) (hR : 0 < p.R) (hrho : (cylToAxi D2 p).rho ≠ 0)
    (hG : IsHessNu G (cylToAxi D2 p).toNu H) :
    IsHessCyl (fun q => toGradAxiCyl (G (cylToAxi D2 q).toNu) (derivCylAxi D2 q)) p
      (toHessAxiCyl (G (cylToAxi D2 p).toNu) H (derivCylAxi D2 p) (deriv2CylAxi D2 p)) := by
  obtain ⟨k1, k2⟩ := C59_deriv_cyl_axi D2 p hR hrho
  obtain ⟨⟨m1, m2, -⟩, m3, m4, -⟩ := C59_deriv2_cyl_axi D2 p hR hrho
  obtain ⟨g1, g2, g3⟩ := hG
  refine ⟨?_, ?_, ?_⟩
  all_goals
    intro R z phi R' z' phi' t h1 h2 h3 e
    have a := k1 R z phi R' z' phi' t h1 h2 h3 e
    have b := k2 R z phi R' z' phi' t h1 h2 h3 e
    have c1 := m1 R z phi R' z' phi' t h1 h2 h3 e
    have c2 := m2 R z phi R' z' phi' t h1 h2 h3 e
    have c3 := m3 R z phi R' z' phi' t h1 h2 h3 e
    have c4 := m4 R z phi R' z' phi' t h1 h2 h3 e
    subst e
    have u1 := g1 _ _ _ _ _ _ t a b h3 rfl
    have u2 := g2 _ _ _ _ _ _ t a b h3 rfl
    have u3 := g3 _ _ _ _ _ _ t a b h3 rfl
  · refine ((u1.mul c1).add (u2.mul c3)).congr_deriv ?_
    simp only [toHessAxiCyl, gradRho, gradNu, PosAxi.toNu]; simp only [cylToAxi]; ring
  · refine ((u1.mul c2).add (u2.mul c4)).congr_deriv ?_
    simp only [toHessAxiCyl, gradRho, gradNu, PosAxi.toNu]; simp only [cylToAxi]; ring
  · refine u3.congr_deriv ?_
    simp only [toHessAxiCyl]; ring

/-- **C59**: `toHess<Cyl,Axi>` is the Hessian of the function expressed in (ρ,ν,φ) -/
theorem C59_hess_cyl_axi (D2 : ℝ) (G : PosCyl → GradCyl) (q : PosNu) (H : HessCyl) (hn : 0 < q.nu ∧ q.nu < π) (h0 : D2 ≠ 0 ∨ 0 < q.rho)
    (hG : IsHessCyl G ⟨Rof D2 q, zof D2 q, q.phi⟩ H) :
    ∃ d d2, derivAxiCyl D2 q.toAxi = some d ∧ deriv2AxiCyl D2 q.toAxi = some d2 ∧
      IsHessNu (fun q => match derivAxiCyl D2 q.toAxi with
        | some d => toGradCylAxi (G ⟨Rof D2 q, zof D2 q, q.phi⟩) d | none => ⟨0, 0, 0⟩) q
        (toHessCylAxi (G ⟨Rof D2 q, zof D2 q, q.phi⟩) H d d2) := by
  have hs := sin_pos_of_pos_of_lt_pi hn.1 hn.2
  obtain ⟨d, hd, k1, k2⟩ := C59_deriv_axi_cyl D2 q hn h0
  obtain ⟨d2, hd2, ⟨m1, m2, -⟩, m3, m4, -⟩ := C59_deriv2_axi_cyl D2 q hn h0
  obtain ⟨g1, g2, g3⟩ := hG
  refine ⟨d, d2, hd, hd2, ?_⟩
  have hcode : ∀ q : PosNu, 0 < sin q.nu → (match derivAxiCyl D2 q.toAxi with
        | some d => toGradCylAxi (G ⟨Rof D2 q, zof D2 q, q.phi⟩) d | none => ⟨0, 0, 0⟩) =
      (⟨(G ⟨Rof D2 q, zof D2 q, q.phi⟩).dR * (gradR D2 q).drho + (G ⟨Rof D2 q, zof D2 q, q.phi⟩).dz * (gradZ D2 q).drho,
        (G ⟨Rof D2 q, zof D2 q, q.phi⟩).dR * (gradR D2 q).dnu + (G ⟨Rof D2 q, zof D2 q, q.phi⟩).dz * (gradZ D2 q).dnu,
        (G ⟨Rof D2 q, zof D2 q, q.phi⟩).dphi⟩ : GradAxi) := by
    intro q hs
    obtain ⟨a, b⟩ := sin_cos_toAxi q hs
    have : ∃ d, derivAxiCyl D2 q.toAxi = some d :=
      ⟨_, by simp only [derivAxiCyl, a, b, Option.pure_def, Option.bind_eq_bind, Option.bind_some]; rfl⟩
    obtain ⟨d, hd⟩ := this
    simp only [hd, gradR, gradZ, toGradCylAxi]
  have gr : gradR D2 q = ⟨d.dRdrho, d.dRdnu, 0⟩ := by simp only [gradR, hd]
  have gz : gradZ D2 q = ⟨d.dzdrho, d.dzdnu, 0⟩ := by simp only [gradZ, hd]
  refine ⟨?_, ?_, ?_⟩
  all_goals
    intro rho nu phi rho' nu' phi' t h1 h2 h3 e
    have a := k1 rho nu phi rho' nu' phi' t h1 h2 h3 e
    have b := k2 rho nu phi rho' nu' phi' t h1 h2 h3 e
    have c1 := m1 rho nu phi rho' nu' phi' t h1 h2 h3 e
    have c2 := m2 rho nu phi rho' nu' phi' t h1 h2 h3 e
    have c3 := m3 rho nu phi rho' nu' phi' t h1 h2 h3 e
    have c4 := m4 rho nu phi rho' nu' phi' t h1 h2 h3 e
    subst e
    have u1 := g1 _ _ _ _ _ _ t a b h3 rfl
    have u2 := g2 _ _ _ _ _ _ t a b h3 rfl
    have u3 := g3 _ _ _ _ _ _ t a b h3 rfl
    have ev : ∀ᶠ s in nhds t, 0 < sin (nu s) := h2.sin.continuousAt.eventually (lt_mem_nhds hs)
  · refine (((u1.mul c1).add (u2.mul c3)).congr_deriv ?_).congr_of_eventuallyEq
      (ev.mono fun s hs => by simp only [hcode ⟨rho s, nu s, phi s⟩ hs]; rfl)
    simp only [gr, gz, toHessCylAxi]; ring
  · refine (((u1.mul c2).add (u2.mul c4)).congr_deriv ?_).congr_of_eventuallyEq
      (ev.mono fun s hs => by simp only [hcode ⟨rho s, nu s, phi s⟩ hs]; rfl)
    simp only [gr, gz, toHessCylAxi]; ring
  · refine (u3.congr_deriv ?_).congr_of_eventuallyEq
      (ev.mono fun s hs => by simp only [hcode ⟨rho s, nu s, phi s⟩ hs])
    simp only [toHessCylAxi]; ring

/-- the hypotheses of the chain rules are met by, e.g., F = ρ ν -/
example : IsGradNu (fun q => q.rho * q.nu) ⟨2, 1, 0⟩ ⟨1, 2, 0⟩ ∧ IsHessNu (fun q => ⟨q.nu, q.rho, 0⟩) ⟨2, 1, 0⟩ ⟨0, 0, 0, 1, 0, 0⟩ := by
  refine ⟨?_, ?_, ?_, ?_⟩
  all_goals
    intro rho nu phi rho' nu' phi' t h1 h2 h3 e
    rw [PosNu.mk.injEq] at e
    obtain ⟨e1, e2, e3⟩ := e
  · refine (h1.mul h2).congr_deriv ?_
    rw [e1, e2]; ring
  · exact h2.congr_deriv (by ring)
  · exact h1.congr_deriv (by ring)
  · exact (hasDerivAt_const t (0:ℝ)).congr_deriv (by ring)

end Verif.Coord.Axi
