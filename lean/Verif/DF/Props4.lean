import Verif.DF.Props3

/-! # C98: refutations at the origin of action space, and concrete cases -/

namespace Verif.DF

open Real Verif.Actions Filter Topology

/-- C98 (refutation): a model with a central core is documented to be nearly constant at small actions, and it is, but exactly at the origin the function returns zero -/
theorem C98_refuted_core (P : DoublePowerLawParam) {beta : ℝ} (hP : P.accepted beta) (hb : beta < 2) (hrot : P.rotFrac = 0) (hcore : 0 < P.Jcore) (hin : 0 < P.slopeIn) :
    P.value beta ⟨0, 0, 0⟩ = some 0 ∧
    Tendsto (fun s => (P.value beta ⟨s, 0, 0⟩).getD 0) (𝓝[>] 0) (𝓝 (P.norm / (2 * π * P.J0) ^ 3 * (P.J0 / P.Jcore) ^ P.slopeIn)) ∧
    0 < P.norm / (2 * π * P.J0) ^ 3 * (P.J0 / P.Jcore) ^ P.slopeIn := by
  have hP' := hP
  obtain ⟨p1, p2, ⟨p3, p4⟩, p5, p6, p7, p8, p9, ⟨c1, c2, c3, c4, c5, c6⟩, p11⟩ := hP
  refine ⟨?_, ?_, by positivity⟩
  · have h1 : ¬ (-0.5 * P.slopeIn > 0) := by norm_num; linarith
    have h2 : ¬ (P.slopeIn = 0) := hin.ne'
    have h3 : P.h ⟨0, 0, 0⟩ = 0 := by simp [DoublePowerLawParam.h]
    simp only [DoublePowerLawParam.value, DoublePowerLawParam.rot, hrot, h3, if_true, if_pos hcore, if_neg h1, if_neg h2, ne_eq, not_true_eq_false, if_false,
      Option.bind_eq_bind, Option.bind_some, pure]
    norm_num
  · set N := P.norm / (2 * π * P.J0) ^ 3 with hN
    set κ := P.coefJrIn with hκ
    set γ := P.coefJrOut with hγ
    -- a form which is continuous at the origin
    let Φ : ℝ → ℝ := fun s => N * (((κ * s) ^ P.steepness + P.J0 ^ P.steepness) ^ (P.slopeIn / P.steepness)) * (1 + (γ * s / P.J0) ^ P.steepness) ^ (-P.slopeOut / P.steepness) *
      (if P.Jcutoff = 0 then 1 else exp (-(γ * s / P.Jcutoff) ^ P.cutoffStrength)) * ((κ * s) ^ 2 + P.Jcore * (P.Jcore - beta * (κ * s))) ^ (-P.slopeIn / 2)
    have hΦ0 : Φ 0 = N * (P.J0 / P.Jcore) ^ P.slopeIn := by
      simp only [Φ, mul_zero, zero_div, zero_rpow p8.ne', zero_rpow p9.ne', neg_zero, exp_zero, zero_add, add_zero, one_rpow, mul_one, ite_self, sub_zero]
      rw [← rpow_mul p2.le, mul_div_cancel₀ _ p8.ne', div_rpow p2.le p3]
      have e : ((0:ℝ) ^ 2 + P.Jcore * P.Jcore) ^ (-P.slopeIn / 2) = (P.Jcore ^ P.slopeIn)⁻¹ := by
        rw [show (0:ℝ) ^ 2 + P.Jcore * P.Jcore = P.Jcore ^ (2:ℝ) by rw [rpow_two]; ring, ← rpow_mul p3, ← rpow_neg p3]
        congr 1; ring
      rw [e]
      ring
    have hcont : ContinuousAt Φ 0 := by
      have hl : ContinuousAt (fun s : ℝ => κ * s) 0 := by fun_prop
      have hm : ∀ q : ℝ, ContinuousAt (fun s : ℝ => γ * s / q) 0 := fun q => by fun_prop
      have e1 : ContinuousAt (fun s : ℝ => (κ * s) ^ P.steepness) 0 := hl.rpow_const (Or.inr p8.le)
      have e2 : ContinuousAt (fun s : ℝ => ((κ * s) ^ P.steepness + P.J0 ^ P.steepness) ^ (P.slopeIn / P.steepness)) 0 :=
        (e1.add continuousAt_const).rpow_const (Or.inr (by positivity))
      have e3 : ContinuousAt (fun s : ℝ => (1 + (γ * s / P.J0) ^ P.steepness) ^ (-P.slopeOut / P.steepness)) 0 := by
        refine (continuousAt_const.add ((hm _).rpow_const (Or.inr p8.le))).rpow_const (Or.inl ?_)
        simp [zero_rpow p8.ne']
      have e4 : ContinuousAt (fun s : ℝ => if P.Jcutoff = 0 then 1 else exp (-(γ * s / P.Jcutoff) ^ P.cutoffStrength)) 0 := by
        by_cases h : P.Jcutoff = 0
        · simp only [if_pos h]; exact continuousAt_const
        · simp only [if_neg h]
          exact (((hm _).rpow_const (Or.inr p9.le)).neg).rexp
      have e5 : ContinuousAt (fun s : ℝ => ((κ * s) ^ 2 + P.Jcore * (P.Jcore - beta * (κ * s))) ^ (-P.slopeIn / 2)) 0 := by
        refine ContinuousAt.rpow_const (by fun_prop) (Or.inl ?_)
        simp [hcore.ne']
      exact (((continuousAt_const.mul e2).mul e3).mul e4).mul e5
    have hlim : Tendsto Φ (𝓝[>] 0) (𝓝 (Φ 0)) := hcont.tendsto.mono_left nhdsWithin_le_nhds
    rw [hΦ0] at hlim
    refine hlim.congr' ?_
    filter_upwards [self_mem_nhdsWithin] with s hs
    have hs : 0 < s := hs
    have hne : (⟨s, 0, 0⟩ : Act) ≠ ⟨0, 0, 0⟩ := by
      intro h
      simp only [Act.mk.injEq] at h
      exact hs.ne' h.1
    rw [(C98_dpl_value P hP' hb (Or.inl hrot) ⟨s, 0, 0⟩ ⟨hs.le, le_refl _⟩ hne).1, Option.getD_some]
    simp only [dplSpec, Φ, hrot, abs_zero, mul_zero, add_zero, zero_mul, mul_one, ← hκ, ← hγ, ← hN]
    have hh : 0 < κ * s := by positivity
    have a1 : (1 + (P.J0 / (κ * s)) ^ P.steepness) ^ (P.slopeIn / P.steepness) = ((κ * s) ^ P.steepness + P.J0 ^ P.steepness) ^ (P.slopeIn / P.steepness) * ((κ * s) ^ P.slopeIn)⁻¹ := by
      rw [div_rpow p2.le hh.le]
      have : 1 + P.J0 ^ P.steepness / (κ * s) ^ P.steepness = ((κ * s) ^ P.steepness + P.J0 ^ P.steepness) / (κ * s) ^ P.steepness := by
        have : (κ * s) ^ P.steepness ≠ 0 := by positivity
        field_simp
      rw [this, div_rpow (by positivity) (by positivity), ← rpow_mul hh.le, mul_div_cancel₀ _ p8.ne', div_eq_mul_inv]
    have a2 : ((P.Jcore / (κ * s)) ^ 2 - beta * (P.Jcore / (κ * s)) + 1) ^ (-P.slopeIn / 2) = ((κ * s) ^ 2 + P.Jcore * (P.Jcore - beta * (κ * s))) ^ (-P.slopeIn / 2) * (κ * s) ^ P.slopeIn := by
      have k := core_pos (u := P.Jcore / (κ * s)) p4 hb
      have e : (P.Jcore / (κ * s)) ^ 2 - beta * (P.Jcore / (κ * s)) + 1 = ((κ * s) ^ 2 + P.Jcore * (P.Jcore - beta * (κ * s))) / (κ * s) ^ (2:ℝ) := by
        rw [rpow_two]
        have := hh.ne'
        field_simp
        ring
      have e' : 1 + P.Jcore / (κ * s) * (P.Jcore / (κ * s) - beta) = ((κ * s) ^ 2 + P.Jcore * (P.Jcore - beta * (κ * s))) / (κ * s) ^ (2:ℝ) := by rw [← e]; ring
      have pos : 0 < (κ * s) ^ 2 + P.Jcore * (P.Jcore - beta * (κ * s)) := by
        rw [e'] at k
        exact (div_pos_iff_of_pos_right (by positivity)).mp k
      rw [e, div_rpow pos.le (by positivity), ← rpow_mul hh.le, show 2 * (-P.slopeIn / 2) = -P.slopeIn by ring, rpow_neg hh.le, div_inv_eq_mul]
    rw [a1, a2]
    have : (κ * s) ^ P.slopeIn ≠ 0 := by positivity
    field_simp

/-- C98 (refutation): a model with rotation and the default value (zero) of the scale of the rotation curve has no value for any orbit with zero angular momentum -/
theorem C98_refuted_rot (P : DoublePowerLawParam) (beta : ℝ) (h1 : P.rotFrac ≠ 0) (h2 : P.Jphi0 = 0) (Jr Jz : ℝ) : P.value beta ⟨Jr, Jz, 0⟩ = none := by
  simp [DoublePowerLawParam.value, DoublePowerLawParam.rot, h1, h2]

/-- the parameters of a realistic halo: core, cutoff, rotation -/
noncomputable def exDPL : DoublePowerLawParam := ⟨1, 10, 100, 3/2, 5, 1, 2, 7/5, 4/5, 1, 1, 1/2, 2, 1⟩

example : exDPL.accepted 1 ∧ (exDPL.rotFrac = 0 ∨ exDPL.Jphi0 ≠ 0) ∧ Phys ⟨3, 1, -2⟩ ∧ (⟨3, 1, -2⟩ : Act) ≠ ⟨0, 0, 0⟩ := by
  refine ⟨?_, Or.inr ?_, ?_, ?_⟩
  · norm_num [DoublePowerLawParam.accepted, exDPL, abs_of_pos]
  · norm_num [exDPL]
  · norm_num [Phys]
  · intro h
    simp only [Act.mk.injEq] at h
    norm_num at h

example : exDPL.value 1 ⟨3, 1, -2⟩ = some (dplSpec exDPL 1 ⟨3, 1, -2⟩) := by
  refine (C98_dpl_value exDPL ?_ (by norm_num) (Or.inr (by norm_num [exDPL])) _ (by norm_num [Phys]) ?_).1
  · norm_num [DoublePowerLawParam.accepted, exDPL, abs_of_pos]
  · intro h
    simp only [Act.mk.injEq] at h
    norm_num at h

/-- the same halo without rotation meets the hypotheses of the refutation -/
example : ({exDPL with rotFrac := 0} : DoublePowerLawParam).value 1 ⟨0, 0, 0⟩ = some 0 := by
  refine (C98_refuted_core _ ?_ (by norm_num) rfl (by norm_num [exDPL]) (by norm_num [exDPL])).1
  norm_num [DoublePowerLawParam.accepted, exDPL]

noncomputable def exExp : ExponentialParam := ⟨1, 2, 1, 5, 1, 3, 1, 1/4, 1/5, 0, 1/10⟩

example : exExp.accepted ∧ 0 < (|(-2:ℝ)| + exExp.coefJr * 3 + exExp.coefJz * 1) ^ 2 + exExp.addJden ^ 2 := by
  constructor
  · norm_num [ExponentialParam.accepted, exExp]
  · norm_num [exExp]

example : IsDerivDF (fun J => (exExp.evalDeriv J).1) (exExp.evalDeriv ⟨3, 1, -2⟩).2 ⟨3, 1, -2⟩ := by
  refine C98_exp_deriv exExp (by norm_num [ExponentialParam.accepted, exExp]) ?_ ?_ ?_ _ ?_ ?_ <;> norm_num [exExp]

noncomputable def exQI : QuasiIsothermalParam := ⟨1, 3, 1/3, 1/4, 0, 1/100, 6, 0, 1, 1/4, 0, 1/5, 1/10, 1/20⟩
/-- a flat rotation curve -/
noncomputable def exFreqs : Freqs := ⟨fun L => L, fun _ => 1, fun R => √2 / R, fun R => 2 / R, fun R => 1 / R, fun R => -√2 / R ^ 2, fun R => -2 / R ^ 2, fun R => -1 / R ^ 2⟩

theorem exFreqs_ok : FreqsOK exFreqs := by
  have d : ∀ k R : ℝ, 0 < R → HasDerivAt (fun R => k / R) (-k / R ^ 2) R := by
    intro k R hR
    refine ((hasDerivAt_const R k).fun_div (hasDerivAt_id' R) hR.ne').congr_deriv ?_
    ring
  exact ⟨fun L h => h, fun L _ => hasDerivAt_id' L, fun R h => ⟨by simp only [exFreqs]; positivity, by simp only [exFreqs]; positivity, by simp only [exFreqs]; positivity⟩,
    fun R h => d _ R h, fun R h => d _ R h, fun R h => d _ R h⟩

example : IsDerivDF (fun J => (exQI.evalDeriv exFreqs J).1) (exQI.evalDeriv exFreqs ⟨3, 1, -2⟩).2 ⟨3, 1, -2⟩ := by
  refine C98_qi_deriv exQI ?_ exFreqs exFreqs_ok ?_ ?_ ?_ _ ?_ <;> norm_num [QuasiIsothermalParam.accepted, exQI, Xor]

end Verif.DF
