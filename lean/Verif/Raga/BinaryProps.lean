import Verif.Raga.Binary

/-! # Raga: binary black hole, properties -/

namespace Verif.Raga

open Real Verif.Pot

noncomputable section

/-! ## encounters -/

/-- the particle is inside the critical radius -/
def inside (c : Traj) (t : ℝ) : Prop := c.r2 t < c.r2crit

theorem binTimestep_outside (c : Traj) (a b : ℝ) (encs : List Encounter) (h1 : ¬ inside c a) (h2 : ¬ inside c b) : binTimestep c a b encs = some encs := by
  rw [inside, not_lt] at h1 h2
  rw [binTimestep, if_pos ⟨h1, h2⟩]

theorem binTimestep_inside (c : Traj) (a b : ℝ) (ha : a ≠ 0) (e : Encounter) (encs : List Encounter) (h1 : inside c a) (h2 : inside c b) :
    binTimestep c a b (e :: encs) = some (updateEnc c a b e :: encs) := by
  rw [inside] at h1 h2
  have ht : encTimes c a b = (a, b) := by
    rw [encTimes, if_neg (by tauto)]
  have hn : ¬ newEncounter c a b := by
    rw [newEncounter]
    rintro (⟨-, h⟩ | ⟨h, -⟩)
    · exact absurd h1 (not_lt.2 h)
    · exact ha h
  rw [binTimestep, if_neg (fun h => absurd h1 (not_lt.2 h.1))]
  simp only [ht, hn, if_false]

theorem binTimestep_exit (c : Traj) (a b : ℝ) (ha : a ≠ 0) (e : Encounter) (encs : List Encounter) (h1 : inside c a) (h2 : ¬ inside c b) :
    binTimestep c a b (e :: encs) = some (updateEnc c a (c.findRoot (fun t => c.r2 t - c.r2crit) a b) e :: encs) := by
  rw [inside] at h1 h2
  have ht : encTimes c a b = (a, c.findRoot (fun t => c.r2 t - c.r2crit) a b) := by
    rw [encTimes, if_pos (by tauto)]
    simp only
    rw [if_neg (not_le.2 h1)]
  have hn : ¬ newEncounter c a b := by
    rw [newEncounter]
    rintro (⟨-, h⟩ | ⟨h, -⟩)
    · exact absurd h1 (not_lt.2 h)
    · exact ha h
  rw [binTimestep, if_neg (fun h => absurd h1 (not_lt.2 h.1))]
  simp only [ht, hn, if_false]

theorem binTimestep_enter (c : Traj) (a b : ℝ) (encs : List Encounter) (h1 : ¬ inside c a) (h2 : inside c b) :
    binTimestep c a b encs = some (updateEnc c (c.findRoot (fun t => c.r2 t - c.r2crit) a b) b
      ⟨c.findRoot (fun t => c.r2 t - c.r2crit) a b, 0, c.E (c.findRoot (fun t => c.r2 t - c.r2crit) a b), c.L (c.findRoot (fun t => c.r2 t - c.r2crit) a b), 0, 0⟩ :: encs) := by
  rw [inside] at h1 h2
  have ht : encTimes c a b = (c.findRoot (fun t => c.r2 t - c.r2crit) a b, b) := by
    rw [encTimes, if_pos (by tauto)]
    simp only
    rw [if_pos (not_lt.1 h1)]
  have hn : newEncounter c a b := Or.inl ⟨h2, not_lt.1 h1⟩
  rw [binTimestep, if_neg (fun h => absurd h2 (not_lt.2 h.2))]
  simp only [ht, hn, if_true]

/-- if the particle is inside the critical radius at the beginning of a timestep then it is known to be in an encounter, or this is the first timestep -/
theorem binTimestep_some (c : Traj) (a b : ℝ) (encs : List Encounter) (h : inside c a → encs ≠ [] ∨ a = 0) :
    ∃ encs', binTimestep c a b encs = some encs' ∧ (inside c b → encs' ≠ []) := by
  by_cases h1 : inside c a
  · by_cases h0 : a = 0
    · have hn : newEncounter c a b := Or.inr ⟨h0, h1⟩
      rw [binTimestep, if_neg (fun h => absurd h1 (not_lt.2 h.1))]
      simp only [hn, if_true]
      exact ⟨_, rfl, fun _ => by simp⟩
    · obtain ⟨e, es, rfl⟩ := List.exists_cons_of_ne_nil ((h h1).resolve_right h0)
      by_cases h2 : inside c b
      · rw [binTimestep_inside c a b h0 e es h1 h2]; exact ⟨_, rfl, fun _ => by simp⟩
      · rw [binTimestep_exit c a b h0 e es h1 h2]; exact ⟨_, rfl, fun _ => by simp⟩
  · by_cases h2 : inside c b
    · rw [binTimestep_enter c a b encs h1 h2]; exact ⟨_, rfl, fun _ => by simp⟩
    · rw [binTimestep_outside c a b encs h1 h2]; exact ⟨_, rfl, fun h => absurd h h2⟩

theorem binRun_some (c : Traj) : ∀ (ts : List ℝ) (t : ℝ) (encs : List Encounter), (inside c t → encs ≠ [] ∨ t = 0) → (binRun c t ts encs).isSome := by
  intro ts
  induction ts with
  | nil => intro t encs _; rfl
  | cons t' ts ih =>
    intro t encs h
    obtain ⟨encs', e, h'⟩ := binTimestep_some c t t' encs h
    rw [binRun, e, Option.bind_some]
    exact ih t' encs' (fun hi => Or.inl (h' hi))

/-- C107: along any orbit that begins at time zero, with any sequence of timesteps, the assertion that there is a record of the current encounter never fails -/
theorem C107_assertion (c : Traj) (ts : List ℝ) : (binRun c 0 ts []).isSome := binRun_some c ts 0 [] (fun _ => Or.inr rfl)

/-- sum of the stellar torques over consecutive intervals -/
def torqueSum (c : Traj) : ℝ → List ℝ → ℝ
  | _, [] => 0
  | t, t' :: ts => computeLztorque c t t' + torqueSum c t' ts

theorem binRun_inside (c : Traj) : ∀ (ts : List ℝ) (a : ℝ) (e : Encounter) (encs : List Encounter), 0 < a → (∀ t ∈ ts, 0 < t ∧ inside c t) → inside c a →
    binRun c a ts (e :: encs) = some ({ e with Tlength := e.Tlength + ((ts.getLastD a) - a), deltaE := e.deltaE + (c.E (ts.getLastD a) - c.E a), deltaLz := e.deltaLz + (c.Lz (ts.getLastD a) - c.Lz a - torqueSum c a ts) } :: encs) := by
  intro ts
  induction ts with
  | nil => intro a e encs _ _ _; simp [binRun, torqueSum]
  | cons t ts ih =>
    intro a e encs h0 hin ha
    have ht := hin t (by simp)
    rw [binRun, binTimestep_inside c a t h0.ne' e encs ha ht.2, Option.bind_some, ih t _ encs ht.1 (fun u hu => hin u (by simp [hu])) ht.2]
    simp only [updateEnc, List.getLastD_cons, torqueSum]
    congr 3 <;> ring

theorem binRun_append (c : Traj) : ∀ (ts us : List ℝ) (a : ℝ) (encs : List Encounter), binRun c a (ts ++ us) encs = (binRun c a ts encs).bind (binRun c (ts.getLastD a) us) := by
  intro ts
  induction ts with
  | nil => intro us a encs; rfl
  | cons t ts ih =>
    intro us a encs
    rw [List.cons_append, binRun, binRun]
    rcases binTimestep c a t encs with _ | encs'
    · rfl
    · rw [Option.bind_some, Option.bind_some, ih, List.getLastD_cons]

/-- C107: one passage through the critical radius makes exactly one record, whatever the number and lengths of timesteps are: the particle is outside at `a`, inside at `t` and all times of `ts`, and outside at `b`;
the record contains the moment of entry, the duration, and the changes of energy and angular momentum (the latter minus the stellar torques) between the moments of entry and exit -/
theorem C107_encounter (c : Traj) (a t b : ℝ) (ts : List ℝ) (encs : List Encounter) (hin : ∀ u ∈ t :: ts, 0 < u ∧ inside c u) (ha : ¬ inside c a) (hb : ¬ inside c b)
    (tin tout : ℝ) (hti : tin = c.findRoot (fun t => c.r2 t - c.r2crit) a t) (hto : tout = c.findRoot (fun t => c.r2 t - c.r2crit) (ts.getLastD t) b) :
    ∃ e, binRun c a (t :: ts ++ [b]) encs = some (e :: encs) ∧ e.Tbegin = tin ∧ e.Tlength = tout - tin ∧ e.Ebegin = c.E tin ∧ e.Lbegin = c.L tin ∧ e.deltaE = c.E tout - c.E tin ∧
      e.deltaLz = c.Lz tout - c.Lz tin - (computeLztorque c tin t + torqueSum c t ts + computeLztorque c (ts.getLastD t) tout) := by
  have ht := hin t (by simp)
  have hl : 0 < ts.getLastD t ∧ inside c (ts.getLastD t) := by
    rcases ts.eq_nil_or_concat with e | ⟨l, x, e⟩
    · rw [e]; exact ht
    · rw [e]
      have : (l ++ [x]).getLastD t = x := by simp [List.getLastD_eq_getLast?]
      rw [List.concat_eq_append, this]
      exact hin x (by simp [e])
  rw [List.cons_append, binRun, binTimestep_enter c a t encs ha ht.2, Option.bind_some, binRun_append, binRun_inside c ts t _ encs ht.1 (fun u hu => hin u (by simp [hu])) ht.2, Option.bind_some,
    binRun, binTimestep_exit c _ b hl.1.ne' _ encs hl.2 hb, Option.bind_some, binRun, ← hti, ← hto]
  refine ⟨_, rfl, rfl, ?_, rfl, rfl, ?_, ?_⟩
  · simp only [updateEnc]; ring
  · simp only [updateEnc]; ring
  · simp only [updateEnc]; ring

/-- the hypotheses are satisfied: motion along a straight line through the origin, x = t - 6, critical radius 5 -/
example : ∃ (c : Traj) (a t b : ℝ) (ts : List ℝ), (∀ u ∈ t :: ts, 0 < u ∧ inside c u) ∧ ¬ inside c a ∧ ¬ inside c b := by
  refine ⟨⟨fun t => ⟨t - 6, 0, 0, 1, 0, 0⟩, fun _ => 0, fun _ => 0, fun _ => 0, fun _ => 0, true, 25, fun _ a _ => a⟩, 0, 2, 12, [4, 6], ?_, ?_, ?_⟩
  · intro u hu
    simp only [List.mem_cons, List.not_mem_nil, or_false] at hu
    rcases hu with rfl | rfl | rfl <;> norm_num [inside, Traj.r2]
  · norm_num [inside, Traj.r2]
  · norm_num [inside, Traj.r2]

/-! ## torque from stars -/

/-- C107 (partial: only axisymmetric stellar potentials): the recorded change of angular momentum is the one of the particle -/
theorem C107_axisym_partial (c : Traj) (h : c.axisym = true) (tb te : ℝ) (e : Encounter) : (updateEnc c tb te e).deltaLz = e.deltaLz + (c.Lz te - c.Lz tb) := by
  simp [updateEnc, computeLztorque, h]

/-- for a non-axisymmetric stellar potential the sign of the torque is wrong: if a particle moves in the stellar potential alone (the black holes are absent), then its angular momentum changes at the rate
-(x dPhi/dy - y dPhi/dx), and the change that should be ascribed to black holes is zero; what is recorded is twice the change caused by stars
(for a torque that is a linear function of time, in which case the numerical integration is exact) -/
theorem C107_torque_sign_refuted (c : Traj) (h : c.axisym = false) (tb te : ℝ) (A B : ℝ)
    (hN : ∀ t, (c.sol t).x * c.gy (c.sol t) - (c.sol t).y * c.gx (c.sol t) = A + B * t)
    (hvx : ∀ t, HasDerivAt (fun t => (c.sol t).x) (c.sol t).vx t) (hvy : ∀ t, HasDerivAt (fun t => (c.sol t).y) (c.sol t).vy t)
    (hax : ∀ t, HasDerivAt (fun t => (c.sol t).vx) (-c.gx (c.sol t)) t) (hay : ∀ t, HasDerivAt (fun t => (c.sol t).vy) (-c.gy (c.sol t)) t) (e : Encounter) :
    (updateEnc c tb te e).deltaLz = e.deltaLz + 2 * (c.Lz te - c.Lz tb) := by
  have hL : ∀ t, HasDerivAt c.Lz (-(A + B * t)) t := by
    intro t
    have := ((hvx t).mul (hay t)).sub ((hvy t).mul (hax t))
    refine this.congr_deriv ?_
    rw [← hN]
    ring
  have hP : ∀ t, HasDerivAt (fun t => c.Lz t + (A * t + B * t ^ 2 / 2)) 0 t := by
    intro t
    have := (hL t).add (((hasDerivAt_id t).const_mul A).add (((hasDerivAt_pow 2 t).const_mul B).div_const 2))
    refine (this.congr_deriv ?_)
    simp only [Nat.cast_ofNat]
    ring
  have hc : c.Lz te + (A * te + B * te ^ 2 / 2) = c.Lz tb + (A * tb + B * tb ^ 2 / 2) :=
    is_const_of_deriv_eq_zero (fun t => (hP t).differentiableAt) (fun t => (hP t).deriv) te tb
  have ht : computeLztorque c tb te = -(c.Lz te - c.Lz tb) := by
    rw [computeLztorque, if_neg (by simp [h])]
    simp only
    have h1 := hN (tb * 0.211324865 + te * (1 - 0.211324865))
    have h2 := hN (te * 0.211324865 + tb * (1 - 0.211324865))
    rw [show ∀ a b c d : ℝ, a - b + c - d = (a - b) + (c - d) from fun _ _ _ _ => by ring, h1, h2]
    linear_combination hc
  rw [updateEnc]
  simp only [ht]
  ring

/-- such an orbit: uniform gravitational field along y; the particle starts at rest at x = 1; its angular momentum increases by 1 during the unit of time, but 2 is recorded instead of 0 -/
example : ∃ c : Traj, c.axisym = false ∧ (∀ t, (c.sol t).x * c.gy (c.sol t) - (c.sol t).y * c.gx (c.sol t) = -1 + 0 * t) ∧
    (∀ t, HasDerivAt (fun t => (c.sol t).x) (c.sol t).vx t) ∧ (∀ t, HasDerivAt (fun t => (c.sol t).y) (c.sol t).vy t) ∧
    (∀ t, HasDerivAt (fun t => (c.sol t).vx) (-c.gx (c.sol t)) t) ∧ (∀ t, HasDerivAt (fun t => (c.sol t).vy) (-c.gy (c.sol t)) t) ∧ c.Lz 1 - c.Lz 0 = 1 := by
  refine ⟨⟨fun t => ⟨1, t ^ 2 / 2, 0, 0, t, 0⟩, fun _ => 0, fun _ => 0, fun _ => 0, fun _ => -1, false, 25, fun _ a _ => a⟩, rfl, by intro t; norm_num, ?_, ?_, ?_, ?_, by norm_num [Traj.Lz]⟩
  · intro t; exact hasDerivAt_const t 1
  · intro t
    have := (hasDerivAt_pow 2 t).div_const 2
    refine this.congr_deriv ?_
    simp
  · intro t; simpa using hasDerivAt_const t (0 : ℝ)
  · intro t; simpa using hasDerivAt_id' t

/-! ## conservation laws -/

/-- energy of a binary with semimajor axis a -/
def binEnergy (M q a : ℝ) : ℝ := -(M / (1 + q)) * (M * q / (1 + q)) / (2 * a)

/-- angular momentum of a binary with semimajor axis a and square of eccentricity e2: (reduced mass) * sqrt(M a (1-e^2)) -/
def binAngMom (M q a e2 : ℝ) : ℝ := (M / (1 + q)) * (M * q / (1 + q)) / M * √(M * a * (1 - e2))

/-- C107: the hardening rate conserves energy: when 1/a changes by H during the unit of time over the episode, the energy of the binary changes by minus the energy gained by stars -/
theorem C107_energy (bh : KBParams) (hM : 0 < bh.mass) (hq : 0 < bh.q) (ha : 0 < bh.sma) (T : ℝ) (hT : 0 < T) (dE anew : ℝ) (hnew : 1 / anew = 1 / bh.sma + hardeningH bh T dE * T) :
    binEnergy bh.mass bh.q anew - binEnergy bh.mass bh.q bh.sma = -dE := by
  have e : ∀ a, binEnergy bh.mass bh.q a = -(bh.mass ^ 2 * bh.q / (1 + bh.q) ^ 2) / 2 * (1 / a) := by
    intro a
    rw [binEnergy]
    have : 1 + bh.q ≠ 0 := by positivity
    rcases eq_or_ne a 0 with rfl | h
    · simp
    · field_simp
  rw [e, e, hnew, hardeningH, hkMult]
  have : 1 + bh.q ≠ 0 := by positivity
  field_simp
  ring

/-- C107: the hardening and eccentricity growth rates conserve angular momentum: the rate of its change at the beginning of the episode is minus the mean rate of the change of angular momentum of stars -/
theorem C107_angmom (bh : KBParams) (hM : 0 < bh.mass) (hq : 0 < bh.q) (ha : 0 < bh.sma) (he : bh.ecc ^ 2 < 1) (T : ℝ) (hT : 0 < T) (dE dLz : ℝ) :
    HasDerivAt (fun t => binAngMom bh.mass bh.q (1 / (1 / bh.sma + hardeningH bh T dE * t)) (bh.ecc ^ 2 + growthK bh T dE dLz * t)) (-dLz / T) 0 := by
  set H := hardeningH bh T dE with hH
  set K := growthK bh T dE dLz with hK
  have hx : 0 < 1 - bh.ecc ^ 2 := by linarith
  have h1 : HasDerivAt (fun t : ℝ => 1 / (1 / bh.sma + H * t)) (-H * bh.sma ^ 2) 0 := by
    have h := (((hasDerivAt_id (0 : ℝ)).const_mul H).const_add (1 / bh.sma)).inv (by simp [ha.ne'])
    simp only [id, mul_zero, add_zero, mul_one] at h
    refine (h.congr_deriv ?_).congr_of_eventuallyEq ?_
    · field_simp
    · filter_upwards with t
      simp
  have h2 : HasDerivAt (fun t : ℝ => 1 - (bh.ecc ^ 2 + K * t)) (-K) 0 := by
    have h := (((hasDerivAt_id (0 : ℝ)).const_mul K).const_add (bh.ecc ^ 2)).const_sub 1
    simpa using h
  have h3 := (h1.const_mul bh.mass).mul h2
  have hpos : 0 < bh.mass * bh.sma * (1 - bh.ecc ^ 2) := by positivity
  have h4 := (h3.sqrt (by simp; exact ⟨⟨hM.ne', ha.ne'⟩, hx.ne'⟩)).const_mul (bh.mass / (1 + bh.q) * (bh.mass * bh.q / (1 + bh.q)) / bh.mass)
  refine h4.congr_deriv ?_
  simp only [Pi.mul_apply, mul_zero, add_zero, one_div_one_div]
  set r := √(bh.mass * bh.sma * (1 - bh.ecc ^ 2)) with hr
  have hr0 : 0 < r := sqrt_pos.2 hpos
  have hr2 : r ^ 2 = bh.mass * bh.sma * (1 - bh.ecc ^ 2) := sq_sqrt hpos.le
  have hs : √((1 - bh.ecc ^ 2) * bh.mass / bh.sma) = r / bh.sma := by
    rw [hr, show (1 - bh.ecc ^ 2) * bh.mass / bh.sma = bh.mass * bh.sma * (1 - bh.ecc ^ 2) / bh.sma ^ 2 by field_simp, sqrt_div hpos.le, sqrt_sq ha.le]
  have q1 : (1 + bh.q) ≠ 0 := by positivity
  rw [hK, hH, growthK, hardeningH, hkMult, hs]
  field_simp
  ring_nf

end

end Verif.Raga
