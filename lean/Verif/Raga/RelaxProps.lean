import Verif.Raga.Relax
import Mathlib.MeasureTheory.Integral.Bochner.Basic
import Mathlib.Analysis.SpecialFunctions.ImproperIntegrals
import Mathlib.Analysis.SpecialFunctions.Exp
import Mathlib.Analysis.Complex.ExponentialBounds

/-! # Raga: two-body relaxation, properties -/

namespace Verif.Raga

open Real MeasureTheory

noncomputable section

/-! ## samples -/

/-- the samples that should be stored by the time t: at moments dt, 2 dt, ..., not later than t, and at most num of them -/
def samplesBy (dt : ℝ) (num : ℕ) (f : ℝ → ℝ) (t : ℝ) : List ℝ := (List.range (min num ⌊t / dt⌋₊)).map (fun k : ℕ => f (dt * ((k : ℝ) + 1)))

theorem sampleLoop_spec (dt : ℝ) (hdt : 0 < dt) (num : ℕ) (f : ℝ → ℝ) (tb te : ℝ) (hte : 0 ≤ te) : ∀ (fuel k : ℕ), k ≤ min num ⌊te / dt⌋₊ → (k = num ∨ dt * (k + 1) > tb) → num - k < fuel →
    sampleLoop dt num f tb te fuel ((List.range k).map (fun k : ℕ => f (dt * ((k : ℝ) + 1)))) = samplesBy dt num f te := by
  intro fuel
  induction fuel with
  | zero => intro k _ _ h; omega
  | succ fuel ih =>
    intro k hk hb hf
    have hlen : ((List.range k).map (fun k : ℕ => f (dt * ((k : ℝ) + 1)))).length = k := by simp
    unfold sampleLoop
    simp only [hlen]
    have hfl : dt * ((k : ℝ) + 1) ≤ te ↔ k + 1 ≤ ⌊te / dt⌋₊ := by
      rw [Nat.le_floor_iff (by positivity), le_div_iff₀ hdt, mul_comm]
      push_cast
      rfl
    by_cases hc : dt * ((k : ℝ) + 1) > tb ∧ dt * ((k : ℝ) + 1) ≤ te ∧ k ≠ num
    · rw [if_pos hc]
      have h1 := hfl.1 hc.2.1
      have h2 := hc.2.2
      have e : (List.range k).map (fun k : ℕ => f (dt * ((k : ℝ) + 1))) ++ [f (dt * ((k : ℝ) + 1))] = (List.range (k + 1)).map (fun k : ℕ => f (dt * ((k : ℝ) + 1))) := by
        rw [List.range_succ, List.map_append]; rfl
      rw [e]
      refine ih (k + 1) (by omega) (Or.inr ?_) (by omega)
      push_cast
      nlinarith [hc.1]
    · rw [if_neg hc, samplesBy]
      have : k = min num ⌊te / dt⌋₊ := by
        rcases hb with h | h
        · omega
        · by_cases hn : k = num
          · omega
          · have : ¬ dt * ((k : ℝ) + 1) ≤ te := fun h3 => hc ⟨h, h3, hn⟩
            rw [hfl] at this
            omega
      rw [← this]

theorem sampleStep_spec (dt : ℝ) (hdt : 0 < dt) (num : ℕ) (f : ℝ → ℝ) (tb te : ℝ) (h0 : 0 ≤ tb) (hbe : tb ≤ te) : sampleStep dt num f tb te (samplesBy dt num f tb) = samplesBy dt num f te := by
  have hlen : (samplesBy dt num f tb).length = min num ⌊tb / dt⌋₊ := by simp [samplesBy]
  rw [sampleStep, hlen]
  apply sampleLoop_spec dt hdt num f tb te (h0.trans hbe)
  · have : ⌊tb / dt⌋₊ ≤ ⌊te / dt⌋₊ := Nat.floor_le_floor (by gcongr)
    omega
  · rcases le_total num ⌊tb / dt⌋₊ with h | h
    · left; omega
    · right
      rw [min_eq_right h]
      have := Nat.lt_floor_add_one (tb / dt)
      rw [div_lt_iff₀ hdt] at this
      linarith
  · omega

/-- C108: whatever the timesteps of the orbit integration are, the samples stored by the time t are exactly those at dt, 2 dt, ... up to t (each one stored once, in the order of time), within the reserved space -/
theorem C108_samples (dt : ℝ) (hdt : 0 < dt) (num : ℕ) (f : ℝ → ℝ) (ts : List ℝ) (t0 : ℝ) (h0 : 0 ≤ t0) (hs : (t0 :: ts).IsChain (· ≤ ·)) :
    sampleRun dt num f t0 ts (samplesBy dt num f t0) = samplesBy dt num f (ts.getLastD t0) := by
  induction ts generalizing t0 with
  | nil => rfl
  | cons t ts ih =>
    rw [List.isChain_cons_cons] at hs
    rw [sampleRun, sampleStep_spec dt hdt num f t0 t h0 hs.1, ih t (h0.trans hs.1) hs.2, List.getLastD_cons]

/-- C108: an orbit that starts at time 0 and ends at time T = num dt leaves num samples: none of the reserved elements remains unassigned -/
theorem C108_samples_complete (dt : ℝ) (hdt : 0 < dt) (num : ℕ) (f : ℝ → ℝ) (ts : List ℝ) (hs : ((0 : ℝ) :: ts).IsChain (· ≤ ·)) (hend : ts.getLastD 0 = dt * num) :
    sampleRun dt num f 0 ts [] = (List.range num).map (fun k : ℕ => f (dt * ((k : ℝ) + 1))) := by
  have h := C108_samples dt hdt num f ts 0 le_rfl hs
  have e0 : samplesBy dt num f 0 = [] := by simp [samplesBy]
  rw [e0] at h
  rw [h, hend, samplesBy, mul_div_cancel_left₀ _ hdt.ne', Nat.floor_natCast, min_self]

example : ∃ (ts : List ℝ), ((0 : ℝ) :: ts).IsChain (· ≤ ·) ∧ ts.getLastD 0 = 0.5 * (4 : ℕ) := ⟨[0.3, 1.9, 2], by norm_num, by norm_num⟩

/-! ## velocity perturbation -/

theorem kick_eq (v : ℝ × ℝ × ℝ) (d : DifCoef) (cl dt r1 r2 u1 u2 : ℝ) (hv : √(v.1 ^ 2 + v.2.1 ^ 2 + v.2.2 ^ 2) ≠ 0) (h1 : 0 ≤ d.dv2par) (h2 : 0 ≤ d.dv2per) (hu : 0 ≤ u2) (hu' : u2 ≤ 1) :
    ((kick v (some d) cl dt r1 r2 u1 u2).1 ^ 2 + (kick v (some d) cl dt r1 r2 u1 u2).2.1 ^ 2 + (kick v (some d) cl dt r1 r2 u1 u2).2.2 ^ 2 =
      (√(v.1 ^ 2 + v.2.1 ^ 2 + v.2.2 ^ 2) + (r1 * √(d.dv2par * cl * dt) + d.dvpar * cl / √(v.1 ^ 2 + v.2.1 ^ 2 + v.2.2 ^ 2) * dt)) ^ 2 + (r2 * √(d.dv2per * cl * dt)) ^ 2) := by
  obtain ⟨p1, p2, p3⟩ := Verif.Random.C23_perp_vector v u1 u2 hu hu'
  rw [kick]
  simp only [if_neg hv]
  rw [if_neg (by push Not; exact ⟨h1, h2⟩), p1]
  set V := √(v.1 ^ 2 + v.2.1 ^ 2 + v.2.2 ^ 2) with hV
  have hV2 : V ^ 2 = v.1 ^ 2 + v.2.1 ^ 2 + v.2.2 ^ 2 := sq_sqrt (by positivity)
  generalize (r1 * √(d.dv2par * cl * dt) + d.dvpar * cl / V * dt) = A
  generalize (r2 * √(d.dv2per * cl * dt)) = B
  generalize (Verif.Random.perpVector v u1 u2).2.1 = a at *
  generalize (Verif.Random.perpVector v u1 u2).2.2.1 = b at *
  generalize (Verif.Random.perpVector v u1 u2).2.2.2 = c at *
  have e : ∀ x y : ℝ, x + (x / V * A + y * B) = x * (1 + A / V) + y * B := by intro x y; field_simp; ring
  rw [e, e, e]
  have e2 : (V + A) ^ 2 = V ^ 2 * (1 + A / V) ^ 2 := by field_simp
  rw [e2, hV2]
  simp only
  linear_combination B ^ 2 * p2 + 2 * (1 + A / V) * B * p3

/-- C108: the mean change of the kinetic energy per unit mass in one timestep is dE/dt times the timestep, plus a quantity of second order in the timestep; dE/dt is v<Delta v_par> + (<Delta v_par^2> + <Delta v_per^2>)/2,
multiplied by the Coulomb logarithm. The two random numbers have zero mean and unit variance, and are otherwise arbitrary; the random direction of the perpendicular component does not matter -/
theorem C108_mean_energy {Ω : Type*} [MeasurableSpace Ω] (P : Measure Ω) [IsProbabilityMeasure P] (X1 X2 U1 U2 : Ω → ℝ) (hX1 : Integrable X1 P) (hX1s : Integrable (fun w => X1 w ^ 2) P)
    (hX2s : Integrable (fun w => X2 w ^ 2) P) (m1 : ∫ w, X1 w ∂P = 0) (s1 : ∫ w, X1 w ^ 2 ∂P = 1) (s2 : ∫ w, X2 w ^ 2 ∂P = 1) (hU : ∀ w, 0 ≤ U2 w ∧ U2 w ≤ 1)
    (v : ℝ × ℝ × ℝ) (d : DifCoef) (cl dt vel dEdt : ℝ) (hcl : 0 ≤ cl) (hdt : 0 ≤ dt) (hvel : vel = √(v.1 ^ 2 + v.2.1 ^ 2 + v.2.2 ^ 2)) (hv : vel ≠ 0) (h1 : 0 ≤ d.dv2par) (h2 : 0 ≤ d.dv2per)
    (hE : dEdt = (d.dvpar + (d.dv2par + d.dv2per) / 2) * cl) :
    ∫ w, (((kick v (some d) cl dt (X1 w) (X2 w) (U1 w) (U2 w)).1 ^ 2 + (kick v (some d) cl dt (X1 w) (X2 w) (U1 w) (U2 w)).2.1 ^ 2 + (kick v (some d) cl dt (X1 w) (X2 w) (U1 w) (U2 w)).2.2 ^ 2) / 2
      - (v.1 ^ 2 + v.2.1 ^ 2 + v.2.2 ^ 2) / 2) ∂P = dEdt * dt + (d.dvpar * cl / vel) ^ 2 / 2 * dt ^ 2 := by
  rw [hvel] at hv
  have e : ∀ w, (((kick v (some d) cl dt (X1 w) (X2 w) (U1 w) (U2 w)).1 ^ 2 + (kick v (some d) cl dt (X1 w) (X2 w) (U1 w) (U2 w)).2.1 ^ 2 + (kick v (some d) cl dt (X1 w) (X2 w) (U1 w) (U2 w)).2.2 ^ 2) / 2
      - (v.1 ^ 2 + v.2.1 ^ 2 + v.2.2 ^ 2) / 2) =
      (d.dvpar * cl * dt + (d.dvpar * cl / vel) ^ 2 / 2 * dt ^ 2) + (vel + d.dvpar * cl / vel * dt) * √(d.dv2par * cl * dt) * X1 w + d.dv2par * cl * dt / 2 * X1 w ^ 2 + d.dv2per * cl * dt / 2 * X2 w ^ 2 := by
    intro w
    rw [kick_eq v d cl dt _ _ _ _ hv h1 h2 (hU w).1 (hU w).2, ← hvel]
    have q1 : √(d.dv2par * cl * dt) ^ 2 = d.dv2par * cl * dt := sq_sqrt (by positivity)
    have q2 : √(d.dv2per * cl * dt) ^ 2 = d.dv2per * cl * dt := sq_sqrt (by positivity)
    have q3 : vel ^ 2 = v.1 ^ 2 + v.2.1 ^ 2 + v.2.2 ^ 2 := by rw [hvel]; exact sq_sqrt (by positivity)
    have q4 : vel * (d.dvpar * cl / vel * dt) = d.dvpar * cl * dt := by rw [hvel]; field_simp
    linear_combination (X1 w ^ 2 / 2) * q1 + (X2 w ^ 2 / 2) * q2 + q3 / 2 + q4
  simp only [e]
  have i1 : Integrable (fun w => (vel + d.dvpar * cl / vel * dt) * √(d.dv2par * cl * dt) * X1 w) P := hX1.const_mul _
  have i2 : Integrable (fun w => d.dv2par * cl * dt / 2 * X1 w ^ 2) P := hX1s.const_mul _
  have i3 : Integrable (fun w => d.dv2per * cl * dt / 2 * X2 w ^ 2) P := hX2s.const_mul _
  have i0 : Integrable (fun _ : Ω => (d.dvpar * cl * dt + (d.dvpar * cl / vel) ^ 2 / 2 * dt ^ 2)) P := integrable_const _
  have j2 := i0.add i1
  have j3 := j2.add i2
  rw [show (∫ w, (d.dvpar * cl * dt + (d.dvpar * cl / vel) ^ 2 / 2 * dt ^ 2) + (vel + d.dvpar * cl / vel * dt) * √(d.dv2par * cl * dt) * X1 w + d.dv2par * cl * dt / 2 * X1 w ^ 2 + d.dv2per * cl * dt / 2 * X2 w ^ 2 ∂P) =
      (∫ _ : Ω, (d.dvpar * cl * dt + (d.dvpar * cl / vel) ^ 2 / 2 * dt ^ 2) ∂P) + (∫ w, (vel + d.dvpar * cl / vel * dt) * √(d.dv2par * cl * dt) * X1 w ∂P) + (∫ w, d.dv2par * cl * dt / 2 * X1 w ^ 2 ∂P) + (∫ w, d.dv2per * cl * dt / 2 * X2 w ^ 2 ∂P) from
    (integral_add j3 i3).trans (by rw [← integral_add i0 i1]; congr 1; exact integral_add j2 i2), integral_const, integral_const_mul, integral_const_mul, integral_const_mul, m1, s1, s2, hE]
  simp
  ring

/-- the hypotheses are satisfied: two random numbers equal to +1 or -1 (the same one for both) with equal probabilities, on the interval [0,1] -/
example : ∃ (X : Bool → ℝ) (P : Measure Bool), IsProbabilityMeasure P ∧ Integrable X P ∧ Integrable (fun w => X w ^ 2) P ∧ ∫ w, X w ∂P = 0 ∧ ∫ w, X w ^ 2 ∂P = 1 := by
  have hr : ∀ b : Bool, (Measure.dirac b).real {false, true} = 1 := by
    intro b
    have : ({false, true} : Set Bool) = Set.univ := by ext x; cases x <;> simp
    rw [this]
    exact probReal_univ
  refine ⟨fun b => if b then 1 else -1, (1 / 2 : NNReal) • Measure.dirac true + (1 / 2 : NNReal) • Measure.dirac false, ⟨?_⟩, Integrable.of_finite, Integrable.of_finite, ?_, ?_⟩
  · simp only [Measure.add_apply, Measure.smul_apply, measure_univ]
    rw [← add_smul]
    norm_num
  · rw [integral_add_measure Integrable.of_finite Integrable.of_finite, integral_smul_nnreal_measure, integral_smul_nnreal_measure]
    simp
  · rw [integral_add_measure Integrable.of_finite Integrable.of_finite, integral_smul_nnreal_measure, integral_smul_nnreal_measure]
    simp [hr]
    norm_num [NNReal.smul_def]

/-- C108: a particle is not perturbed when it does not move, or when the coefficients cannot be computed, or when they are negative -/
theorem C108_no_kick (v : ℝ × ℝ × ℝ) (d : Option DifCoef) (cl dt r1 r2 u1 u2 : ℝ) (h : v = (0, 0, 0) ∨ d = none ∨ ∃ d', d = some d' ∧ (d'.dv2par < 0 ∨ d'.dv2per < 0)) : kick v d cl dt r1 r2 u1 u2 = v := by
  unfold kick
  simp only
  split
  · rfl
  · next hne =>
    rcases h with rfl | rfl | ⟨d', rfl, hd⟩
    · simp at hne
    · rfl
    · simp only [if_pos hd]

/-! ## elimination of bad samples -/

/-- the three values with the same index -/
def triple (a : Arrs) (i : ℕ) : Option ℝ × ℝ × ℝ := (a.h i, a.m i, a.s i)

open Classical in
theorem elim_inv (a : Arrs) (n : ℕ) : (eliminateBadSamples a n).2 ≤ n ∧ (∀ i, n ≤ i → triple (eliminateBadSamples a n).1 i = triple a i) ∧
    (List.range (eliminateBadSamples a n).2).map (triple (eliminateBadSamples a n).1) = ((List.range n).map (triple a)).filter (fun t => goodSample t.1 t.2.1) := by
  induction n with
  | zero => exact ⟨le_rfl, fun i _ => rfl, by simp [eliminateBadSamples]⟩
  | succ n ih =>
    have e : eliminateBadSamples a (n + 1) = elimIter (eliminateBadSamples a n).1 (eliminateBadSamples a n).2 n := by
      rw [eliminateBadSamples, List.range_succ, List.foldl_append]; rfl
    rw [e]
    generalize hst : eliminateBadSamples a n = st at ih
    obtain ⟨st1, st2⟩ := st
    obtain ⟨h1, h2, h3⟩ := ih
    simp only at h1 h2 h3
    have hn := h2 n le_rfl
    have hh : st1.h n = a.h n := congrArg Prod.fst hn
    have hm : st1.m n = a.m n := congrArg (fun t => t.2.1) hn
    have hs : st1.s n = a.s n := congrArg (fun t => t.2.2) hn
    rw [elimIter]
    simp only [hh, hm, hs]
    rw [List.range_succ, List.map_append, List.filter_append, ← h3]
    by_cases hg : goodSample (a.h n) (a.m n)
    · rw [if_pos hg]
      refine ⟨by simp only; omega, ?_, ?_⟩
      · intro i hi
        have : i ≠ st2 := by omega
        simp only [triple, Function.update_of_ne this]
        have := h2 i (by omega)
        simpa [triple] using this
      · simp only
        rw [List.range_succ, List.map_append]
        congr 1
        · apply List.map_congr_left
          intro i hi
          have : i ≠ st2 := by have := List.mem_range.1 hi; omega
          simp only [triple, Function.update_of_ne this]
        · simp [triple, hg]
    · rw [if_neg hg]
      refine ⟨by simp only; omega, fun i hi => h2 i (by omega), ?_⟩
      simp [triple, hg]

open Classical in
/-- C108: in-place elimination retains exactly the samples with finite positive phase volume and positive mass, in the original order, and the three values of each sample stay together -/
theorem C108_eliminate (a : Arrs) (n : ℕ) :
    (List.range (eliminateBadSamples a n).2).map (triple (eliminateBadSamples a n).1) = ((List.range n).map (triple a)).filter (fun t => goodSample t.1 t.2.1) := (elim_inv a n).2.2

/-- a case with three samples, of which one is retained -/
example : (eliminateBadSamples ⟨fun i => if i = 0 then none else some 2, fun i => if i = 1 then 0 else 1, fun i => i⟩ 3).2 = 1 := by
  simp [eliminateBadSamples, List.range_succ, elimIter, goodSample]

/-! ## extrapolation of the distribution function -/

/-- C108: the slopes of extrapolation are limited -/
theorem C108_slopes (spl dspl : ℝ → ℝ) (xin xout minslope : ℝ) : (Cautious.mk' spl dspl xin xout minslope).slopein ≥ minslope ∧ (Cautious.mk' spl dspl xin xout minslope).slopeout ≤ -1.05 := by
  constructor
  · simp only [Cautious.mk']
    split
    · exact le_rfl
    · next h => exact not_not.1 h
  · exact min_le_right _ _

/-- C108: the extrapolated distribution function is continuous at all positive x -/
theorem C108_continuous (spl dspl : ℝ → ℝ) (xin xout minslope : ℝ) (h0 : 0 < xin) (h1 : xin < xout) (hc : ContinuousOn spl (Set.Icc xin xout)) :
    ContinuousOn (Cautious.mk' spl dspl xin xout minslope).value (Set.Ioi 0) := by
  set c := Cautious.mk' spl dspl xin xout minslope with hcdef
  have hpow : ∀ (x0 s : ℝ), 0 < x0 → ContinuousOn (fun x : ℝ => (x / x0) ^ s) (Set.Ioi 0) := by
    intro x0 s hx0
    apply ContinuousOn.rpow_const (by fun_prop)
    intro x hx
    have : (0 : ℝ) < x := hx
    exact Or.inl (by positivity)
  have hf : c.value = fun x => if x < xin then spl xin * (x / xin) ^ c.slopein else if x > xout then spl xout * (x / xout) ^ c.slopeout else spl x := rfl
  have hx2 : 0 < xout := h0.trans h1
  -- the clamped function
  have hcl : Continuous (fun x => spl (max xin (min x xout))) := by
    apply hc.comp_continuous (by fun_prop)
    intro x
    exact ⟨le_max_left _ _, max_le h1.le (min_le_right _ _)⟩
  have e : Set.EqOn c.value (fun x => spl (max xin (min x xout)) + spl xin * ((min x xin / xin) ^ c.slopein - 1) + spl xout * ((max x xout / xout) ^ c.slopeout - 1)) (Set.Ioi 0) := by
    intro x _
    rw [hf]
    simp only
    by_cases a : x < xin
    · rw [if_pos a, min_eq_left (a.trans h1).le, max_eq_left a.le, min_eq_left a.le, max_eq_right (a.trans h1).le, div_self hx2.ne', one_rpow]
      ring
    · rw [if_neg a]
      rw [not_lt] at a
      by_cases b : x > xout
      · rw [if_pos b, min_eq_right b.le, max_eq_right h1.le, min_eq_right a, max_eq_left b.le, div_self h0.ne', one_rpow]
        ring
      · rw [if_neg b]
        rw [gt_iff_lt, not_lt] at b
        rw [min_eq_left b, max_eq_right a, min_eq_right a, max_eq_right b, div_self h0.ne', div_self hx2.ne', one_rpow, one_rpow]
        ring
  refine ContinuousOn.congr ?_ e
  have k1 : ContinuousOn (fun x : ℝ => (min x xin / xin) ^ c.slopein) (Set.Ioi 0) := by
    apply (hpow xin c.slopein h0).comp (f := fun x => min x xin) (by fun_prop)
    intro x hx
    exact lt_min hx h0
  have k2 : ContinuousOn (fun x : ℝ => (max x xout / xout) ^ c.slopeout) (Set.Ioi 0) := by
    apply (hpow xout c.slopeout hx2).comp (f := fun x => max x xout) (by fun_prop)
    intro x hx
    exact lt_max_of_lt_left (show (0 : ℝ) < x from hx)
  exact (hcl.continuousOn.add ((k1.sub continuousOn_const).const_smul (spl xin))).add ((k2.sub continuousOn_const).const_smul (spl xout))

theorem powerlaw_deriv (x0 f0 s x : ℝ) (h0 : 0 < x0) (hx : 0 < x) :
    HasDerivAt (fun x : ℝ => f0 * (x / x0) ^ s) (f0 * (x / x0) ^ s * s / x) x ∧ HasDerivAt (fun x : ℝ => f0 * (x / x0) ^ s * s / x) (f0 * (x / x0) ^ s * s * (s - 1) / x ^ 2) x := by
  have h1 : HasDerivAt (fun x : ℝ => f0 * (x / x0) ^ s) (f0 * (x / x0) ^ s * s / x) x := by
    have hd : HasDerivAt (fun x : ℝ => x / x0) (1 / x0) x := (hasDerivAt_id x).div_const x0
    have := (hd.rpow_const (p := s) (Or.inl (by positivity))).const_mul f0
    refine this.congr_deriv ?_
    rw [rpow_sub_one (by positivity)]
    field_simp
  refine ⟨h1, ?_⟩
  have := (h1.mul_const s).div (hasDerivAt_id x) hx.ne'
  refine this.congr_deriv ?_
  simp only [id]
  field_simp

/-- C108: in the regions of extrapolation, the returned first and second derivatives are the derivatives of the returned value -/
theorem C108_derivatives (spl dspl d2spl : ℝ → ℝ) (xin xout minslope : ℝ) (h0 : 0 < xin) (h1 : xin < xout) (c : Cautious) (hc : c = Cautious.mk' spl dspl xin xout minslope) (x : ℝ) (hx : 0 < x) (hr : x < xin ∨ xout < x) :
    HasDerivAt c.value (c.deriv x) x ∧ HasDerivAt c.deriv (c.deriv2 d2spl x) x := by
  have hxi : c.xin = xin := by rw [hc]; rfl
  have hxo : c.xout = xout := by rw [hc]; rfl
  rcases hr with hr | hr
  · obtain ⟨p1, p2⟩ := powerlaw_deriv xin c.fin c.slopein x h0 hx
    have hev : ∀ᶠ y in nhds x, y < xin := Iio_mem_nhds hr
    have v : c.deriv x = c.fin * (x / xin) ^ c.slopein * c.slopein / x := by rw [Cautious.deriv, hxi, if_pos hr]
    have v2 : c.deriv2 d2spl x = c.fin * (x / xin) ^ c.slopein * c.slopein * (c.slopein - 1) / x ^ 2 := by rw [Cautious.deriv2, hxi, if_pos hr]
    rw [v, v2]
    refine ⟨p1.congr_of_eventuallyEq ?_, p2.congr_of_eventuallyEq ?_⟩
    · filter_upwards [hev] with y hy
      rw [Cautious.value, hxi, if_pos hy]
    · filter_upwards [hev] with y hy
      rw [Cautious.deriv, hxi, if_pos hy]
  · obtain ⟨p1, p2⟩ := powerlaw_deriv xout c.fout c.slopeout x (h0.trans h1) hx
    have hev : ∀ᶠ y in nhds x, xout < y := Ioi_mem_nhds hr
    have hn : ∀ y, xout < y → ¬ y < xin := fun y hy => not_lt.2 (h1.trans hy).le
    have v : c.deriv x = c.fout * (x / xout) ^ c.slopeout * c.slopeout / x := by rw [Cautious.deriv, hxi, hxo, if_neg (hn x hr), if_pos hr]
    have v2 : c.deriv2 d2spl x = c.fout * (x / xout) ^ c.slopeout * c.slopeout * (c.slopeout - 1) / x ^ 2 := by rw [Cautious.deriv2, hxi, hxo, if_neg (hn x hr), if_pos hr]
    rw [v, v2]
    refine ⟨p1.congr_of_eventuallyEq ?_, p2.congr_of_eventuallyEq ?_⟩
    · filter_upwards [hev] with y hy
      rw [Cautious.value, hxi, hxo, if_neg (hn y hy), if_pos hy]
    · filter_upwards [hev] with y hy
      rw [Cautious.deriv, hxi, hxo, if_neg (hn y hy), if_pos hy]

/-- C108: the total mass outside the grid is finite, whatever the fitted spline is; and with the lower limit on the slope used in the program (0), the function does not diverge at small x -/
theorem C108_finite_mass (spl dspl : ℝ → ℝ) (xin xout : ℝ) (h0 : 0 < xin) (h1 : xin < xout) (hpos : 0 ≤ spl xin) (c : Cautious) (hc : c = Cautious.mk' spl dspl xin xout 0) :
    IntegrableOn c.value (Set.Ioi xout) ∧ ∀ x, 0 < x → x < xin → 0 ≤ c.value x ∧ c.value x ≤ spl xin := by
  have hxi : c.xin = xin := by rw [hc]; rfl
  have hxo : c.xout = xout := by rw [hc]; rfl
  obtain ⟨s1, s2⟩ := C108_slopes spl dspl xin xout 0
  rw [← hc] at s1 s2
  have hx2 : 0 < xout := h0.trans h1
  constructor
  · have h2 : IntegrableOn (fun x : ℝ => x ^ c.slopeout) (Set.Ioi xout) := integrableOn_Ioi_rpow_of_lt (by norm_num at s2 ⊢; linarith) hx2
    have h3 := h2.const_mul (c.fout / xout ^ c.slopeout)
    refine IntegrableOn.congr_fun h3 ?_ measurableSet_Ioi
    intro x hx
    have hx' : xout < x := hx
    simp only
    rw [Cautious.value, hxi, hxo, if_neg (not_lt.2 (h1.trans hx').le), if_pos hx', div_rpow (hx2.trans hx').le hx2.le]
    ring
  · intro x hx hlt
    rw [Cautious.value, hxi, if_pos hlt]
    have hf : c.fin = spl xin := by rw [hc]; rfl
    have hr : (x / xin) ^ c.slopein ≤ 1 := rpow_le_one (by positivity) ((div_le_one h0).2 hlt.le) s1
    have hr0 : 0 ≤ (x / xin) ^ c.slopein := rpow_nonneg (by positivity) _
    rw [hf]
    exact ⟨by positivity, by nlinarith⟩

/-! ## slope of the potential -/

/-- C108 (partial: see below): after the correction, the estimate of the inner slope of the potential is at least 1/4; any power law A + C r^s with the given values at two innermost points and derivative at the first one has s > 0,
so that the potential is finite at origin -/
theorem C108_slope_partial (r0 r1 Phi0 Phi1 dPhi0 : ℝ) (h0 : 0 < r0) (h1 : r0 < r1) (hP : Phi1 ≠ Phi0) :
    slopeEstimate r0 r1 Phi0 Phi1 (correctDeriv r0 r1 Phi0 Phi1 dPhi0) ≥ 1 / 4 ∧
    ∀ A C s : ℝ, s ≠ 0 → Phi0 = A + C * r0 ^ s → Phi1 = A + C * r1 ^ s → correctDeriv r0 r1 Phi0 Phi1 dPhi0 = C * s * r0 ^ (s - 1) → 0 < s := by
  set L := log (r1 / r0) with hL
  have hL0 : 0 < L := log_pos ((one_lt_div h0).2 h1)
  have hd : Phi1 - Phi0 ≠ 0 := sub_ne_zero.2 hP
  have hest : slopeEstimate r0 r1 Phi0 Phi1 (correctDeriv r0 r1 Phi0 Phi1 dPhi0) ≥ 1 / 4 := by
    by_cases hc : slopeEstimate r0 r1 Phi0 Phi1 dPhi0 < 1 / 4
    · rw [correctDeriv, if_pos hc, slopeEstimate, ← hL]
      apply le_of_eq
      norm_num
      field_simp
      ring
    · rw [correctDeriv, if_neg hc]
      exact not_lt.1 hc
  refine ⟨hest, ?_⟩
  intro A C s hs e0 e1 ed
  rw [ed, slopeEstimate, ← hL] at hest
  have hratio : r1 ^ s = r0 ^ s * exp (L * s) := by
    have : exp (L * s) = (r1 / r0) ^ s := by rw [hL, rpow_def_of_pos (by have := h0.trans h1; positivity)]
    rw [this, div_rpow (h0.trans h1).le h0.le]
    have := (rpow_pos_of_pos h0 s).ne'
    field_simp
  have hC : C ≠ 0 := by
    rintro rfl
    apply hP
    rw [e0, e1]; ring
  have hp := (rpow_pos_of_pos h0 s).ne'
  have hval : (Phi1 - Phi0) / (C * s * r0 ^ (s - 1) * r0 * L) = (exp (L * s) - 1) / (L * s) := by
    rw [e0, e1, hratio, rpow_sub_one h0.ne']
    field_simp
    ring
  rw [hval] at hest
  by_contra hcon
  have hneg : s < 0 := lt_of_le_of_ne (not_lt.1 hcon) hs
  have hx : L * s < 0 := mul_neg_of_pos_of_neg hL0 hneg
  have h4 : L * s + 1 ≤ exp (L * s) := add_one_le_exp _
  have h5 : (exp (L * s) - 1) / (L * s) ≤ 1 := by
    rw [div_le_iff_of_neg hx]
    linarith
  have : ((exp (L * s) - 1) / (L * s) - 1) / L * 2 ≤ 0 := by
    apply mul_nonpos_of_nonpos_of_nonneg _ (by norm_num)
    apply div_nonpos_of_nonpos_of_nonneg _ hL0.le
    linarith
  linarith

/-- on a sparse grid, the slope is overestimated, and a potential whose slope (1/5) is below the limit 1/4 is left unchanged -/
theorem C108_slope_refuted : ∃ r0 r1 : ℝ, 0 < r0 ∧ r0 < r1 ∧ ∃ s : ℝ, s < 1 / 4 ∧ 0 < s ∧ correctDeriv r0 r1 (-1 + r0 ^ s) (-1 + r1 ^ s) (s * r0 ^ (s - 1)) = s * r0 ^ (s - 1) := by
  refine ⟨1, exp 10, by norm_num, by simp, 1 / 5, by norm_num, by norm_num, ?_⟩
  have : exp (10 : ℝ) ^ (1 / 5 : ℝ) = exp 1 ^ 2 := by
    rw [← exp_mul, ← exp_nat_mul]; norm_num
  have he := exp_one_gt_d9
  rw [correctDeriv, if_neg]
  rw [slopeEstimate, this]
  simp only [one_rpow, div_one, log_exp]
  have h2 : (1 : ℝ) * (1 : ℝ) = 1 := by norm_num
  have hsq : exp 1 ^ 2 > 7 := by nlinarith
  rw [not_lt]
  generalize exp 1 ^ 2 = E at *
  norm_num
  linarith

/-! ## total energy -/

/-- kinetic energy of all particles -/
def kinetic (parts : List PartE) : ℝ := (parts.map (fun p => p.mass * (p.vx ^ 2 + p.vy ^ 2 + p.vz ^ 2) / 2)).sum

/-- potential energy of all particles in the given potential (without the factor 1/2) -/
def potSum (parts : List PartE) : ℝ := (parts.map (fun p => p.mass * (p.PhiStars + p.PhiBH))).sum

theorem energy_fold (parts : List PartE) (E : ℝ × ℝ) : parts.foldl (fun E p =>
    (E.1 + p.mass * ((p.vx ^ 2 + p.vy ^ 2 + p.vz ^ 2) * 0.5 + (p.PhiStars + p.PhiBH) * 0.5), E.2 + p.mass * ((p.vx ^ 2 + p.vy ^ 2 + p.vz ^ 2) * 0.5 + (p.PhiStars + p.PhiBH)))) E =
    (E.1 + kinetic parts + potSum parts / 2, E.2 + kinetic parts + potSum parts) := by
  induction parts generalizing E with
  | nil => simp [kinetic, potSum]
  | cons p l ih =>
    rw [List.foldl_cons, ih, kinetic, kinetic, potSum, potSum]
    simp only [List.map_cons, List.sum_cons, Prod.mk.injEq]
    constructor <;> (norm_num; ring)

/-- C108: diagnostic energies: the total energy is the kinetic energy of particles plus half of the sum of (mass times potential) over particles and the central black hole, plus the internal energy of the binary
-m1 m2 / (2 a) (if there is one); the kinetic and potential energies derived from it are consistent: their sum is the total energy, and the kinetic one is that of particles -/
theorem C108_energies (PhiCenter M a q : ℝ) (hM : 0 ≤ M) (hq : 0 ≤ q) (parts : List PartE) (Ebin : ℝ) (hE : Ebin = if a > 0 then -(M / (1 + q)) * (M * q / (1 + q)) / (2 * a) else 0) :
    (totalEnergyModel PhiCenter M a q parts).1 = kinetic parts + (potSum parts + M * PhiCenter) / 2 + Ebin ∧
    (kinPot (totalEnergyModel PhiCenter M a q parts)).1 = kinetic parts ∧
    (kinPot (totalEnergyModel PhiCenter M a q parts)).1 + (kinPot (totalEnergyModel PhiCenter M a q parts)).2 = (totalEnergyModel PhiCenter M a q parts).1 := by
  have q1 : 1 + q ≠ 0 := by positivity
  have key : totalEnergyModel PhiCenter M a q parts = (kinetic parts + (potSum parts + M * PhiCenter) / 2 + Ebin, kinetic parts + potSum parts + M * PhiCenter + 2 * Ebin) := by
    rw [totalEnergyModel]
    simp only [energy_fold]
    rw [hE]
    rcases hM.eq_or_lt with h | h
    · rw [← h]
      by_cases ha : a > 0
      · simp [ha]
      · simp [ha]
    · by_cases ha : a > 0
      · simp only [if_pos h, if_pos ha, Prod.mk.injEq]
        constructor <;> (norm_num; field_simp; ring)
      · simp only [if_pos h, if_neg ha, Prod.mk.injEq]
        constructor <;> (norm_num; ring)
  rw [key, kinPot]
  refine ⟨rfl, ?_, ?_⟩
  · simp only; ring
  · simp only; ring

end

end Verif.Raga
