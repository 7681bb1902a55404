import Verif.Raga.BinaryProps

/-! # Raga: sub-steps of the evolution of a binary black hole, properties -/

namespace Verif.Raga

open Real Verif.Pot

noncomputable section

/-- admissible orbit of a binary -/
def Adm (a e : ℝ) : Prop := 0 < a ∧ 0 ≤ e ∧ e < 1

theorem tstep_spec (p : EvPar) (s : EvSt) (hs : Adm s.sma s.ecc) (hT : s.timePassed ≤ s.maxTime) :
    0 ≤ tstepOf p s ∧ tstepOf p s ≤ s.maxTime - s.timePassed ∧ tstepOf p s * |p.H + Hgw p s.sma s.ecc| ≤ 0.01 / s.sma ∧
    (tstepOf p s = s.maxTime - s.timePassed ∨ ∀ d, 0 ≤ d → d * |p.H + Hgw p s.sma s.ecc| ≤ 0.01 / s.sma →
      d * |p.K + Kgw p s.sma s.ecc| ≤ 0.01 * min (1 - s.ecc ^ 2) (s.ecc ^ 2 + 1e-3) → d ≤ tstepOf p s) := by
  obtain ⟨ha, he0, he1⟩ := hs
  have hx : 0 < 1 - s.ecc ^ 2 := by nlinarith
  set m := min (1 - s.ecc ^ 2) (s.ecc ^ 2 + 1e-3) with hm
  have hm0 : 0 < m := lt_min hx (by positivity)
  set HH := p.H + Hgw p s.sma s.ecc with hHH
  set KK := p.K + Kgw p s.sma s.ecc with hKK
  have hrem : 0 ≤ s.maxTime - s.timePassed := by linarith
  -- the minimum of two ratios
  have key : (min (ratioInf m KK) (ratioInf (1 / s.sma) HH) = ⊤ ∧ HH = 0 ∧ KK = 0) ∨
      ∃ t : ℝ, min (ratioInf m KK) (ratioInf (1 / s.sma) HH) = (t : WithTop ℝ) ∧ 0 < t ∧ t * |HH| ≤ 1 / s.sma ∧ (∀ d, 0 ≤ d → d * |HH| ≤ 1 / s.sma → d * |KK| ≤ m → d ≤ t) := by
    by_cases hK0 : KK = 0
    · by_cases hH0 : HH = 0
      · left
        simp [ratioInf, hK0, hH0]
      · right
        have hp : 0 < |HH| := abs_pos.2 hH0
        refine ⟨1 / s.sma / |HH|, by simp [ratioInf, hK0, hH0], by positivity, by rw [div_mul_cancel₀ _ hp.ne'], ?_⟩
        intro d _ h1 _
        rwa [le_div_iff₀ hp]
    · have hpK : 0 < |KK| := abs_pos.2 hK0
      right
      by_cases hH0 : HH = 0
      · refine ⟨m / |KK|, by simp [ratioInf, hK0, hH0], by positivity, by simp [hH0, ha.le], ?_⟩
        intro d _ _ h2
        rwa [le_div_iff₀ hpK]
      · have hp : 0 < |HH| := abs_pos.2 hH0
        refine ⟨min (m / |KK|) (1 / s.sma / |HH|), by simp [ratioInf, hK0, hH0], lt_min (by positivity) (by positivity), ?_, ?_⟩
        · calc min (m / |KK|) (1 / s.sma / |HH|) * |HH| ≤ 1 / s.sma / |HH| * |HH| := by gcongr; exact min_le_right _ _
            _ = 1 / s.sma := by rw [div_mul_cancel₀ _ hp.ne']
        · intro d _ h1 h2
          exact le_min (by rwa [le_div_iff₀ hpK]) (by rwa [le_div_iff₀ hp])
  have hval : tstepOf p s = match min (ratioInf m KK) (ratioInf (1 / s.sma) HH) with
      | ⊤ => s.maxTime - s.timePassed
      | (t : ℝ) => if 0.01 * t > s.maxTime - s.timePassed then s.maxTime - s.timePassed else 0.01 * t := rfl
  rcases key with ⟨h1, h2, h3⟩ | ⟨t, h1, h2, h3, h4⟩
  · have : tstepOf p s = s.maxTime - s.timePassed := by rw [hval, h1]
    rw [this, h2]
    refine ⟨hrem, le_rfl, ?_, Or.inl rfl⟩
    simp only [abs_zero, mul_zero]
    positivity
  · have hv : tstepOf p s = if 0.01 * t > s.maxTime - s.timePassed then s.maxTime - s.timePassed else 0.01 * t := by rw [hval, h1]
    have hb : 0.01 * t * |HH| ≤ 0.01 / s.sma := by
      rw [mul_assoc, div_eq_mul_one_div 0.01]
      gcongr
    by_cases hc : 0.01 * t > s.maxTime - s.timePassed
    · rw [hv, if_pos hc]
      refine ⟨hrem, le_rfl, ?_, Or.inl rfl⟩
      exact le_trans (by gcongr) hb
    · rw [hv, if_neg hc]
      refine ⟨by positivity, not_lt.1 hc, hb, Or.inr ?_⟩
      intro d hd h5 h6
      have := h4 (100 * d) (by positivity) (by rw [div_eq_mul_one_div] at h5; norm_num at h5 ⊢; linarith) (by norm_num at h6 ⊢; linarith)
      norm_num
      linarith

/-- what holds after each sub-step: either the binary is still there, or it has coalesced and the duration of the episode was cut at this moment -/
def EvInv (T : ℝ) (s : EvSt) : Prop := (Adm s.sma s.ecc ∧ 0 ≤ s.timePassed ∧ s.timePassed ≤ s.maxTime ∧ s.maxTime = T) ∨ (s.sma = 0 ∧ s.ecc = 0 ∧ s.timePassed = s.maxTime ∧ 0 ≤ s.maxTime ∧ s.maxTime ≤ T)

theorem Hgw_nonneg (p : EvPar) (hM : 0 ≤ p.mass) (hq : 0 ≤ p.q) (hc : 0 ≤ p.invc) (a e : ℝ) (ha : 0 < a) (he : e ^ 2 ≤ 1) : 0 ≤ Hgw p a e := by
  rw [Hgw, gwMult]
  have : 0 ≤ (1 - e ^ 2) ^ (-3.5 : ℝ) := rpow_nonneg (by linarith) _
  positivity

theorem evStep_inv (p : EvPar) (hM : 0 ≤ p.mass) (hq : 0 ≤ p.q) (hc : 0 ≤ p.invc) (T : ℝ) (s : EvSt) (hs : Adm s.sma s.ecc) (h0 : 0 ≤ s.timePassed) (hT : s.timePassed ≤ s.maxTime) (hm : s.maxTime = T) : EvInv T (evStep p s) := by
  obtain ⟨t0, t1, t2, -⟩ := tstep_spec p s hs hT
  have ha := hs.1
  have he := hs.2
  rw [evStep]
  by_cases hco : coalesces p s
  · simp only [if_pos hco]
    right
    have hH := Hgw_nonneg p hM hq hc s.sma s.ecc ha (by nlinarith [he.1, he.2])
    refine ⟨rfl, rfl, rfl, ?_, ?_⟩
    · simp only; positivity
    · simp only
      have := hco.2.1
      linarith
  · simp only [if_neg hco]
    left
    refine ⟨⟨?_, ?_, ?_⟩, ?_, ?_, hm⟩
    · simp only
      have h1 := neg_abs_le (tstepOf p s * (p.H + Hgw p s.sma s.ecc))
      rw [abs_mul, abs_of_nonneg t0] at h1
      have h2 : 0 < 1 / s.sma := by positivity
      have h3 : 0.01 / s.sma = 0.01 * (1 / s.sma) := by rw [div_eq_mul_one_div]
      have h4 : (0 : ℝ) < 1 / s.sma + tstepOf p s * (p.H + Hgw p s.sma s.ecc) := by
        rw [h3] at t2
        linarith
      positivity
    · simp only
      exact le_min (by norm_num) (sqrt_nonneg _)
    · simp only
      exact lt_of_le_of_lt (min_le_left _ _) (by norm_num)
    · simp only; linarith
    · simp only; linarith

theorem evLoop_inv (p : EvPar) (hM : 0 ≤ p.mass) (hq : 0 ≤ p.q) (hc : 0 ≤ p.invc) (T : ℝ) : ∀ (n : ℕ) (s s' : EvSt), Adm s.sma s.ecc → 0 ≤ s.timePassed → s.timePassed ≤ s.maxTime → s.maxTime = T → evLoop p n s = some s' →
    EvInv T s' ∧ ¬ evGo s' ∧ s'.ecc ≤ 0.999 := by
  intro n
  induction n with
  | zero => intro s s' _ _ _ _ h; simp [evLoop] at h
  | succ n ih =>
    intro s s' hs h0 hT hm h
    have hi := evStep_inv p hM hq hc T s hs h0 hT hm
    rw [evLoop] at h
    by_cases hg : evGo (evStep p s)
    · rw [if_pos hg] at h
      rcases hi with ⟨a1, a2, a3, a4⟩ | ⟨b1, b2, b3, b4, b5⟩
      · exact ih _ _ a1 a2 a3 a4 h
      · rw [evGo, b3] at hg
        nlinarith
    · rw [if_neg hg] at h
      have := (Option.some.inj h).symm
      subst this
      refine ⟨hi, hg, ?_⟩
      rw [evStep]
      by_cases hco : coalesces p s
      · simp only [if_pos hco]; norm_num
      · simp only [if_neg hco]; exact min_le_left _ _

/-- C107: whenever the evolution of a binary during an episode ends, either it has coalesced (semimajor axis and eccentricity are zero, and the episode was cut at this moment),
or the semimajor axis is positive, 0 ≤ ecc ≤ 0.999, and the time that passed is the duration of the episode (to a relative accuracy of 1e-10) -/
theorem C107_admissible (p : EvPar) (hM : 0 ≤ p.mass) (hq : 0 ≤ p.q) (hc : 0 ≤ p.invc) (a e T : ℝ) (h : Adm a e) (hT : 0 ≤ T) (s : EvSt) (hs : EvolvesTo p a e T s) :
    (s.sma = 0 ∧ s.ecc = 0 ∧ 0 ≤ s.maxTime ∧ s.maxTime ≤ T) ∨ (0 < s.sma ∧ 0 ≤ s.ecc ∧ s.ecc ≤ 0.999 ∧ s.maxTime = T ∧ T * (1 - 1e-10) ≤ s.timePassed ∧ s.timePassed ≤ T) := by
  obtain ⟨n, hn⟩ := hs
  obtain ⟨h1, h2, h3⟩ := evLoop_inv p hM hq hc T n _ _ h le_rfl hT rfl hn
  rcases h1 with ⟨a1, a2, a3, a4⟩ | ⟨b1, b2, b3, b4, b5⟩
  · right
    rw [evGo, not_lt, a4] at h2
    exact ⟨a1.1, a1.2.1, h3, a4, h2, a4 ▸ a3⟩
  · left
    exact ⟨b1, b2, b4, b5⟩

/-! ## no emission of gravitational waves -/

theorem Hgw_zero (p : EvPar) (hc : p.invc = 0) (a e : ℝ) : Hgw p a e = 0 := by simp [Hgw, gwMult, hc]

theorem Kgw_zero (p : EvPar) (hc : p.invc = 0) (a e : ℝ) : Kgw p a e = 0 := by simp [Kgw, gwMult, hc]

theorem evStep_nogw (p : EvPar) (hc : p.invc = 0) (s : EvSt) : evStep p s =
    ⟨1 / (1 / s.sma + tstepOf p s * p.H), min 0.999 (√(max 0 (s.ecc ^ 2 + tstepOf p s * p.K))), s.timePassed + tstepOf p s, s.maxTime⟩ := by
  rw [evStep]
  have : ¬ coalesces p s := fun h => h.1 (Hgw_zero p hc _ _)
  simp only [if_neg this, Hgw_zero p hc, Kgw_zero p hc, add_zero]

/-- state of the loop without emission: the inverse semimajor axis is a linear function of time -/
def NoGW (p : EvPar) (a T : ℝ) (s : EvSt) : Prop := Adm s.sma s.ecc ∧ 0 ≤ s.timePassed ∧ s.timePassed ≤ s.maxTime ∧ s.maxTime = T ∧ 1 / s.sma = 1 / a + p.H * s.timePassed

theorem evStep_NoGW (p : EvPar) (hc : p.invc = 0) (a T : ℝ) (s : EvSt) (h : NoGW p a T s) : NoGW p a T (evStep p s) := by
  obtain ⟨h1, h2, h3, h4, h5⟩ := h
  obtain ⟨t0, t1, t2, -⟩ := tstep_spec p s h1 h3
  rw [Hgw_zero p hc, add_zero] at t2
  rw [evStep_nogw p hc]
  have h6 := neg_abs_le (tstepOf p s * p.H)
  rw [abs_mul, abs_of_nonneg t0] at h6
  have h7 : 0 < 1 / s.sma := by have := h1.1; positivity
  have h8 : (0 : ℝ) < 1 / s.sma + tstepOf p s * p.H := by
    rw [div_eq_mul_one_div] at t2
    linarith
  refine ⟨⟨by simp only; positivity, le_min (by norm_num) (sqrt_nonneg _), lt_of_le_of_lt (min_le_left _ _) (by norm_num)⟩, by simp only; linarith, by simp only; linarith, h4, ?_⟩
  simp only [one_div_one_div]
  rw [h5]
  ring

theorem evLoop_NoGW (p : EvPar) (hc : p.invc = 0) (a T : ℝ) : ∀ (n : ℕ) (s s' : EvSt), NoGW p a T s → evLoop p n s = some s' → NoGW p a T s' ∧ ¬ evGo s' := by
  intro n
  induction n with
  | zero => intro s s' _ h; simp [evLoop] at h
  | succ n ih =>
    intro s s' hs h
    have hi := evStep_NoGW p hc a T s hs
    rw [evLoop] at h
    by_cases hg : evGo (evStep p s)
    · rw [if_pos hg] at h
      exact ih _ _ hi h
    · rw [if_neg hg] at h
      have := (Option.some.inj h).symm
      subst this
      exact ⟨hi, hg⟩

/-- C107: without emission of gravitational waves, the result of all sub-steps is that the inverse semimajor axis changes at the constant rate H, up to the time when the evolution ends -/
theorem C107_hardening (p : EvPar) (hc : p.invc = 0) (a e T : ℝ) (h : Adm a e) (hT : 0 ≤ T) (s : EvSt) (hs : EvolvesTo p a e T s) :
    0 < s.sma ∧ 1 / s.sma = 1 / a + p.H * s.timePassed ∧ T * (1 - 1e-10) ≤ s.timePassed ∧ s.timePassed ≤ T := by
  obtain ⟨n, hn⟩ := hs
  obtain ⟨⟨h1, h2, h3, h4, h5⟩, h6⟩ := evLoop_NoGW p hc a T n _ _ ⟨h, le_rfl, hT, rfl, by simp⟩ hn
  rw [evGo, not_lt, h4] at h6
  exact ⟨h1.1, h5, h6, h4 ▸ h3⟩

theorem evLoop_terminates (p : EvPar) (hc : p.invc = 0) (a T m δ : ℝ) (hδ : 0 < δ) (hma : ∀ t, 0 ≤ t → t ≤ T → m ≤ 1 / a + p.H * t)
    (hδH : δ * |p.H| ≤ 0.01 * m) (hδK : δ * |p.K| ≤ 0.01 * 1e-3) : ∀ (n : ℕ) (s : EvSt), NoGW p a T s → s.ecc ≤ 0.999 → T - s.timePassed < n * δ → ∃ k s', evLoop p k s = some s' := by
  intro n
  induction n with
  | zero =>
    intro s h _ hlt
    have := h.2.2.1
    rw [h.2.2.2.1] at this
    norm_num at hlt
    linarith
  | succ n ih =>
    intro s h hecc hlt
    have hi := evStep_NoGW p hc a T s h
    by_cases hg : evGo (evStep p s)
    · have he' : (evStep p s).ecc ≤ 0.999 := by rw [evStep_nogw p hc]; exact min_le_left _ _
      obtain ⟨t0, t1, t2, t3⟩ := tstep_spec p s h.1 h.2.2.1
      have hstep : δ ≤ tstepOf p s := by
        rcases t3 with e | e
        · exfalso
          rw [evStep_nogw p hc, evGo] at hg
          simp only [e] at hg
          have : s.timePassed + (s.maxTime - s.timePassed) = s.maxTime := by ring
          rw [this] at hg
          have : 0 ≤ s.maxTime := h.2.1.trans h.2.2.1
          nlinarith
        · apply e δ hδ.le
          · rw [Hgw_zero p hc, add_zero, div_eq_mul_one_div, h.2.2.2.2]
            have := hma s.timePassed h.2.1 (by rw [← h.2.2.2.1]; exact h.2.2.1)
            linarith
          · rw [Kgw_zero p hc, add_zero]
            refine hδK.trans ?_
            have h1 : (1e-3 : ℝ) ≤ min (1 - s.ecc ^ 2) (s.ecc ^ 2 + 1e-3) := by
              refine le_min ?_ (by nlinarith [sq_nonneg s.ecc])
              have := h.1.2.1
              norm_num at hecc ⊢
              nlinarith
            linarith
      obtain ⟨k, s', hk⟩ := ih (evStep p s) hi he' (by
        rw [evStep_nogw p hc]
        simp only
        push_cast at hlt
        linarith)
      exact ⟨k + 1, s', by rw [evLoop, if_pos hg]; exact hk⟩
    · exact ⟨1, evStep p s, by rw [evLoop, if_neg hg]⟩

/-- C107 (partial: the case of a binary that becomes unbound during the episode is excluded, see below): without emission of gravitational waves, the evolution of the binary terminates -/
theorem C107_terminates_partial (p : EvPar) (hc : p.invc = 0) (a e T : ℝ) (h : Adm a e) (he : e ≤ 0.999) (hT : 0 ≤ T) (hb : 0 < 1 / a + p.H * T) : ∃ s, EvolvesTo p a e T s := by
  have ha : 0 < 1 / a := by have := h.1; positivity
  have hm : 0 < min (1 / a) (1 / a + p.H * T) := lt_min ha hb
  set m := min (1 / a) (1 / a + p.H * T) with hmdef
  set δ := min (0.01 * m / (|p.H| + 1)) (0.01 * 1e-3 / (|p.K| + 1)) with hδdef
  have hδ : 0 < δ := lt_min (by positivity) (by positivity)
  have d1 : δ * |p.H| ≤ 0.01 * m := by
    calc δ * |p.H| ≤ 0.01 * m / (|p.H| + 1) * (|p.H| + 1) := by
          apply mul_le_mul (min_le_left _ _) (by linarith) (abs_nonneg _) (by positivity)
      _ = 0.01 * m := div_mul_cancel₀ _ (by positivity)
  have d2 : δ * |p.K| ≤ 0.01 * 1e-3 := by
    calc δ * |p.K| ≤ 0.01 * 1e-3 / (|p.K| + 1) * (|p.K| + 1) := by
          apply mul_le_mul (min_le_right _ _) (by linarith) (abs_nonneg _) (by positivity)
      _ = 0.01 * 1e-3 := div_mul_cancel₀ _ (by positivity)
  obtain ⟨n, hn⟩ := exists_nat_gt (T / δ)
  obtain ⟨k, s', hk⟩ := evLoop_terminates p hc a T m δ hδ (by
    intro t h0 h1
    rcases le_total 0 p.H with hH | hH
    · exact (min_le_left _ _).trans (by nlinarith)
    · exact (min_le_right _ _).trans (by nlinarith)) d1 d2 n ⟨a, e, 0, T⟩ ⟨h, le_rfl, hT, rfl, by simp⟩ he (by
    rw [div_lt_iff₀ hδ] at hn
    simpa using hn)
  exact ⟨s', k, hk⟩

/-- if the stars transfer so much energy to the binary that it would become unbound during the episode, then the evolution never terminates: the sub-steps become shorter and shorter, and do not reach the end of the episode -/
theorem C107_nontermination_refuted (p : EvPar) (hc : p.invc = 0) (a e T : ℝ) (h : Adm a e) (hT : 0 ≤ T) (hb : 1 / a + p.H * (T * (1 - 1e-10)) ≤ 0) : ¬ ∃ s, EvolvesTo p a e T s := by
  rintro ⟨s, hs⟩
  obtain ⟨h1, h2, h3, -⟩ := C107_hardening p hc a e T h hT s hs
  have h4 : 0 < 1 / s.sma := by positivity
  have ha : 0 < 1 / a := by have := h.1; positivity
  have hH : p.H ≤ 0 := by
    by_contra hcon
    push Not at hcon
    have : 0 ≤ p.H * (T * (1 - 1e-10)) := by
      apply mul_nonneg hcon.le (mul_nonneg hT (by norm_num))
    linarith
  have : p.H * s.timePassed ≤ p.H * (T * (1 - 1e-10)) := mul_le_mul_of_nonpos_left h3 hH
  rw [h2] at h4
  linarith

/-- both situations occur -/
example : (∃ (p : EvPar) (a e T : ℝ), p.invc = 0 ∧ Adm a e ∧ e ≤ 0.999 ∧ 0 ≤ T ∧ 0 < 1 / a + p.H * T ∧ p.H < 0) ∧
    ∃ (p : EvPar) (a e T : ℝ), p.invc = 0 ∧ Adm a e ∧ 0 ≤ T ∧ 1 / a + p.H * (T * (1 - 1e-10)) ≤ 0 :=
  ⟨⟨⟨1, 1, 0, -1, 0⟩, 1, 0.5, 0.5, rfl, ⟨by norm_num, by norm_num, by norm_num⟩, by norm_num, by norm_num, by norm_num, by norm_num⟩,
   ⟨⟨1, 1, 0, -1, 0⟩, 1, 0.5, 2, rfl, ⟨by norm_num, by norm_num, by norm_num⟩, by norm_num, by norm_num⟩⟩

/-! ## the entire episode -/

theorem foldl_enc (f : Encounter → ℝ) (m : ℝ) (l : List Encounter) (d : ℝ) : l.foldl (fun d e => d + m * f e) d = d + m * (l.map f).sum := by
  induction l generalizing d with
  | nil => simp
  | cons e l ih => rw [List.foldl_cons, ih, List.map_cons, List.sum_cons]; ring

/-- C107: the total change is the sum over particles of the mass times the changes in all encounters of this particle; captured particles (of zero mass) do not contribute -/
theorem C107_sum (f : Encounter → ℝ) (l : List (ℝ × List Encounter)) : sumDelta f l = (l.map (fun pe => pe.1 * (pe.2.map f).sum)).sum := by
  have : ∀ d, l.foldl (fun d pe => pe.2.foldl (fun d e => d + pe.1 * f e) d) d = d + (l.map (fun pe => pe.1 * (pe.2.map f).sum)).sum := by
    induction l with
    | nil => simp
    | cons pe l ih => intro d; rw [List.foldl_cons, foldl_enc, ih, List.map_cons, List.sum_cons]; ring
  rw [sumDelta, this, zero_add]

/-- C107 (partial: the binary must remain bound, and there is no emission of gravitational waves): over the entire episode, the energy of the binary changes by minus the energy gained by stars, to a relative accuracy of 1e-10 -/
theorem C107_episode_partial (bh : KBParams) (hM : 0 < bh.mass) (hq : 0 < bh.q) (h : Adm bh.sma bh.ecc) (he : bh.ecc ≤ 0.999) (T : ℝ) (hT : 0 < T) (l : List (ℝ × List Encounter)) (dE : ℝ)
    (hdE : sumDelta Encounter.deltaE l = dE) (hb : binEnergy bh.mass bh.q bh.sma < sumDelta Encounter.deltaE l) (K : ℝ) :
    (∃ s, EvolvesTo ⟨bh.mass, bh.q, 0, hardeningH bh T dE, K⟩ bh.sma bh.ecc T s) ∧
    ∀ s, EvolvesTo ⟨bh.mass, bh.q, 0, hardeningH bh T dE, K⟩ bh.sma bh.ecc T s → |binEnergy bh.mass bh.q s.sma - binEnergy bh.mass bh.q bh.sma + dE| ≤ 1e-10 * |dE| := by
  rw [hdE] at hb
  have ha := h.1
  have q1 : 0 < 1 + bh.q := by positivity
  set μ := bh.mass ^ 2 * bh.q / (1 + bh.q) ^ 2 / 2 with hμ
  have hμ0 : 0 < μ := by positivity
  have e : ∀ a, binEnergy bh.mass bh.q a = -μ * (1 / a) := by
    intro a
    rw [binEnergy, hμ]
    rcases eq_or_ne a 0 with rfl | h
    · simp
    · field_simp
  have hH : hardeningH bh T dE * T * μ = dE := by
    rw [hardeningH, hkMult, hμ]
    field_simp
  constructor
  · apply C107_terminates_partial _ rfl _ _ _ h he hT.le
    rw [e] at hb
    have : 0 < μ * (1 / bh.sma + hardeningH bh T dE * T) := by linarith
    exact (pos_iff_pos_of_mul_pos this).1 hμ0
  · intro s hs
    obtain ⟨h1, h2, h3, h4⟩ := C107_hardening _ rfl _ _ _ h hT.le s hs
    simp only at h2
    have h5 : binEnergy bh.mass bh.q s.sma - binEnergy bh.mass bh.q bh.sma + dE = dE * (1 - s.timePassed / T) := by
      rw [e, e, h2]
      have : s.timePassed = T * (s.timePassed / T) := by field_simp
      rw [this]
      generalize s.timePassed / T = x
      have : T * x / T = x := by field_simp
      rw [this]
      linear_combination (-x) * hH
    rw [h5, abs_mul, mul_comm]
    have h6 : s.timePassed / T ≤ 1 := (div_le_one hT).2 h4
    have h7 : 1 - 1e-10 ≤ s.timePassed / T := by rw [le_div_iff₀ hT]; linarith
    rw [abs_of_nonneg (show (0 : ℝ) ≤ 1 - s.timePassed / T by linarith)]
    gcongr
    linarith

/-- the hypotheses are satisfied by an equal-mass binary and one particle that gained energy in one encounter -/
example : ∃ (bh : KBParams) (l : List (ℝ × List Encounter)), 0 < bh.mass ∧ 0 < bh.q ∧ Adm bh.sma bh.ecc ∧ bh.ecc ≤ 0.999 ∧ sumDelta Encounter.deltaE l = 0.2 ∧ binEnergy bh.mass bh.q bh.sma < sumDelta Encounter.deltaE l := by
  refine ⟨⟨2, 1, 1, 0.5, 0⟩, [(0.1, [⟨0, 1, -1, 1, 2, 0⟩])], by norm_num, by norm_num, ⟨by norm_num, by norm_num, by norm_num⟩, by norm_num, ?_, ?_⟩
  · norm_num [sumDelta]
  · norm_num [sumDelta, binEnergy]

/-! ## Peters (1964) -/

/-- C107: the rates of evolution due to the emission of gravitational waves are those of Peters (1964) for component masses m1, m2 (G = 1):
da/dt = -64/5 m1 m2 (m1+m2) / (c^5 a^3 (1-e^2)^(7/2)) (1 + 73/24 e^2 + 37/96 e^4), de/dt = -304/15 e m1 m2 (m1+m2) / (c^5 a^4 (1-e^2)^(5/2)) (1 + 121/304 e^2);
H is the rate of change of 1/a (i.e. -1/a^2 da/dt) and K is the rate of change of e^2 (i.e. 2 e de/dt) -/
theorem C107_peters (p : EvPar) (a e c : ℝ) (hc : p.invc = 1 / c) (hcp : 0 < c) (ha : 0 < a) (hq : 0 < p.q) (he : e ^ 2 < 1) (m1 m2 dadt dedt : ℝ)
    (h1 : m1 = p.mass / (1 + p.q)) (h2 : m2 = p.mass * p.q / (1 + p.q))
    (hda : dadt = -64 / 5 * m1 * m2 * (m1 + m2) / (c ^ 5 * a ^ 3 * (1 - e ^ 2) ^ (7 / 2 : ℝ)) * (1 + 73 / 24 * e ^ 2 + 37 / 96 * e ^ 4))
    (hde : dedt = -304 / 15 * e * m1 * m2 * (m1 + m2) / (c ^ 5 * a ^ 4 * (1 - e ^ 2) ^ (5 / 2 : ℝ)) * (1 + 121 / 304 * e ^ 2)) :
    Hgw p a e = -1 / a ^ 2 * dadt ∧ Kgw p a e = 2 * e * dedt := by
  have hx : 0 < 1 - e ^ 2 := by linarith
  have q1 : 1 + p.q ≠ 0 := by positivity
  have hs : m1 + m2 = p.mass := by rw [h1, h2]; field_simp
  have e1 : (1 - e ^ 2) ^ (-3.5 : ℝ) = ((1 - e ^ 2) ^ (7 / 2 : ℝ))⁻¹ := by
    rw [← rpow_neg hx.le]; norm_num
  have e2 : (1 - e ^ 2) ^ (7 / 2 : ℝ) = (1 - e ^ 2) ^ (5 / 2 : ℝ) * (1 - e ^ 2) := by
    rw [← rpow_add_one hx.ne']; norm_num
  have hP : 0 < (1 - e ^ 2) ^ (5 / 2 : ℝ) := rpow_pos_of_pos hx _
  rw [hda, hde, hs, h1, h2, Hgw, Kgw, gwMult, e1, e2, hc]
  generalize (1 - e ^ 2) ^ (5 / 2 : ℝ) = P at *
  have hx' := hx.ne'
  constructor
  · field_simp; ring
  · field_simp; ring

/-- C107: the time remaining until coalescence on a circular orbit is the solution of the equation of evolution: along d(1/a)/dt = Hgw(a, 0) this time decreases at the unit rate -/
theorem C107_coalescence_time (p : EvPar) (hM : 0 < p.mass) (hq : 0 < p.q) (hc : 0 < p.invc) (a : ℝ → ℝ) (t : ℝ) (hpos : 0 < a t) (ha : HasDerivAt (fun t => 1 / a t) (Hgw p (a t) 0) t) :
    HasDerivAt (fun t => 0.25 / a t / Hgw p (a t) 0) (-1) t := by
  set β := p.mass ^ 3 * p.invc ^ 5 * p.q / (1 + p.q) ^ 2 * 192 / 15 with hβ
  have hβ0 : 0 < β := by positivity
  have hH : ∀ x : ℝ, Hgw p x 0 = β * (1 / x) ^ 5 := by
    intro x
    rw [Hgw, gwMult, hβ]
    rcases eq_or_ne x 0 with rfl | hx
    · simp
    · norm_num
      field_simp
  have e : (fun t => 0.25 / a t / Hgw p (a t) 0) = fun t => 0.25 / β * ((1 / a t) ^ 4)⁻¹ := by
    funext t
    rw [hH]
    rcases eq_or_ne (a t) 0 with h | h
    · simp [h]
    · field_simp
  rw [e]
  rw [hH] at ha
  have h1 := ((ha.pow 4).inv (by simp [hpos.ne'])).const_mul (0.25 / β)
  refine h1.congr_deriv ?_
  simp only [Nat.cast_ofNat, Pi.pow_apply]
  have h3 : a t ^ 3 ≠ 0 := by positivity
  field_simp
  norm_num
  field_simp

end

end Verif.Raga
