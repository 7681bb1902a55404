import Verif.Raga.Losscone

/-! # Raga: capture of stars, properties -/

namespace Verif.Raga

open Real Verif.Pot

noncomputable section

/-- mass of each black hole (readme_raga.tex: components have masses M/(1+q) and M q/(1+q), a zero semimajor axis means no binary) -/
def bhMass (bh : KBParams) (b : ℕ) : ℝ := if bh.sma > 0 then (if b = 0 then bh.mass / (1 + bh.q) else bh.mass * bh.q / (1 + bh.q)) else bh.mass

/-- the loss-cone radius (readme_raga.tex): the larger of the radius of direct capture 8GM/c^2 and the tidal radius -/
def lossConeRadius (M invc2 stellarMass stellarRadius : ℝ) : ℝ := max (8 * M * invc2) ((M / stellarMass) ^ (1 / 3 : ℝ) * stellarRadius)

theorem numBH_eq_one (bh : KBParams) : numBH bh = 1 ↔ ¬ bh.sma > 0 := by
  rw [numBH]; split <;> simp_all

/-- relative position and velocity of the particle and the black hole number b at time t, independently of the model -/
def relX (c : Ctx) (t : ℝ) : ℕ → ℝ
  | 0 => (c.sol t).x - (c.orb t).X0
  | _ => (c.sol t).x - (c.orb t).X1
def relY (c : Ctx) (t : ℝ) : ℕ → ℝ
  | 0 => (c.sol t).y - (c.orb t).Y0
  | _ => (c.sol t).y - (c.orb t).Y1
def relVX (c : Ctx) (t : ℝ) : ℕ → ℝ
  | 0 => (c.sol t).vx - (c.orb t).VX0
  | _ => (c.sol t).vx - (c.orb t).VX1
def relVY (c : Ctx) (t : ℝ) : ℕ → ℝ
  | 0 => (c.sol t).vy - (c.orb t).VY0
  | _ => (c.sol t).vy - (c.orb t).VY1

theorem rel_eq (c : Ctx) (t : ℝ) (b : ℕ) : relX c t b = (c.sol t).x - bhX (c.orb t) b ∧ relY c t b = (c.sol t).y - bhY (c.orb t) b ∧ relVX c t b = (c.sol t).vx - bhVX (c.orb t) b ∧ relVY c t b = (c.sol t).vy - bhVY (c.orb t) b := by
  rcases b with _ | b <;> simp [relX, relY, relVX, relVY, bhX, bhY, bhVX, bhVY]

/-- a capture event recorded correctly: the particle is at the recorded time within the capture radius of the black hole, and all the recorded quantities are true -/
def Recorded (c : Ctx) (t : ℝ) (b : ℕ) (o : CaptureData) : Prop :=
  o.tcapt = some t ∧ o.indexBH = b ∧ b < numBH c.bh ∧ o.rcapt = c.captureRadius b ∧ o.rperi = √(relX c t b ^ 2 + relY c t b ^ 2 + (c.sol t).z ^ 2) ∧ o.rperi ≤ c.captureRadius b ∧
  o.E = (relVX c t b ^ 2 + relVY c t b ^ 2 + (c.sol t).vz ^ 2) / 2 - bhMass c.bh b / o.rperi

theorem processBH_false (c : Ctx) (tb te : ℝ) (b : ℕ) (s : St) (h : (processBH c tb te b s).2 = false) :
    (processBH c tb te b s).1.out = s.out ∧ (processBH c tb te b s).1.stop = s.stop ∧ (processBH c tb te b s).1.drdt = Function.update s.drdt b (pericenterFnc c.orb c.sol b te) := by
  unfold processBH at h ⊢
  simp only at h ⊢
  generalize (if tb = 0 then pericenterFnc c.orb c.sol b tb else s.drdt b) = p0 at h ⊢
  split at h
  · next h1 => rw [if_pos h1]; exact ⟨rfl, rfl, rfl⟩
  · next h1 =>
    rw [if_neg h1]
    split at h
    · next h2 => rw [if_pos h2]; exact ⟨rfl, rfl, rfl⟩
    · simp at h

theorem processBH_true (c : Ctx) (tb te : ℝ) (hroot : ∀ f a b x, a ≤ b → c.findRoot f a b = some x → a ≤ x ∧ x ≤ b) (hbe : tb ≤ te) (b : ℕ) (hb : b < numBH c.bh) (s : St)
    (h : (processBH c tb te b s).2 = true) :
    ∃ t, tb ≤ t ∧ t ≤ te ∧ Recorded c t b (processBH c tb te b s).1.out ∧ (processBH c tb te b s).1.stop = some (c.sol t, t) := by
  unfold processBH at h ⊢
  simp only at h ⊢
  generalize (if tb = 0 then pericenterFnc c.orb c.sol b tb else s.drdt b) = p0 at h ⊢
  split at h
  · simp at h
  · next h1 =>
    rw [if_neg h1]
    split at h
    · simp at h
    · next h2 =>
      rw [if_neg h2]
      rw [not_lt] at h2
      refine ⟨(c.findRoot (pericenterFnc c.orb c.sol b) tb te).getD tb, ?_, ?_, ⟨rfl, rfl, hb, rfl, by rw [(rel_eq c _ b).1, (rel_eq c _ b).2.1]; rfl, h2, ?_⟩, rfl⟩
      · rcases e : c.findRoot (pericenterFnc c.orb c.sol b) tb te with _ | x
        · exact le_rfl
        · exact (hroot _ _ _ _ hbe e).1
      · rcases e : c.findRoot (pericenterFnc c.orb c.sol b) tb te with _ | x
        · exact hbe
        · exact (hroot _ _ _ _ hbe e).2
      · have : c.bh.mass * (if numBH c.bh = 1 then 1 else (if b = 0 then 1 else c.bh.q) / (1 + c.bh.q)) = bhMass c.bh b := by
          rw [bhMass]
          by_cases hs : c.bh.sma > 0
          · rw [if_pos hs, if_neg (fun e => (numBH_eq_one _).1 e hs)]
            split <;> ring
          · rw [if_neg hs, if_pos ((numBH_eq_one _).2 hs), mul_one]
        rw [(rel_eq c _ b).2.2.1, (rel_eq c _ b).2.2.2]
        simp only [this]
        ring

theorem loopBH_false (c : Ctx) (tb te : ℝ) (hroot : ∀ f a b x, a ≤ b → c.findRoot f a b = some x → a ≤ x ∧ x ≤ b) (hbe : tb ≤ te) : ∀ (l : List ℕ), (∀ b ∈ l, b < numBH c.bh) → ∀ s : St,
    (loopBH c tb te l s).2 = false → ∃ b t, tb ≤ t ∧ t ≤ te ∧ Recorded c t b (loopBH c tb te l s).1.out ∧ (loopBH c tb te l s).1.stop = some (c.sol t, t) := by
  intro l
  induction l with
  | nil => intro _ s h; simp [loopBH] at h
  | cons b bs ih =>
    intro hl s h
    rw [loopBH] at h ⊢
    by_cases hp : (processBH c tb te b s).2 = true
    · rw [if_pos hp]
      exact ⟨b, processBH_true c tb te hroot hbe b (hl b (by simp)) s hp⟩
    · rw [if_neg hp] at h ⊢
      exact ih (fun b' hb' => hl b' (by simp [hb'])) _ h

theorem loopBH_true (c : Ctx) (tb te : ℝ) : ∀ (l : List ℕ) (s : St), (loopBH c tb te l s).2 = true →
    (loopBH c tb te l s).1.out = s.out ∧ (loopBH c tb te l s).1.stop = s.stop ∧ (∀ b ∈ l, (loopBH c tb te l s).1.drdt b = pericenterFnc c.orb c.sol b te) ∧
      ∀ b, b ∉ l → (loopBH c tb te l s).1.drdt b = s.drdt b := by
  intro l
  induction l with
  | nil => intro s _; exact ⟨rfl, rfl, fun b hb => by simp at hb, fun b _ => rfl⟩
  | cons b bs ih =>
    intro s h
    rw [loopBH] at h ⊢
    by_cases hp : (processBH c tb te b s).2 = true
    · rw [if_pos hp] at h; simp at h
    · rw [if_neg hp] at h ⊢
      obtain ⟨a1, a2, a3⟩ := processBH_false c tb te b s (by simpa using hp)
      obtain ⟨b1, b2, b3, b4⟩ := ih _ h
      refine ⟨b1.trans a1, b2.trans a2, ?_, ?_⟩
      · intro b' hb'
        by_cases hin : b' ∈ bs
        · exact b3 b' hin
        · have : b' = b := by simpa [hin] using hb'
          rw [b4 b' hin, a3, this, Function.update_self]
      · intro b' hb'
        rw [List.mem_cons, not_or] at hb'
        rw [b4 b' hb'.2, a3, Function.update_of_ne hb'.1]

/-- C106: when a particle that has not been captured before is captured during a timestep, a true record of this event is made, and the orbit integration ends at the recorded time;
if it is not captured, nothing is recorded, and the rates of change of the distance at the end of the timestep are stored for the next one -/
theorem C106_timestep (c : Ctx) (tb te : ℝ) (hbe : tb ≤ te) (hroot : ∀ f a b x, a ≤ b → c.findRoot f a b = some x → a ≤ x ∧ x ≤ b) (s : St) (hs : s.out.tcapt = none) :
    ((processTimestep c tb te s).2 = false → ∃ b t, tb ≤ t ∧ t ≤ te ∧ Recorded c t b (processTimestep c tb te s).1.out ∧ (processTimestep c tb te s).1.stop = some (c.sol t, t)) ∧
    ((processTimestep c tb te s).2 = true → (processTimestep c tb te s).1.out = s.out ∧ (processTimestep c tb te s).1.stop = s.stop ∧
      ∀ b < numBH c.bh, (processTimestep c tb te s).1.drdt b = pericenterFnc c.orb c.sol b te) := by
  rw [processTimestep, if_neg (by rw [hs]; simp)]
  refine ⟨loopBH_false c tb te hroot hbe _ (fun b hb => List.mem_range.1 hb) s, fun h => ?_⟩
  obtain ⟨h1, h2, h3, -⟩ := loopBH_true c tb te _ s h
  exact ⟨h1, h2, fun b hb => h3 b (List.mem_range.2 hb)⟩

/-- C106: a captured particle is never captured again -/
theorem C106_once (c : Ctx) (tb te t : ℝ) (ht : 0 ≤ t) (s : St) (hs : s.out.tcapt = some t) : processTimestep c tb te s = (s, false) := by
  rw [processTimestep, if_pos ⟨t, hs, ht⟩]

/-- the squared distance to the black hole and its derivative -/
theorem dist_sq_deriv (orb : ℝ → KBState) (sol : ℝ → PV) (b : ℕ) (t : ℝ)
    (hx : HasDerivAt (fun t => (sol t).x) (sol t).vx t) (hy : HasDerivAt (fun t => (sol t).y) (sol t).vy t) (hz : HasDerivAt (fun t => (sol t).z) (sol t).vz t)
    (hX : HasDerivAt (fun t => bhX (orb t) b) (bhVX (orb t) b) t) (hY : HasDerivAt (fun t => bhY (orb t) b) (bhVY (orb t) b) t) :
    HasDerivAt (fun t => (dist orb sol b t) ^ 2) (2 * pericenterFnc orb sol b t) t := by
  have e : (fun t => (dist orb sol b t) ^ 2) = fun t => ((sol t).x - bhX (orb t) b) ^ 2 + ((sol t).y - bhY (orb t) b) ^ 2 + (sol t).z ^ 2 := by
    funext t
    rw [dist, sq_sqrt (by positivity)]
  rw [e]
  have := (((hx.sub hX).pow 2).add ((hy.sub hY).pow 2)).add (hz.pow 2)
  refine this.congr_deriv ?_
  rw [pericenterFnc]
  simp only [Nat.cast_ofNat, Pi.sub_apply]
  ring

/-- C106: with a single black hole, if the distance has one minimum within the timestep (its rate of change increases from negative to positive), then the particle is captured
if and only if its distance of closest approach to the black hole during this timestep is within the capture radius -/
theorem C106_capture_iff (c : Ctx) (tb te : ℝ) (hsma : ¬ c.bh.sma > 0) (s : St) (hs : s.out.tcapt = none) (hprev : tb = 0 ∨ s.drdt 0 = pericenterFnc c.orb c.sol 0 tb)
    (hd : ∀ t ∈ Set.Icc tb te, HasDerivAt (fun t => (dist c.orb c.sol 0 t) ^ 2) (2 * pericenterFnc c.orb c.sol 0 t) t)
    (hmono : MonotoneOn (pericenterFnc c.orb c.sol 0) (Set.Icc tb te)) (h0 : pericenterFnc c.orb c.sol 0 tb ≤ 0) (h1 : 0 < pericenterFnc c.orb c.sol 0 te)
    (tp : ℝ) (hroot : c.findRoot (pericenterFnc c.orb c.sol 0) tb te = some tp) (htp : tb ≤ tp ∧ tp ≤ te ∧ pericenterFnc c.orb c.sol 0 tp = 0) :
    (processTimestep c tb te s).2 = false ↔ ∃ t, tb ≤ t ∧ t ≤ te ∧ √(relX c t 0 ^ 2 + relY c t 0 ^ 2 + (c.sol t).z ^ 2) ≤ c.captureRadius 0 := by
  have hdist : ∀ t, √(relX c t 0 ^ 2 + relY c t 0 ^ 2 + (c.sol t).z ^ 2) = dist c.orb c.sol 0 t := by
    intro t
    rw [(rel_eq c t 0).1, (rel_eq c t 0).2.1]; rfl
  simp only [hdist]
  have hn : numBH c.bh = 1 := (numBH_eq_one _).2 hsma
  have hmin : ∀ t ∈ Set.Icc tb te, dist c.orb c.sol 0 tp ≤ dist c.orb c.sol 0 t := by
    intro t ht
    have hsq : (dist c.orb c.sol 0 tp) ^ 2 ≤ (dist c.orb c.sol 0 t) ^ 2 := by
      rcases le_total t tp with h | h
      · have hanti : AntitoneOn (fun t => (dist c.orb c.sol 0 t) ^ 2) (Set.Icc tb tp) := by
          apply antitoneOn_of_deriv_nonpos (convex_Icc _ _)
          · intro u hu
            exact (hd u ⟨hu.1, hu.2.trans htp.2.1⟩).continuousAt.continuousWithinAt
          · intro u hu
            rw [interior_Icc] at hu
            exact (hd u ⟨hu.1.le, hu.2.le.trans htp.2.1⟩).differentiableAt.differentiableWithinAt
          · intro u hu
            rw [interior_Icc] at hu
            rw [(hd u ⟨hu.1.le, hu.2.le.trans htp.2.1⟩).deriv]
            have := hmono ⟨hu.1.le, hu.2.le.trans htp.2.1⟩ ⟨htp.1, htp.2.1⟩ hu.2.le
            rw [htp.2.2] at this
            linarith
        exact hanti ⟨ht.1, h⟩ ⟨htp.1, le_rfl⟩ h
      · have hm : MonotoneOn (fun t => (dist c.orb c.sol 0 t) ^ 2) (Set.Icc tp te) := by
          apply monotoneOn_of_deriv_nonneg (convex_Icc _ _)
          · intro u hu
            exact (hd u ⟨htp.1.trans hu.1, hu.2⟩).continuousAt.continuousWithinAt
          · intro u hu
            rw [interior_Icc] at hu
            exact (hd u ⟨htp.1.trans hu.1.le, hu.2.le⟩).differentiableAt.differentiableWithinAt
          · intro u hu
            rw [interior_Icc] at hu
            rw [(hd u ⟨htp.1.trans hu.1.le, hu.2.le⟩).deriv]
            have := hmono ⟨htp.1, htp.2.1⟩ ⟨htp.1.trans hu.1.le, hu.2.le⟩ hu.1.le
            rw [htp.2.2] at this
            linarith
        exact hm ⟨le_rfl, htp.2.1⟩ ⟨h, ht.2⟩ h
    have n1 : 0 ≤ dist c.orb c.sol 0 tp := sqrt_nonneg _
    have n2 : 0 ≤ dist c.orb c.sol 0 t := sqrt_nonneg _
    exact (pow_le_pow_iff_left₀ n1 n2 (by norm_num)).1 hsq
  have hpass : (if tb = 0 then pericenterFnc c.orb c.sol 0 tb else s.drdt 0) ≤ 0 := by
    split
    · exact h0
    · next hne => rcases hprev with e | e
                  · exact absurd e hne
                  · rw [e]; exact h0
  have key : (processTimestep c tb te s).2 = false ↔ dist c.orb c.sol 0 tp ≤ c.captureRadius 0 := by
    rw [processTimestep, if_neg (by rw [hs]; simp), hn]
    simp only [List.range_one, loopBH]
    unfold processBH
    simp only [Function.update_self]
    rw [if_neg (not_not.2 ⟨hpass, h1⟩), hroot, Option.getD_some]
    by_cases hr : dist c.orb c.sol 0 tp > c.captureRadius 0
    · rw [if_pos hr]
      simp [not_le.2 hr]
    · rw [if_neg hr]
      simp [not_lt.1 hr]
  rw [key]
  constructor
  · intro h
    exact ⟨tp, htp.1, htp.2.1, h⟩
  · rintro ⟨t, t1, t2, h⟩
    exact (hmin t ⟨t1, t2⟩).trans h

/-- the hypotheses are satisfied: a particle flying along the line y = 1 past a black hole at origin, during the timestep [-1, 1], with the capture radius 2 -/
example : ∃ (c : Ctx) (s : St) (tp : ℝ), ¬ c.bh.sma > 0 ∧ s.out.tcapt = none ∧ s.drdt 0 = pericenterFnc c.orb c.sol 0 (-1) ∧
    (∀ t ∈ Set.Icc (-1 : ℝ) 1, HasDerivAt (fun t => (dist c.orb c.sol 0 t) ^ 2) (2 * pericenterFnc c.orb c.sol 0 t) t) ∧
    MonotoneOn (pericenterFnc c.orb c.sol 0) (Set.Icc (-1) 1) ∧ pericenterFnc c.orb c.sol 0 (-1) ≤ 0 ∧ 0 < pericenterFnc c.orb c.sol 0 1 ∧
    c.findRoot (pericenterFnc c.orb c.sol 0) (-1) 1 = some tp ∧ (-1 ≤ tp ∧ tp ≤ 1 ∧ pericenterFnc c.orb c.sol 0 tp = 0) ∧ dist c.orb c.sol 0 0 ≤ c.captureRadius 0 := by
  refine ⟨⟨⟨1, 0, 0, 0, 0⟩, fun _ => ⟨0, 0, 0, 0, 0, 0, 0, 0⟩, fun t => ⟨t, 1, 0, 1, 0, 0⟩, fun _ _ _ => some 0, fun _ => 2⟩, ⟨fun _ => -1, {}, none⟩, 0, ?_⟩
  have e : ∀ t : ℝ, pericenterFnc (fun _ => (⟨0, 0, 0, 0, 0, 0, 0, 0⟩ : KBState)) (fun t => (⟨t, 1, 0, 1, 0, 0⟩ : PV)) 0 t = t := by
    intro t
    simp [pericenterFnc, bhX, bhY, bhVX, bhVY]
  refine ⟨by norm_num, rfl, by simp only [e], ?_, ?_, by simp only [e]; norm_num, by simp only [e]; norm_num, rfl, by simp only [e]; norm_num, ?_⟩
  · intro t _
    apply dist_sq_deriv
    · exact hasDerivAt_id t
    · exact hasDerivAt_const t 1
    · exact hasDerivAt_const t 0
    · simpa [bhX, bhVX] using hasDerivAt_const t (0 : ℝ)
    · simpa [bhY, bhVY] using hasDerivAt_const t (0 : ℝ)
  · intro a _ b _ hab
    simp only [e]
    exact hab
  · simp [dist, bhX, bhY]

/-! ## capture radii -/

/-- C106 (partial: for a binary this is false, see below): the capture radius of a single black hole is the documented one if the mass ratio was left at zero -/
theorem C106_radius_partial (bh : KBParams) (hs : bh.sma = 0) (hq : bh.q = 0) (invc2 m r : ℝ) : captureRadius bh invc2 m r 0 = lossConeRadius (bhMass bh 0) invc2 m r := by
  rw [captureRadius, lossConeRadius, bhMass]
  simp [hs, hq, mul_comm]

/-- for a binary black hole, the capture radius of the first component is computed from the mass of the whole binary, and that of the second component is zero, whatever the parameters are -/
theorem C106_radius_binary_refuted (bh : KBParams) (hs : bh.sma > 0) (invc2 m r : ℝ) :
    captureRadius bh invc2 m r 0 = lossConeRadius bh.mass invc2 m r ∧ captureRadius bh invc2 m r 1 = 0 ∧
    (0 < bh.mass → 0 < bh.q → 0 < invc2 → captureRadius bh invc2 m r 1 < lossConeRadius (bhMass bh 1) invc2 m r) := by
  have e0 : captureRadius bh invc2 m r 1 = 0 := by
    rw [captureRadius]
    simp [hs.ne', Real.zero_rpow]
  refine ⟨?_, e0, ?_⟩
  · rw [captureRadius, lossConeRadius]
    simp [hs.ne', mul_comm]
  · intro h1 h2 h3
    rw [e0, lossConeRadius, bhMass, if_pos hs, if_neg (by norm_num)]
    exact lt_max_of_lt_left (by positivity)

/-- after the coalescence of a binary (the semimajor axis becomes zero, and the mass ratio is retained), the capture radius is computed from a part of the mass -/
theorem C106_radius_coalesced_refuted : ∃ (bh : KBParams) (invc2 m r : ℝ), bh.sma = 0 ∧ 0 < bh.q ∧ captureRadius bh invc2 m r 0 < lossConeRadius (bhMass bh 0) invc2 m r := by
  refine ⟨⟨2, 1, 0, 0, 0⟩, 1, 1, 0, rfl, by norm_num, ?_⟩
  rw [captureRadius, lossConeRadius, bhMass]
  norm_num

/-! ## end of episode -/

theorem foldl_update_zero (l : List ℕ) (m : ℕ → ℝ) (i : ℕ) : l.foldl (fun m ip => Function.update m ip 0) m i = if i ∈ l then 0 else m i := by
  induction l generalizing m with
  | nil => simp
  | cons a l ih =>
    rw [List.foldl_cons, ih]
    by_cases h1 : i ∈ l
    · simp [h1]
    · by_cases h2 : i = a
      · subst h2; simp
      · simp [h1, h2]

theorem foldl_captured (l : List ℕ) (g : ℕ → ℝ) (p : ℕ → Prop) [DecidablePred p] (a : ℝ) : l.foldl (fun m ip => if p ip then m + g ip else m) a = a + (l.map (fun ip => if p ip then g ip else 0)).sum := by
  induction l generalizing a with
  | nil => simp
  | cons b l ih =>
    rw [List.foldl_cons, ih, List.map_cons, List.sum_cons]
    split <;> ring

theorem sum_filter_range (n : ℕ) (p : ℕ → Prop) [DecidablePred p] (g : ℕ → ℝ) : (((List.range n).filter (fun i => p i)).map g).sum = ∑ i ∈ Finset.range n, if p i then g i else 0 := by
  induction n with
  | zero => simp
  | succ n ih =>
    rw [List.range_succ, List.filter_append, List.map_append, List.sum_append, ih, Finset.sum_range_succ]
    congr 1
    by_cases h : p n
    · simp [h]
    · simp [h]

/-- specification: a particle of non-zero mass for which a time of capture within the episode was recorded -/
def WasCaptured (mass : ℕ → ℝ) (cap : ℕ → CaptureData) (i : ℕ) : Prop := mass i ≠ 0 ∧ ∃ t, (cap i).tcapt = some t ∧ t ≥ 0

theorem wasCaptured_eq : WasCaptured = isCaptured := rfl

open Classical in
/-- mass of the particles captured by the given black hole in this episode -/
def capturedBy (n : ℕ) (mass : ℕ → ℝ) (cap : ℕ → CaptureData) (b : ℕ) : ℝ := ∑ i ∈ Finset.range n, if WasCaptured mass cap i ∧ (cap i).indexBH = b then mass i else 0

open Classical in
theorem capturedMass_eq (n : ℕ) (mass : ℕ → ℝ) (cap : ℕ → CaptureData) (b : ℕ) :
    ((List.range n).filter (fun ip => isCaptured mass cap ip)).foldl (fun m ip => if (cap ip).indexBH = b then m + mass ip else m) 0 = capturedBy n mass cap b := by
  rw [foldl_captured, zero_add, sum_filter_range, capturedBy, wasCaptured_eq]
  apply Finset.sum_congr rfl
  intro i _
  by_cases h1 : isCaptured mass cap i
  · by_cases h2 : (cap i).indexBH = b
    · simp [h1, h2]
    · simp [h1, h2]
  · simp [h1]

open Classical in
theorem finish_aux (n : ℕ) (cap : ℕ → CaptureData) (frac : ℝ) (s : Episode) :
    (∀ i < n, (finishEpisode n cap frac s).mass i = if isCaptured s.mass cap i then 0 else s.mass i) ∧ (∀ i, n ≤ i → (finishEpisode n cap frac s).mass i = s.mass i) ∧
    (finishEpisode n cap frac s).bh.mass = s.bh.mass + (capturedBy n s.mass cap 0 + capturedBy n s.mass cap 1) * frac ∧
    (finishEpisode n cap frac s).bh.sma = s.bh.sma ∧ (finishEpisode n cap frac s).bh.ecc = s.bh.ecc ∧
    (finishEpisode n cap frac s).totalNumCaptured = s.totalNumCaptured + ((Finset.range n).filter (fun i => isCaptured s.mass cap i)).card := by
  have hcard : ((List.range n).filter (fun ip => isCaptured s.mass cap ip)).length = ((Finset.range n).filter (fun i => isCaptured s.mass cap i)).card := by
    rw [← List.toFinset_card_of_nodup (List.nodup_range.filter _), List.toFinset_filter, List.toFinset_range]
    simp
  unfold finishEpisode
  simp only [capturedMass_eq]
  by_cases hl : ((List.range n).filter (fun ip => isCaptured s.mass cap ip)).length > 0
  · rw [if_pos hl]
    refine ⟨?_, ?_, rfl, rfl, rfl, by simp only [hcard]⟩
    · intro i hi
      simp only [foldl_update_zero]
      simp [hi]
    · intro i hi
      simp only [foldl_update_zero]
      rw [if_neg]
      simp only [List.mem_filter, List.mem_range]
      omega
  · rw [if_neg hl]
    have hnil : (List.range n).filter (fun ip => isCaptured s.mass cap ip) = [] := by
      rw [← List.length_eq_zero_iff]; omega
    have hno : ∀ i < n, ¬ isCaptured s.mass cap i := by
      intro i hi hc
      have : i ∈ (List.range n).filter (fun ip => isCaptured s.mass cap ip) := by simp [hi, hc]
      rw [hnil] at this
      simp at this
    have hz : ∀ b, capturedBy n s.mass cap b = 0 := by
      intro b
      rw [capturedBy]
      apply Finset.sum_eq_zero
      intro i hi
      rw [if_neg (fun e => hno i (Finset.mem_range.1 hi) e.1)]
    refine ⟨fun i hi => by rw [if_neg (hno i hi)], fun _ _ => rfl, by rw [hz, hz]; ring, rfl, rfl, ?_⟩
    rw [← hcard]; omega

open Classical in
/-- C106: at the end of the episode the masses of captured particles are set to zero and the other ones are left unchanged; the mass of the black hole(s) grows by the given fraction of the total mass
of captured particles; the number of captured particles is counted -/
theorem C106_finish (n : ℕ) (cap : ℕ → CaptureData) (frac : ℝ) (s : Episode) :
    (∀ i < n, (finishEpisode n cap frac s).mass i = if WasCaptured s.mass cap i then 0 else s.mass i) ∧ (∀ i, n ≤ i → (finishEpisode n cap frac s).mass i = s.mass i) ∧
    (finishEpisode n cap frac s).bh.mass = s.bh.mass + (capturedBy n s.mass cap 0 + capturedBy n s.mass cap 1) * frac ∧
    (finishEpisode n cap frac s).bh.sma = s.bh.sma ∧ (finishEpisode n cap frac s).bh.ecc = s.bh.ecc ∧
    (finishEpisode n cap frac s).totalNumCaptured = s.totalNumCaptured + ((Finset.range n).filter (fun i => WasCaptured s.mass cap i)).card :=
  finish_aux n cap frac s

/-- C106: conservation: the total mass of particles and black holes changes only by the part of captured mass that is not added to the black holes -/
theorem C106_total_mass (n : ℕ) (cap : ℕ → CaptureData) (hidx : ∀ i < n, (cap i).indexBH < 2) (frac : ℝ) (s : Episode) :
    ∑ i ∈ Finset.range n, (finishEpisode n cap frac s).mass i + (finishEpisode n cap frac s).bh.mass =
    ∑ i ∈ Finset.range n, s.mass i + s.bh.mass - (1 - frac) * (capturedBy n s.mass cap 0 + capturedBy n s.mass cap 1) := by
  classical
  obtain ⟨h1, -, h3, -⟩ := C106_finish n cap frac s
  rw [h3]
  have e : ∑ i ∈ Finset.range n, (finishEpisode n cap frac s).mass i = ∑ i ∈ Finset.range n, s.mass i - (capturedBy n s.mass cap 0 + capturedBy n s.mass cap 1) := by
    rw [capturedBy, capturedBy, ← Finset.sum_add_distrib, ← Finset.sum_sub_distrib]
    apply Finset.sum_congr rfl
    intro i hi
    rw [h1 i (Finset.mem_range.1 hi)]
    have hx := hidx i (Finset.mem_range.1 hi)
    by_cases hc : WasCaptured s.mass cap i
    · rcases (show (cap i).indexBH = 0 ∨ (cap i).indexBH = 1 by omega) with h | h
      · simp [hc, h]
      · simp [hc, h]
    · simp [hc]
  rw [e]
  ring

theorem finish_q (n : ℕ) (cap : ℕ → CaptureData) (frac : ℝ) (s : Episode) (hs : s.bh.sma > 0) (hM : s.bh.mass ≠ 0) :
    (finishEpisode n cap frac s).bh.q = (s.bh.mass * s.bh.q + capturedBy n s.mass cap 1 * (1 + s.bh.q)) / (s.bh.mass + capturedBy n s.mass cap 0 * (1 + s.bh.q)) := by
  classical
  unfold finishEpisode
  simp only [capturedMass_eq]
  by_cases hl : ((List.range n).filter (fun ip => isCaptured s.mass cap ip)).length > 0
  · rw [if_pos hl]
    have : numBH s.bh > 1 := by rw [numBH, if_pos hs]; norm_num
    simp only [this, if_true]
  · rw [if_neg hl]
    have hnil : (List.range n).filter (fun ip => isCaptured s.mass cap ip) = [] := by
      rw [← List.length_eq_zero_iff]; omega
    have hno : ∀ i < n, ¬ isCaptured s.mass cap i := by
      intro i hi hc
      have : i ∈ (List.range n).filter (fun ip => isCaptured s.mass cap ip) := by simp [hi, hc]
      rw [hnil] at this
      simp at this
    have hz : ∀ b, capturedBy n s.mass cap b = 0 := by
      intro b
      rw [capturedBy]
      apply Finset.sum_eq_zero
      intro i hi
      rw [if_neg (fun e => hno i (Finset.mem_range.1 hi) e.1)]
    rw [hz, hz, zero_mul, add_zero, add_zero, mul_div_cancel_left₀ _ hM]

/-- C106 (partial: when only a fraction of mass is added this is false, see below): when the entire mass of captured particles is added, each component of a binary gains the mass of the particles it captured -/
theorem C106_binary_mass_partial (n : ℕ) (cap : ℕ → CaptureData) (s : Episode) (hs : s.bh.sma > 0) (hq : 0 ≤ s.bh.q) (hM : 0 < s.bh.mass) (hm : ∀ i < n, 0 ≤ s.mass i) (b : ℕ) (hb : b < 2) :
    bhMass (finishEpisode n cap 1 s).bh b = bhMass s.bh b + capturedBy n s.mass cap b := by
  classical
  obtain ⟨-, -, h3, h4, -⟩ := C106_finish n cap 1 s
  have c0 : ∀ b, 0 ≤ capturedBy n s.mass cap b := by
    intro b
    rw [capturedBy]
    apply Finset.sum_nonneg
    intro i hi
    split
    · exact hm i (Finset.mem_range.1 hi)
    · exact le_rfl
  have hq1 : 0 < 1 + s.bh.q := by linarith
  have a0 := c0 0
  have a1 := c0 1
  have d0 : 0 < s.bh.mass + capturedBy n s.mass cap 0 * (1 + s.bh.q) := by positivity
  have hqq := finish_q n cap 1 s hs hM.ne'
  have d1 : 1 + (finishEpisode n cap 1 s).bh.q = (1 + s.bh.q) * (s.bh.mass + (capturedBy n s.mass cap 0 + capturedBy n s.mass cap 1)) / (s.bh.mass + capturedBy n s.mass cap 0 * (1 + s.bh.q)) := by
    rw [hqq]
    field_simp
    ring
  have d2 : 0 < s.bh.mass + (capturedBy n s.mass cap 0 + capturedBy n s.mass cap 1) := by positivity
  rw [bhMass, bhMass, h4, if_pos hs, if_pos hs, d1, h3, hqq, mul_one]
  rcases (show b = 0 ∨ b = 1 by omega) with rfl | rfl
  · rw [if_pos rfl, if_pos rfl]
    field_simp
  · rw [if_neg (by norm_num), if_neg (by norm_num)]
    field_simp

/-- if only a fraction of the mass of captured particles is added to the black holes, the mass ratio of a binary is changed as if all of it was: here nothing is added, but the second black hole loses a third of its mass -/
theorem C106_binary_fraction_refuted : ∃ (n : ℕ) (cap : ℕ → CaptureData) (s : Episode), s.bh.sma > 0 ∧ capturedBy n s.mass cap 1 = 0 ∧ bhMass s.bh 1 = 1 ∧ bhMass (finishEpisode n cap 0 s).bh 1 = 2 / 3 := by
  classical
  refine ⟨1, fun _ => { tcapt := some 0 }, ⟨fun _ => 1, ⟨2, 1, 1, 0, 0⟩, 0⟩, by norm_num, ?_, ?_, ?_⟩
  · simp [capturedBy]
  · rw [bhMass]; norm_num
  · obtain ⟨-, -, h3, h4, -⟩ := C106_finish 1 (fun _ => { tcapt := some 0 }) 0 ⟨fun _ => 1, ⟨2, 1, 1, 0, 0⟩, 0⟩
    rw [bhMass, h3, h4, finish_q _ _ _ _ (by norm_num) (by norm_num)]
    have c0 : capturedBy 1 (fun _ => (1 : ℝ)) (fun _ => ({ tcapt := some 0 } : CaptureData)) 0 = 1 := by simp [capturedBy, wasCaptured_eq, isCaptured]
    have c1 : capturedBy 1 (fun _ => (1 : ℝ)) (fun _ => ({ tcapt := some 0 } : CaptureData)) 1 = 0 := by simp [capturedBy]
    simp only [c0, c1]
    norm_num

end

end Verif.Raga
