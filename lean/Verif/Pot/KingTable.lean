import Verif.Pot.KingProps

/-!
# C115: the tables of the King model
-/
namespace Verif.Pot.King
open Real

/-- specification: what is assumed about the solver and the root-finder (exact ones): the solution falls strictly from `W0`,
with the derivative `dsol < 0`, and `root y a b` is the place between `a` and `b` where it equals `y`, if there is one -/
structure Exact (sol dsol : ℝ → ℝ) (root : ℝ → ℝ → ℝ → ℝ) (W0 : ℝ) : Prop where
  start : sol 0 = W0
  pos : 0 < W0
  anti : ∀ a b, 0 ≤ a → a < b → sol b < sol a
  dneg : ∀ r, 0 < r → dsol r < 0
  root_spec : ∀ y a b, 0 ≤ a → a < b → sol b ≤ y → y < sol a → a < root y a b ∧ root y a b ≤ b ∧ sol (root y a b) = y

/-- specification: a row holds the values of the functions at its radius -/
def RowOk (sol dsol density : ℝ → ℝ) (q : Row) : Prop :=
  0 < q.r ∧ q.phi = sol q.r ∧ q.dphidr = dsol q.r ∧ q.rho = density q.phi

/-- the rows are in the order of increasing radius -/
def Ordered (rows : List Row) : Prop := rows.Pairwise (fun p q => p.r < q.r)

variable {sol dsol density : ℝ → ℝ} {root : ℝ → ℝ → ℝ → ℝ} {W0 : ℝ}

theorem phi_lt_of_r (h : Exact sol dsol root W0) {p q : Row} (hp : RowOk sol dsol density p) (hq : RowOk sol dsol density q) :
    q.phi < p.phi → p.r < q.r := by
  intro hlt
  by_contra hc
  rcases eq_or_lt_of_le (not_lt.mp hc) with e | e
  · rw [hp.2.1, hq.2.1, e] at hlt; exact lt_irrefl _ hlt
  · have := h.anti q.r p.r hq.1.le e
    rw [hp.2.1, hq.2.1] at hlt
    linarith

theorem ordered_append (h : Exact sol dsol root W0) {rows : List Row} {q : Row} (ho : Ordered rows)
    (hok : ∀ p ∈ rows, RowOk sol dsol density p) (hq : RowOk sol dsol density q) (hlt : ∀ p ∈ rows, q.phi < p.phi) : Ordered (rows ++ [q]) := by
  unfold Ordered
  rw [List.pairwise_append]
  refine ⟨ho, List.pairwise_singleton _ _, ?_⟩
  intro p hp q' hq'
  rw [List.mem_singleton] at hq'
  subst hq'
  exact phi_lt_of_r h (hok p hp) hq (hlt p hp)

/-- the invariant of the rows during the run -/
structure RowsInv (sol dsol density : ℝ → ℝ) (rows : List Row) (fin : Bool) (rmax : ℝ) : Prop where
  ok : ∀ q ∈ rows, RowOk sol dsol density q
  ord : Ordered rows
  le : ∀ q ∈ rows, q.r ≤ rmax
  unfin : fin = false → ∀ q ∈ rows, 0 < q.phi
  done : fin = true → ∃ q, rows.getLast? = some q ∧ q.phi = 0

theorem grid_fold (h : Exact sol dsol root W0) (pt rprev rcurr : ℝ) (hpt : 0 < pt) (hr0 : 0 ≤ rprev) (hr : rprev < rcurr)
    (l : List ℕ) (hl : l.Pairwise (fun i j => j < i)) (acc : List Row × Bool) (ha : RowsInv sol dsol density acc.1 acc.2 rcurr)
    (hlt : ∀ q ∈ acc.1, ∀ i ∈ l, pt * ((i : ℝ) * 1 / 8) ^ 2 < sol rprev → pt * ((i : ℝ) * 1 / 8) ^ 2 < q.phi)
    (hfin : acc.2 = true → l = []) :
    RowsInv sol dsol density (l.foldl (gridStep dsol density root pt rprev rcurr (sol rprev) (sol rcurr)) acc).1
      (l.foldl (gridStep dsol density root pt rprev rcurr (sol rprev) (sol rcurr)) acc).2 rcurr := by
  induction l generalizing acc with
  | nil => exact ha
  | cons i t ih =>
    rw [List.foldl_cons]
    rw [List.pairwise_cons] at hl
    have hf : acc.2 = false := by
      cases hb : acc.2 with
      | false => rfl
      | true => exact absurd (hfin hb) (by simp)
    by_cases hc : pt * ((i : ℝ) * 1 / 8) ^ 2 < sol rprev ∧ pt * ((i : ℝ) * 1 / 8) ^ 2 ≥ sol rcurr
    · obtain ⟨s1, s2, s3⟩ := h.root_spec _ rprev rcurr hr0 hr hc.2 hc.1
      have e : gridStep dsol density root pt rprev rcurr (sol rprev) (sol rcurr) acc i =
          (acc.1 ++ [⟨root (pt * ((i : ℝ) * 1 / 8) ^ 2) rprev rcurr, pt * ((i : ℝ) * 1 / 8) ^ 2,
            dsol (root (pt * ((i : ℝ) * 1 / 8) ^ 2) rprev rcurr), density (pt * ((i : ℝ) * 1 / 8) ^ 2)⟩],
            if pt * ((i : ℝ) * 1 / 8) ^ 2 = 0 then true else acc.2) := by
        simp only [gridStep, if_pos hc]
      rw [e]
      set v := pt * ((i : ℝ) * 1 / 8) ^ 2 with hv
      have hok : RowOk sol dsol density ⟨root v rprev rcurr, v, dsol (root v rprev rcurr), density v⟩ :=
        ⟨lt_of_le_of_lt hr0 s1, s3.symm, rfl, rfl⟩
      have hv0 : 0 ≤ v := by positivity
      have hi0 : v = 0 ↔ i = 0 := by
        constructor
        · intro h0
          have : ((i : ℝ) * 1 / 8) ^ 2 = 0 := (mul_eq_zero.mp h0).resolve_left hpt.ne'
          have : (i : ℝ) * 1 / 8 = 0 := pow_eq_zero_iff (two_ne_zero) |>.mp this
          have : (i : ℝ) = 0 := by linarith
          exact_mod_cast this
        · intro h0; rw [hv, h0]; norm_num
      apply ih hl.2
      · refine ⟨?_, ?_, ?_, ?_, ?_⟩
        · intro q hq
          rcases List.mem_append.mp hq with hq | hq
          · exact ha.ok q hq
          · rw [List.mem_singleton] at hq; rw [hq]; exact hok
        · exact ordered_append h ha.ord ha.ok hok (fun p hp => hlt p hp i (List.mem_cons_self) hc.1)
        · intro q hq
          rcases List.mem_append.mp hq with hq | hq
          · exact ha.le q hq
          · rw [List.mem_singleton] at hq; rw [hq]; exact s2
        · intro hfalse q hq
          rcases List.mem_append.mp hq with hq | hq
          · exact ha.unfin hf q hq
          · rw [List.mem_singleton] at hq; rw [hq]
            by_contra hneg
            have : v = 0 := le_antisymm (not_lt.mp hneg) hv0
            simp [this] at hfalse
        · intro htrue
          refine ⟨_, List.getLast?_concat, ?_⟩
          by_contra hne
          have hne' : ¬ v = 0 := hne
          simp [hne', hf] at htrue
      · intro q hq j hj hjlt
        rcases List.mem_append.mp hq with hq | hq
        · exact hlt q hq j (List.mem_cons_of_mem _ hj) hjlt
        · rw [List.mem_singleton] at hq; rw [hq]
          have hji : (j : ℝ) < i := by exact_mod_cast hl.1 j hj
          have hj0 : (0:ℝ) ≤ j := Nat.cast_nonneg j
          change pt * ((j : ℝ) * 1 / 8) ^ 2 < pt * ((i : ℝ) * 1 / 8) ^ 2
          apply mul_lt_mul_of_pos_left _ hpt
          have : (j : ℝ) * 1 / 8 < (i : ℝ) * 1 / 8 := by linarith
          exact pow_lt_pow_left₀ this (by positivity) (by norm_num)
      · intro htrue
        by_cases h0 : v = 0
        · have hi := hi0.mp h0
          apply List.eq_nil_of_length_eq_zero
          by_contra hlen
          obtain ⟨j, hj⟩ := List.exists_mem_of_length_pos (Nat.pos_of_ne_zero hlen)
          have := hl.1 j hj
          omega
        · simp [h0, hf] at htrue
    · have e : gridStep dsol density root pt rprev rcurr (sol rprev) (sol rcurr) acc i = acc := by
        simp only [gridStep, if_neg hc]
      rw [e]
      exact ih hl.2 acc ha (fun q hq j hj => hlt q hq j (List.mem_cons_of_mem _ hj)) (fun hb => by rw [hf] at hb; simp at hb)

/-- the invariant of the state -/
structure Inv (sol dsol density : ℝ → ℝ) (s : State) : Prop where
  rows : RowsInv sol dsol density s.out s.finished s.rcurr
  cur : s.phicurr = sol s.rcurr
  r0 : 0 ≤ s.rcurr
  trans : ∀ p, s.phitrans = some p → 0 < p
  pos : s.finished = false → 0 < s.phicurr

theorem step_inv (h : Exact sol dsol root W0) (s : State) (hs : Inv sol dsol density s) (hf : s.finished = false) (t : ℝ) (ht : s.rcurr < t) :
    Inv sol dsol density (step sol dsol density root s t) ∧ (step sol dsol density root s t).rcurr = t ∧
    (sol t ≤ 0 → (step sol dsol density root s t).finished = true) := by
  have hp := hs.pos hf
  have hp' : 0 < sol s.rcurr := by rw [← hs.cur]; exact hp
  by_cases hc : sol t < s.phicurr * 0.75 ∨ (∃ p, s.phitrans = some p ∧ p > 0)
  · have e : step sol dsol density root s t =
        ⟨([7, 6, 5, 4, 3, 2, 1, 0].foldl (gridStep dsol density root (s.phitrans.getD s.phicurr) s.rcurr t s.phicurr (sol t)) (s.out, s.finished)).2,
         t, sol t, some (s.phitrans.getD s.phicurr),
         ([7, 6, 5, 4, 3, 2, 1, 0].foldl (gridStep dsol density root (s.phitrans.getD s.phicurr) s.rcurr t s.phicurr (sol t)) (s.out, s.finished)).1⟩ := by
      simp only [step, if_pos hc]
    have hpt : 0 < s.phitrans.getD s.phicurr := by
      cases hx : s.phitrans with
      | none => exact hp
      | some p => exact hs.trans p hx
    set pt := s.phitrans.getD s.phicurr
    rw [e]
    rw [hs.cur]
    have hrows : RowsInv sol dsol density s.out s.finished t :=
      ⟨hs.rows.ok, hs.rows.ord, fun q hq => le_trans (hs.rows.le q hq) ht.le, hs.rows.unfin, hs.rows.done⟩
    have hg := grid_fold h pt s.rcurr t hpt hs.r0 ht [7, 6, 5, 4, 3, 2, 1, 0] (by decide) (s.out, s.finished) hrows
      (by
        intro q hq i _ hlt
        refine lt_of_lt_of_le hlt ?_
        have hq' := hs.rows.ok q hq
        rw [hq'.2.1]
        rcases eq_or_lt_of_le (hs.rows.le q hq) with e | e
        · rw [e]
        · exact (h.anti _ _ hq'.1.le e).le)
      (by intro hb; simp [hf] at hb)
    have hfin : sol t ≤ 0 → ([7, 6, 5, 4, 3, 2, 1, 0].foldl (gridStep dsol density root pt s.rcurr t (sol s.rcurr) (sol t)) (s.out, s.finished)).2 = true := by
      intro h0
      rw [show ([7, 6, 5, 4, 3, 2, 1, 0] : List ℕ) = [7, 6, 5, 4, 3, 2, 1] ++ [0] from rfl, List.foldl_append]
      generalize List.foldl (gridStep dsol density root pt s.rcurr t (sol s.rcurr) (sol t)) (s.out, s.finished) [7, 6, 5, 4, 3, 2, 1] = acc
      have hz : pt * (((0:ℕ) : ℝ) * 1 / 8) ^ 2 = 0 := by norm_num
      simp only [List.foldl, gridStep, hz]
      rw [if_pos ⟨hp', h0⟩]
      simp
    refine ⟨⟨hg, rfl, by simpa using le_trans hs.r0 ht.le, ?_, ?_⟩, rfl, hfin⟩
    · intro p hp; simp at hp; rw [← hp]; exact hpt
    · intro hff
      by_contra hneg
      have := hfin (not_lt.mp hneg)
      simp only at hff
      rw [this] at hff
      exact absurd hff (by simp)
  · have e : step sol dsol density root s t = ⟨s.finished, t, sol t, s.phitrans, s.out ++ [⟨t, sol t, dsol t, density (sol t)⟩]⟩ := by
      simp only [step, if_neg hc]
    rw [not_or] at hc
    have hpos : 0 < sol t := by
      have := not_lt.mp hc.1
      have : 0 < s.phicurr * 0.75 := by positivity
      linarith
    have ht0 : 0 < t := lt_of_le_of_lt hs.r0 ht
    have hok : RowOk sol dsol density ⟨t, sol t, dsol t, density (sol t)⟩ := ⟨ht0, rfl, rfl, rfl⟩
    rw [e]
    refine ⟨⟨⟨?_, ?_, ?_, ?_, ?_⟩, rfl, ht0.le, hs.trans, fun _ => hpos⟩, rfl, fun h0 => absurd hpos (not_lt.mpr h0)⟩
    · intro q hq
      rcases List.mem_append.mp hq with hq | hq
      · exact hs.rows.ok q hq
      · rw [List.mem_singleton] at hq; rw [hq]; exact hok
    · apply ordered_append h hs.rows.ord hs.rows.ok hok
      intro p hpm
      have hpo := hs.rows.ok p hpm
      rw [hpo.2.1]
      exact h.anti _ _ hpo.1.le (lt_of_le_of_lt (hs.rows.le p hpm) ht)
    · intro q hq
      rcases List.mem_append.mp hq with hq | hq
      · exact le_trans (hs.rows.le q hq) ht.le
      · rw [List.mem_singleton] at hq; rw [hq]
    · intro _ q hq
      rcases List.mem_append.mp hq with hq | hq
      · exact hs.rows.unfin hf q hq
      · rw [List.mem_singleton] at hq; rw [hq]; exact hpos
    · intro hb; simp only [hf] at hb; exact absurd hb (by simp)

theorem loop_inv (h : Exact sol dsol root W0) (ts : List ℝ) (hts : ts.Pairwise (· < ·)) (s : State) (hs : Inv sol dsol density s)
    (hr : ∀ t ∈ ts, s.rcurr < t) :
    Inv sol dsol density (loop sol dsol density root ts s) ∧
    ((∃ t ∈ ts, sol t ≤ 0) → (loop sol dsol density root ts s).finished = true) := by
  induction ts generalizing s with
  | nil => exact ⟨hs, by rintro ⟨t, ht, -⟩; simp at ht⟩
  | cons t ts ih =>
    rw [List.pairwise_cons] at hts
    unfold loop
    by_cases hf : s.finished = true
    · rw [if_pos hf]; exact ⟨hs, fun _ => hf⟩
    · rw [if_neg hf]
      obtain ⟨h1, h2, h3⟩ := step_inv h s hs (by simpa using hf) t (hr t List.mem_cons_self)
      have := ih hts.2 _ h1 (fun u hu => by rw [h2]; exact hts.1 u hu)
      refine ⟨this.1, ?_⟩
      rintro ⟨u, hu, h0⟩
      rcases List.mem_cons.mp hu with e | e
      · subst e
        have hfin := h3 h0
        cases ts with
        | nil => exact hfin
        | cons a b => unfold loop; rw [if_pos hfin]; exact hfin
      · exact this.2 ⟨u, e, h0⟩

/-- **C115** The tables of the dimensionless model: the rows are in the order of increasing radius, each holds the potential,
its derivative and the density at its radius, the potential falls strictly and is exactly zero in the last row and
positive before it.  The construction succeeds whenever one of the first 199 steps of the solver ends beyond the truncation
radius. -/
theorem C115_table (h : Exact sol dsol root W0) (times : List ℝ) (hts : times.Pairwise (· < ·)) (ht0 : ∀ t ∈ times, 0 < t) :
    (∀ rows, table sol dsol density root W0 times = some rows →
      Ordered rows ∧ (∀ q ∈ rows, RowOk sol dsol density q ∧ 0 ≤ q.phi ∧ q.phi < W0) ∧
      rows.Pairwise (fun p q => q.phi < p.phi) ∧ ∃ q, rows.getLast? = some q ∧ q.phi = 0) ∧
    ((∃ t ∈ times.take 199, sol t ≤ 0) → table sol dsol density root W0 times ≠ none) := by
  have hinit : Inv sol dsol density ⟨false, 0, W0, none, []⟩ :=
    ⟨⟨by simp, by simp [Ordered], by simp, by simp, by simp⟩, h.start.symm, le_refl _, by simp, fun _ => h.pos⟩
  obtain ⟨hI, hF⟩ := loop_inv (density := density) h (times.take 199) (hts.sublist (List.take_sublist _ _)) _ hinit
    (fun t ht => ht0 t (List.mem_of_mem_take ht))
  constructor
  · intro rows hrows
    unfold table at hrows
    set s := loop sol dsol density root (times.take 199) ⟨false, 0, W0, none, []⟩ with hsdef
    cases hl : s.out.getLast? with
    | none => simp only [hl] at hrows; exact absurd hrows (by simp)
    | some l =>
      simp only [hl] at hrows
      by_cases hz : l.phi ≠ 0
      · rw [if_pos hz] at hrows; simp at hrows
      · rw [if_neg hz] at hrows
        have e : s.out = rows := by simpa using hrows
        have hz' : l.phi = 0 := not_not.mp hz
        rw [← e]
        have hdec : s.out.Pairwise (fun p q => q.phi < p.phi) := by
          refine List.Pairwise.imp_of_mem ?_ hI.rows.ord
          intro p q hp hq hpq
          rw [(hI.rows.ok p hp).2.1, (hI.rows.ok q hq).2.1]
          exact h.anti _ _ (hI.rows.ok p hp).1.le hpq
        refine ⟨hI.rows.ord, ?_, hdec, l, hl, hz'⟩
        intro q hq
        refine ⟨hI.rows.ok q hq, ?_, ?_⟩
        · obtain ⟨pre, hpre⟩ := List.getLast?_eq_some_iff.mp hl
          rw [hpre] at hq hdec
          rw [List.pairwise_append] at hdec
          rcases List.mem_append.mp hq with hq | hq
          · have := hdec.2.2 q hq l (by simp)
            linarith
          · rw [List.mem_singleton] at hq; rw [hq, hz']
        · rw [(hI.rows.ok q hq).2.1, ← h.start]
          exact h.anti _ _ (le_refl _) (hI.rows.ok q hq).1
  · intro hex
    obtain ⟨q, hq, hq0⟩ := hI.rows.done (hF hex)
    unfold table
    simp only [hq, hq0]
    simp

/-- **C115** The model as returned: `mass` and the scale radius are positive and so on, otherwise it is rejected; the radii
increase; the potential is negative and increases up to `-M/r` in the last row, where its derivative is `M/r²`; the density is
nonnegative, decreases, and is zero in the last row. -/
theorem C115_model (h : Exact sol dsol root W0) (times : List ℝ) (hts : times.Pairwise (· < ·)) (ht0 : ∀ t ∈ times, 0 < t)
    (mass rs trunc : ℝ) (out : List Row) (ho : createKingModel sol dsol root times mass rs W0 trunc = some out) :
    (0 < mass ∧ 0 < rs ∧ 0 < W0 ∧ 0 ≤ trunc ∧ trunc < 3.5) ∧
    out.Pairwise (fun p q => p.r < q.r ∧ p.phi < q.phi ∧ q.rho < p.rho) ∧
    (∀ q ∈ out, 0 < q.r ∧ q.phi < 0 ∧ 0 < q.dphidr ∧ 0 ≤ q.rho) ∧
    ∃ q, out.getLast? = some q ∧ q.phi = -mass / q.r ∧ q.dphidr = mass / q.r ^ 2 ∧ q.rho = 0 := by
  unfold createKingModel at ho
  split_ifs at ho with c1 c2 c3
  cases htab : table sol dsol (rho W0 trunc) root W0 times with
  | none => rw [htab] at ho; simp at ho
  | some rows =>
    obtain ⟨hord, hok, hdec, l, hl, hl0⟩ := (C115_table (density := rho W0 trunc) h times hts ht0).1 rows htab
    rw [htab] at ho
    simp only [Option.bind_eq_bind, Option.bind_some, hl, Option.some.injEq] at ho
    have hlm : l ∈ rows := List.mem_of_getLast? hl
    have hlr := (hok l hlm).1
    have hld : l.dphidr < 0 := by rw [hlr.2.2.1]; exact h.dneg _ hlr.1
    have hm : 0 < -l.dphidr * l.r ^ 2 := by have := pow_pos hlr.1 2; nlinarith
    set m := -l.dphidr * l.r ^ 2 with hmdef
    have hadd : 0 < m / l.r := div_pos hm hlr.1
    have hM := c1.1
    have hrs := c1.2
    have hpi := pi_pos
    refine ⟨⟨hM, hrs, c2, c3.1, c3.2⟩, ?_, ?_, ?_⟩
    · rw [← ho, List.pairwise_map]
      refine List.Pairwise.imp_of_mem ?_ (List.Pairwise.and hord hdec)
      rintro p q hp hq ⟨h1, h2⟩
      refine ⟨?_, ?_, ?_⟩
      · simp only [scaleRow]; exact mul_lt_mul_of_pos_right h1 hrs
      · simp only [scaleRow]
        apply div_lt_div_of_pos_right _ hm
        apply div_lt_div_of_pos_right _ hrs
        apply mul_lt_mul_of_pos_right _ hM
        linarith
      · simp only [scaleRow]
        apply mul_lt_mul_of_pos_right _ (by positivity)
        rw [(hok p hp).1.2.2.2, (hok q hq).1.2.2.2]
        exact C115_monotone W0 trunc h.pos c3.1 _ _ (hok q hq).2.1 h2
    · intro q hq
      rw [← ho, List.mem_map] at hq
      obtain ⟨p, hp, rfl⟩ := hq
      obtain ⟨hpo, hp0, -⟩ := hok p hp
      refine ⟨?_, ?_, ?_, ?_⟩
      · simp only [scaleRow]; exact mul_pos hpo.1 hrs
      · simp only [scaleRow]
        apply div_neg_of_neg_of_pos _ hm
        apply div_neg_of_neg_of_pos _ hrs
        apply mul_neg_of_neg_of_pos _ hM
        linarith
      · simp only [scaleRow]
        rw [hpo.2.2.1]
        apply mul_pos_of_neg_of_neg (h.dneg _ hpo.1)
        apply div_neg_of_neg_of_pos _ hm
        apply div_neg_of_neg_of_pos _ (by positivity)
        linarith
      · simp only [scaleRow]
        apply mul_nonneg _ (by positivity)
        rw [hpo.2.2.2]
        obtain ⟨z, pos, -⟩ := C115_density W0 trunc p.phi h.pos c3.1
        rcases eq_or_lt_of_le hp0 with e | e
        · rw [z e.ge]
        · exact (pos e).le
    · obtain ⟨e1, e2, e3⟩ := C115_truncation mass rs hrs l hlr.1 hl0 hld
      refine ⟨scaleRow mass rs m (m / l.r) l, ?_, e2, e3, ?_⟩
      · rw [← ho, List.getLast?_map, hl]; rfl
      · simp only [scaleRow]
        rw [hlr.2.2.2, hl0, (C115_density W0 trunc 0 h.pos c3.1).1 le_rfl, zero_mul]

/-- a case for the theorems: a linear solution -/
theorem exact_linear : Exact (fun r => 1 - r) (fun _ => -1) (fun y _ _ => 1 - y) 1 := by
  refine ⟨by norm_num, by norm_num, ?_, by norm_num, ?_⟩
  · intro a b _ h; linarith
  · intro y a b _ _ h1 h2
    refine ⟨by linarith, by linarith, by ring⟩

example : ∃ out, createKingModel (fun r => 1 - r) (fun _ => -1) (fun y _ _ => 1 - y) [1/8, 1/2, 2] 10 2 1 1 = some out := by
  have h := (C115_table (density := rho 1 1) exact_linear [1/8, 1/2, 2] (by norm_num) (by norm_num)).2 ⟨2, by simp, by norm_num⟩
  have h1 := (C115_table (density := rho 1 1) exact_linear [1/8, 1/2, 2] (by norm_num) (by norm_num)).1
  obtain ⟨rows, hr⟩ := Option.ne_none_iff_exists'.mp h
  obtain ⟨-, -, -, l, hl, -⟩ := h1 rows hr
  unfold createKingModel
  norm_num [hr, hl]

end Verif.Pot.King
