import Verif.Sample.Batch

/-! The refinement loop (math_sample.cpp:530-621): termination, scheduling of cells, invariant -/
namespace Verif.Sample

open Verif.Random Verif.Core Finset

noncomputable section

variable {d : ℕ} {e : Env d} {s : St d} {m : ℕ} {L : ℕ → List ℕ} {B : ℕ → Vec d × Vec d} {dep : ℕ → ℕ} {nb : ℕ → ℕ} {c : ℕ}

/-! ### The depth of the tree is limited -/

theorem depth_bound (hbox : ∀ k, e.lo k < e.hi k) (coords : ℕ → Vec d) (m c : ℕ) : ∃ D, ∀ (s : St d) (L : ℕ → List ℕ) (B : ℕ → Vec d × Vec d) (dep : ℕ → ℕ),
    Inv e s m L B dep (fun _ => c) → s.coords = coords → ∀ j < s.ncells, c < (L j).length → dep j < D := by
  classical
  set S : Finset ℝ := insert 1 (((range m ×ˢ range m ×ˢ (univ : Finset (Fin d))).image fun x => |coords x.1 x.2.2 - coords x.2.1 x.2.2|).filter (0 < ·)) with hS
  have hne : S.Nonempty := ⟨1, by simp [hS]⟩
  set δ := S.min' hne with hδ
  have hpos : 0 < δ := by
    have := S.min'_mem hne
    rw [← hδ] at this
    simp only [hS, mem_insert, mem_filter] at this
    rcases this with h | h
    · rw [h]; norm_num
    · exact h.2
  have hgap : ∀ p < m, ∀ q < m, ∀ k, coords p k ≠ coords q k → δ ≤ |coords p k - coords q k| := by
    intro p hp q hq k hne'
    refine S.min'_le _ ?_
    rw [hS, mem_insert, mem_filter]
    refine Or.inr ⟨mem_image.2 ⟨(p, q, k), by simp [hp, hq], rfl⟩, abs_pos.2 (sub_ne_zero.2 hne')⟩
  have hV : 0 < ∏ k, (e.hi k - e.lo k) := Finset.prod_pos fun k _ => sub_pos.2 (hbox k)
  obtain ⟨D, hD⟩ := exists_pow_lt_of_lt_one (div_pos (pow_pos hpos d) hV) (by norm_num : (0.5 : ℝ) < 1)
  refine ⟨D, fun s L B dep h hco j hj hlen => ?_⟩
  by_contra hge
  push Not at hge
  have hwidth : ∀ k, δ ≤ (B j).2 k - (B j).1 k := by
    intro k
    by_contra hlt
    push Not at hlt
    have hne' : L j ≠ [] := by intro hn; rw [hn] at hlen; simp at hlen
    obtain ⟨p, hp⟩ := List.exists_mem_of_ne_nil _ hne'
    have hall : ∀ q ∈ L j, coords q k = coords p k := by
      intro q hq
      by_contra hneq
      have h1 := hgap q (h.lt hj hq) p (h.lt hj hp) k hneq
      have h2 := h.inside j hj q hq k
      have h3 := h.inside j hj p hp k
      rw [hco] at h2 h3
      have : |coords q k - coords p k| < (B j).2 k - (B j).1 k := by
        rw [abs_lt]; constructor <;> linarith
      linarith
    have := h.coinc j hj k (coords p k)
    rw [coincide, hco, List.countP_eq_length.2 fun q hq => by simpa using hall q hq] at this
    omega
  have hvol := cell_vol h.tree j hj
  have h1 : δ ^ d ≤ ∏ k, ((B j).2 k - (B j).1 k) := by
    have := Finset.prod_le_prod (s := (univ : Finset (Fin d))) (f := fun _ => δ) (g := fun k => (B j).2 k - (B j).1 k) (fun _ _ => hpos.le) fun k _ => hwidth k
    rwa [Finset.prod_const, card_univ, Fintype.card_fin] at this
  rw [hvol] at h1
  have h2 : (0.5 : ℝ) ^ dep j ≤ 0.5 ^ D := pow_le_pow_of_le_one (by norm_num) (by norm_num) hge
  have h3 := (lt_div_iff₀ hV).1 (lt_of_le_of_lt h2 hD)
  linarith

/-! ### Processing of one cell -/

/-- refineFactor of a cell (lines 552-553) -/
def refineOf (e : Env d) (s : St d) (L : ℕ → List ℕ) (i : ℕ) : ℝ :=
  (s.cells i).weight * e.N / s.integ * ((top2 ((L i).map s.fval)).1 * 2 - (top2 ((L i).map s.fval)).2)

/-- The outcome of processing: nothing is done; the cell is split; the cell is put into the queue -/
inductive Step (e : Env d) (i : ℕ) (s : St d) (L : ℕ → List ℕ) (dep : ℕ → ℕ) (B : ℕ → Vec d × Vec d) (s' : St d) (L' : ℕ → List ℕ) (dep' : ℕ → ℕ)
    (B' : ℕ → Vec d × Vec d) : Prop
  | nothing (hs : s' = s) (hL : L' = L) (hdep : dep' = dep) (hB : B' = B) (h : L i = [] ∨ refineOf e s L i < 1)
  | split (hne : L i ≠ []) (hlen : 2 * minNumPointsInCell < (L i).length) (hn : s'.ncells = s.ncells + 2) (hq : s'.queue = s.queue) (hperm : (L i).Perm (L' s.ncells ++ L' (s.ncells + 1)))
      (hw : (s'.cells s.ncells).weight = (s.cells i).weight ∧ (s'.cells (s.ncells + 1)).weight = (s.cells i).weight)
      (hdep : dep' s.ncells = dep i + 1 ∧ dep' (s.ncells + 1) = dep i + 1) (hold : ∀ j < s.ncells, dep' j = dep j ∧ (s'.cells j).weight = (s.cells j).weight)
      (hrest : ∀ j < s.ncells, j ≠ i → L' j = L j ∧ (s'.cells j).child = (s.cells j).child)
      (hempty : L' i = []) (k : Fin d) (hB : (∀ j < s.ncells, B' j = B j) ∧ B' s.ncells = lowerHalf (B i) k ∧ B' (s.ncells + 1) = upperHalf (B i) k)
  | queue (hne : L i ≠ []) (hL : L' = L) (hdep : dep' = dep) (hB : B' = B) (hs : s' = { s with
      cells := Function.update s.cells i { s.cells i with weight := (s.cells i).weight * 0.5 }
      queue := s.queue ++ [(i, ⌊1 / (s.cells i).weight * 0.5 ^ dep i⌋₊ + lastOf 0 s.queue)] })

theorem processCell_spec (hd : 0 < d) (h : Inv e s m L B dep fun _ => c) {i : ℕ} (hi : i < s.ncells) :
    ∃ s' L' B' dep', processCell e s i = .ok s' ∧ Inv e s' m L' B' dep' (fun _ => c) ∧ s'.coords = s.coords ∧ s'.fval = s.fval ∧ s'.npts = s.npts ∧ s'.integ = s.integ ∧
      Step e i s L dep B s' L' dep' B' := by
  rw [processCell, h.points hi]
  show ∃ s' L' B' dep', (if (L i).length = 0 then pure s else if refineOf e s L i < 1 then pure s else
    if (L i).length > 2 * minNumPointsInCell then decideHowToSplitCell e s i else addCellToQueue s i) = _ ∧ _
  by_cases h0 : (L i).length = 0
  · rw [if_pos h0]
    exact ⟨s, L, B, dep, rfl, h, rfl, rfl, rfl, rfl, .nothing rfl rfl rfl rfl (Or.inl (List.length_eq_zero_iff.1 h0))⟩
  rw [if_neg h0]
  have hne : L i ≠ [] := fun hn => h0 (List.length_eq_zero_iff.2 hn)
  by_cases h1 : refineOf e s L i < 1
  · rw [if_pos h1]
    exact ⟨s, L, B, dep, rfl, h, rfl, rfl, rfl, rfl, .nothing rfl rfl rfl rfl (Or.inr h1)⟩
  rw [if_neg h1]
  by_cases h2 : (L i).length > 2 * minNumPointsInCell
  · rw [if_pos h2]
    obtain ⟨k, hk, -⟩ := decide_spec hd h hi hne
    obtain ⟨s', L', B', dep', g1, g2, g3, g4, g5, g6, g7, g8, g9, g10, g11, g12, g13, g14, g15, g16, g17, g18⟩ := splitCell_spec h hi hne k
      (show 0.5 * ((B i).1 k + (B i).2 k) = ((B i).1 k + (B i).2 k) / 2 by ring)
    exact ⟨s', L', B', dep', hk.trans g1, g2, g4, g5, g6, g7, .split hne h2 g3 g8 g9 ⟨g11, g12⟩ ⟨g13, g14⟩ (fun j hj => ⟨(g15 j hj).1, (g15 j hj).2.2⟩) g16 g10 k
      ⟨fun j hj => (g15 j hj).2.1, g17, g18⟩⟩
  · rw [if_neg h2]
    exact ⟨_, L, B, dep, addQueue_spec h hi, h.setWeight i (mul_pos (h.weight i hi) (by norm_num)) _, rfl, rfl, rfl, rfl, .queue hne rfl rfl rfl rfl⟩

/-! ### The loop over cells -/

/-- The state in the loop over cells, before the cell i; `s0` is the state before the loop -/
structure PL (e : Env d) (s0 : St d) (m c i : ℕ) (s : St d) (L : ℕ → List ℕ) (B : ℕ → Vec d × Vec d) (dep : ℕ → ℕ) (bt : ℕ → List (Batch d)) : Prop where
  inv : Inv e s m L B dep fun _ => c
  gen : Gen e s m L B bt (s.queue.map Prod.fst)
  qcount : QCount (fun j => newCount e bt B j) 0 s.queue
  coords : s.coords = s0.coords
  fval : s.fval = s0.fval
  npts : s.npts = s0.npts
  integ : s.integ = s0.integ
  mono : Mono 0 s.queue
  nodup : (s.queue.map Prod.fst).Nodup
  leaf : ∀ x ∈ s.queue, x.1 < i ∧ x.1 < s.ncells ∧ (s.cells x.1).child = none
  prog : s.queue ≠ [] ∨ ∃ j p, i ≤ j ∧ j < s.ncells ∧ p ∈ L j ∧ 1 < s.fval p * (s.cells j).weight * e.N / s.integ

/-- The measure of the remaining work -/
def measure (D i n : ℕ) (dep : ℕ → ℕ) : ℕ := ∑ j ∈ Ico i n, 3 ^ (D - dep j)

theorem refine_gt (h : Inv e s m L B dep fun _ => c) {i : ℕ} (hi : i < s.ncells) (hint : 0 < s.integ) {p : ℕ} (hp : p ∈ L i) (hgt : 1 < s.fval p * (s.cells i).weight * e.N / s.integ) :
    1 < refineOf e s L i := by
  obtain ⟨t1, t2, t3⟩ := top2_spec ((L i).map s.fval)
  have h1 : s.fval p ≤ (top2 ((L i).map s.fval)).1 * 2 - (top2 ((L i).map s.fval)).2 := by
    have := t3 (s.fval p) (List.mem_map_of_mem hp)
    linarith
  have h2 : 0 ≤ (s.cells i).weight * e.N / s.integ := div_nonneg (mul_nonneg (h.weight i hi).le (Nat.cast_nonneg _)) hint.le
  have := mul_le_mul_of_nonneg_left h1 h2
  rw [refineOf]
  refine lt_of_lt_of_le hgt (le_trans (le_of_eq ?_) this)
  ring

theorem processLoop_spec (hd : 0 < d) (hbox : ∀ k, e.lo k < e.hi k) {s0 : St d} (hint : 0 < s0.integ) (hc : c ≤ 2 * minNumPointsInCell) {D : ℕ}
    (hD : ∀ (s : St d) (L : ℕ → List ℕ) (B : ℕ → Vec d × Vec d) (dep : ℕ → ℕ), Inv e s m L B dep (fun _ => c) → s.coords = s0.coords → ∀ j < s.ncells, c < (L j).length → dep j < D) (n : ℕ) :
    ∀ (i : ℕ) (s : St d) (L : ℕ → List ℕ) (B : ℕ → Vec d × Vec d) (dep : ℕ → ℕ) (bt : ℕ → List (Batch d)), PL e s0 m c i s L B dep bt → measure D i s.ncells dep ≤ n →
      ∃ i' s' L' B' dep' bt', (∀ fuel, n ≤ fuel → processLoop e fuel i s = .ok s') ∧ PL e s0 m c i' s' L' B' dep' bt' ∧ s'.ncells ≤ i' := by
  induction n with
  | zero =>
    intro i s L B dep bt h hm
    have hi : ¬ i < s.ncells := by
      intro hi
      rw [measure, Nat.le_zero, Finset.sum_eq_zero_iff] at hm
      have := hm i (mem_Ico.2 ⟨le_rfl, hi⟩)
      exact absurd this (pow_ne_zero _ (by norm_num))
    refine ⟨i, s, L, B, dep, bt, fun fuel _ => ?_, h, by omega⟩
    cases fuel <;> rw [processLoop, if_neg hi]
  | succ n ih =>
    intro i s L B dep bt h hm
    by_cases hi : i < s.ncells
    · obtain ⟨s', L', B', dep', hp, hinv, g1, g2, g3, g4, hstep⟩ := processCell_spec hd h.inv hi
      have hsum : measure D i s.ncells dep = 3 ^ (D - dep i) + ∑ j ∈ Ico (i + 1) s.ncells, 3 ^ (D - dep j) := by
        rw [measure, Finset.sum_eq_sum_Ico_succ_bot hi]
      have hpow : 0 < 3 ^ (D - dep i) := by positivity
      suffices hPL : ∃ bt', PL e s0 m c (i + 1) s' L' B' dep' bt' ∧ measure D (i + 1) s'.ncells dep' ≤ n by
        obtain ⟨bt', hPL⟩ := hPL
        obtain ⟨i2, s2, L2, B2, dep2, bt2, k1, k2, k3⟩ := ih (i + 1) s' L' B' dep' bt' hPL.1 hPL.2
        refine ⟨i2, s2, L2, B2, dep2, bt2, fun fuel hf => ?_, k2, k3⟩
        obtain ⟨fuel, rfl⟩ : ∃ f, fuel = f + 1 := ⟨fuel - 1, by omega⟩
        rw [processLoop, if_pos hi, hp]
        exact k1 fuel (by omega)
      cases hstep with
      | nothing hs hL hdep hB hno =>
        subst hs hL hdep hB
        refine ⟨bt, ⟨hinv, h.gen, h.qcount, h.coords, h.fval, h.npts, h.integ, h.mono, h.nodup, fun x hx => ?_, ?_⟩, ?_⟩
        · have := h.leaf x hx
          exact ⟨by omega, this.2⟩
        · rcases h.prog with hq | ⟨j, p, hj, hjn, hpj, hgt⟩
          · exact Or.inl hq
          · refine Or.inr ⟨j, p, ?_, hjn, hpj, hgt⟩
            rcases Nat.lt_or_eq_of_le hj with hlt | heq
            · exact hlt
            · subst heq
              exfalso
              rcases hno with hno | hno
              · rw [hno] at hpj; cases hpj
              · have := refine_gt h.inv hjn (by rw [h.integ]; exact hint) hpj hgt
                linarith
        · rw [hsum] at hm
          show ∑ j ∈ Ico (i + 1) _, _ ≤ n
          omega
      | split hne hlen hn hq hperm hw hdep hold hrest hempty k hB =>
        have hqlt : ∀ j ∈ s.queue.map Prod.fst, j < i := by
          intro j hj
          obtain ⟨x, hx, rfl⟩ := List.mem_map.1 hj
          exact (h.leaf x hx).1
        refine ⟨_, ⟨hinv, by rw [hq]; exact h.gen.split hi hn g1 hperm hw (fun j hj => (hold j hj).2) (fun j hj hji => (hrest j hj hji).1) hempty k hB hqlt,
          by rw [hq]; exact h.qcount.congr fun j hj => newCount_split hi (hB.1 j (by have := hqlt j hj; omega)) (by have := hqlt j hj; omega), g1.trans h.coords, g2.trans h.fval, g3.trans h.npts, g4.trans h.integ, by rw [hq]; exact h.mono, by rw [hq]; exact h.nodup, fun x hx => ?_, ?_⟩, ?_⟩
        · rw [hq] at hx
          have := h.leaf x hx
          refine ⟨by omega, by omega, ?_⟩
          rw [(hrest x.1 this.2.1 (by omega)).2]
          exact this.2.2
        · rw [hq]
          rcases h.prog with hq' | ⟨j, p, hj, hjn, hpj, hgt⟩
          · exact Or.inl hq'
          · right
            rw [g2, g4]
            rcases Nat.lt_or_eq_of_le hj with hlt | heq
            · refine ⟨j, p, hlt, by omega, ?_, ?_⟩
              · rw [(hrest j hjn (by omega)).1]; exact hpj
              · rw [(hold j hjn).2]; exact hgt
            · subst heq
              rcases List.mem_append.1 ((hperm.mem_iff).1 hpj) with hm1 | hm1
              · exact ⟨s.ncells, p, by omega, by omega, hm1, by rw [hw.1]; exact hgt⟩
              · exact ⟨s.ncells + 1, p, by omega, by omega, hm1, by rw [hw.2]; exact hgt⟩
        · have hdi := hD s L B dep h.inv h.coords i hi (by omega)
          have h3 : 3 ^ (D - dep i) = 3 * 3 ^ (D - (dep i + 1)) := by
            rw [← pow_succ']
            congr 1
            omega
          rw [measure, hn, Finset.sum_Ico_succ_top (by omega), Finset.sum_Ico_succ_top (by omega), hdep.1, hdep.2,
            Finset.sum_congr rfl fun j hj => by rw [(hold j (mem_Ico.1 hj).2).1]]
          rw [hsum] at hm
          have : 0 < 3 ^ (D - (dep i + 1)) := by positivity
          omega
      | queue hne hL hdep hB hs =>
        subst hL hdep hB hs
        have hnot : i ∉ s.queue.map Prod.fst := by
          intro hj
          obtain ⟨x, hx, hxi⟩ := List.mem_map.1 hj
          have := (h.leaf x hx).1
          omega
        refine ⟨bt, ⟨hinv, ?_, ?_, h.coords, h.fval, h.npts, h.integ, ?_, ?_, fun x hx => ?_, Or.inl (by simp)⟩, ?_⟩
        · dsimp only
          rw [List.map_append]
          exact h.gen.enqueue hi hnot _
        · exact h.qcount.append _ (by rw [h.gen.num hbox h.inv.tree hi hnot])
        · exact h.mono.append (by simp)
        · dsimp only
          rw [List.map_append, List.nodup_append]
          refine ⟨h.nodup, by simp, ?_⟩
          intro a ha b hb hab
          rw [List.mem_map] at ha
          obtain ⟨x, hx, rfl⟩ := ha
          simp only [List.map_cons, List.map_nil, List.mem_singleton] at hb
          have := (h.leaf x hx).1
          omega
        · dsimp only at hx ⊢
          rcases List.mem_append.1 hx with hx | hx
          · have := h.leaf x hx
            refine ⟨by omega, this.2.1, ?_⟩
            rw [Function.update_of_ne (by omega)]
            exact this.2.2
          · rw [List.mem_singleton] at hx
            subst hx
            refine ⟨Nat.lt_succ_self _, hi, ?_⟩
            rw [Function.update_self]
            exact h.inv.leaf i hi hne
        · rw [hsum] at hm
          show ∑ j ∈ Ico (i + 1) s.ncells, 3 ^ (D - _) ≤ n
          omega
    · refine ⟨i, s, L, B, dep, bt, fun fuel _ => ?_, h, by omega⟩
      cases fuel <;> rw [processLoop, if_neg hi]

/-! ### New points for the cells of the queue -/

theorem addQueueLoop_spec (hd : d ≤ maxPrimes) (hbox : ∀ k, e.lo k < e.hi k) (existing : ℕ) (q : List (ℕ × ℕ)) :
    ∀ (prev : ℕ) (s : St d) (L : ℕ → List ℕ) (nb : ℕ → ℕ) (bt : ℕ → List (Batch d)), Inv e s (existing + prev) L B dep nb →
      Gen e s (existing + prev) L B bt (q.map Prod.fst) → QCount (fun j => newCount e bt B j) prev q → Mono prev q → existing + lastOf prev q ≤ s.npts → (q.map Prod.fst).Nodup →
      (∀ x ∈ q, x.1 < s.ncells ∧ (s.cells x.1).child = none) →
      ∃ s' L', addLoopQueue e existing q prev s = .ok s' ∧ Inv e s' (existing + lastOf prev q) L' B dep (fun j => if j ∈ q.map Prod.fst then nb j + 1 else nb j) ∧ s'.ncells = s.ncells ∧
        s'.npts = s.npts ∧ s'.fval = s.fval ∧ s'.integ = s.integ ∧ (∀ p < existing + prev, s'.coords p = s.coords p) ∧
        (∀ j, (s'.cells j).weight = (s.cells j).weight ∧ (s'.cells j).child = (s.cells j).child) ∧ ∃ bt', Gen e s' (existing + lastOf prev q) L' B bt' [] := by
  induction q with
  | nil =>
    intro prev s L nb bt h hg hqc hm hlast hn hl
    refine ⟨s, L, rfl, ?_, rfl, rfl, rfl, rfl, fun _ _ => rfl, fun _ => ⟨rfl, rfl⟩, bt, hg⟩
    simp only [List.map_nil, List.not_mem_nil, if_false]
    exact h
  | cons x q ih =>
    intro prev s L nb bt h hg hqc hm hlast hn hl
    have hx := hl x (by simp)
    have hxl : x.2 ≤ lastOf x.2 q := hm.2.le_last
    have hlast' : existing + lastOf x.2 q ≤ s.npts := hlast
    obtain ⟨s1, L1, a1, a2, a3, a4, a5, a6, -, -, a9, a10, a11, a12, a13⟩ := addPoints_spec hd hbox h hx.1 hx.2 (last := existing + x.2) (by have := hm.1; omega) (by omega)
    rw [List.map_cons, List.nodup_cons] at hn
    have hg1 := hg.add hx.1 hn.1 (s' := s1) (L' := L1) (last := existing + x.2) (by have := hm.1; omega) a3 a9 (fun j => (a10 j).1) a11 a12 a13 (by have := hqc.1; simp only at this; omega)
    obtain ⟨s2, L2, b1, b2, b3, b4, b5, b6, b7, b8, b9⟩ := ih x.2 s1 L1 _ _ a2 hg1 (hqc.2.congr fun j hj => by
      have hjx : j ≠ x.1 := fun h => hn.1 (h ▸ hj)
      simp only [newCount]
      rw [Function.update_of_ne hjx]) hm.2 (by rw [a4]; exact hlast) hn.2 fun y hy => by
      rw [a3, (a10 y.1).2]
      exact hl y (by simp [hy])
    refine ⟨s2, L2, ?_, ?_, b3.trans a3, b4.trans a4, b5.trans a5, b6.trans a6, fun p hp => ?_, fun j => ?_, b9⟩
    · rw [addLoopQueue, a1]
      exact b1
    · refine ⟨b2.tree, b2.chain, b2.count, b2.le, b2.inside, b2.leaf, b2.weight, fun i hi k v => (b2.coinc i hi k v).trans (le_of_eq ?_)⟩
      by_cases hix : i = x.1
      · subst hix
        rw [if_neg hn.1, if_pos (by simp), Function.update_self]
      · rw [Function.update_of_ne hix]
        simp only [List.map_cons, List.mem_cons, hix, false_or]
    · rw [b7 p (by have := hm.1; omega)]
      exact a9 p hp
    · exact ⟨(b8 j).1.trans (a10 j).1, (b8 j).2.trans (a10 j).2⟩

end

end Verif.Sample
