import Verif.Sample.Loop

/-! sampleNdim (math_sample.cpp): outcome and properties of samples; C89 -/
namespace Verif.Sample

open Verif.Random Verif.Core Finset

noncomputable section

variable {d : ℕ} {e : Env d} {s : St d} {m : ℕ} {L : ℕ → List ℕ} {B : ℕ → Vec d × Vec d} {dep : ℕ → ℕ} {c : ℕ}

/-! ### All points -/

/-- All points with the indices of their cells -/
def allPts (L : ℕ → List ℕ) (n : ℕ) : List (ℕ × ℕ) := (List.range n).flatMap fun i => (L i).map fun p => (i, p)

theorem allPoints_spec {nb : ℕ → ℕ} (h : Inv e s m L B dep nb) : allPoints s = .ok (allPts L s.ncells) := by
  have main : ∀ (l : List ℕ) (acc : List (ℕ × ℕ)), (∀ i ∈ l, i < s.ncells) →
      l.foldlM (fun (acc : List (ℕ × ℕ)) i => (do pure (acc ++ (← points s i).map fun p => (i, p)) : Except Err (List (ℕ × ℕ)))) acc = .ok (acc ++ l.flatMap fun i => (L i).map fun p => (i, p)) := by
    intro l
    induction l with
    | nil => intro acc _; simp [List.foldlM_nil, pure, Except.pure]
    | cons i l ih =>
      intro acc hl
      rw [List.foldlM_cons, h.points (hl i (by simp))]
      show List.foldlM _ (acc ++ (L i).map fun p => (i, p)) l = _
      rw [ih _ fun j hj => hl j (by simp [hj]), List.flatMap_cons, List.append_assoc]
  rw [allPoints, main _ _ fun i hi => List.mem_range.1 hi]
  rfl

theorem mem_allPts {n : ℕ} {x : ℕ × ℕ} : x ∈ allPts L n ↔ x.1 < n ∧ x.2 ∈ L x.1 := by
  rw [allPts, List.mem_flatMap]
  constructor
  · rintro ⟨i, hi, hx⟩
    rw [List.mem_map] at hx
    obtain ⟨p, hp, rfl⟩ := hx
    exact ⟨List.mem_range.1 hi, hp⟩
  · rintro ⟨h1, h2⟩
    exact ⟨x.1, List.mem_range.2 h1, List.mem_map.2 ⟨x.2, h2, rfl⟩⟩

theorem allPts_perm {nb : ℕ → ℕ} (h : Inv e s m L B dep nb) : ((allPts L s.ncells).map Prod.snd).Perm (List.range m) := by
  rw [List.perm_iff_count]
  intro p
  have e1 : (allPts L s.ncells).map Prod.snd = (List.range s.ncells).flatMap L := by
    rw [allPts, List.map_flatMap]
    congr 1
    funext i
    rw [List.map_map]
    exact List.map_id _
  rw [e1, List.count_flatMap, List.count_range, ← h.count p, Finset.sum_range]
  rw [← List.sum_ofFn, List.ofFn_eq_map, ← List.map_coe_finRange_eq_range, List.map_map]
  rfl

theorem allPts_length {nb : ℕ → ℕ} (h : Inv e s m L B dep nb) : (allPts L s.ncells).length = m := by
  have := (allPts_perm h).length_eq
  rwa [List.length_map, List.length_range] at this

/-! ### The estimate of the integral -/

/-- The function values are known at all points -/
def Known (e : Env d) (s : St d) (m : ℕ) : Prop := ∀ p < m, e.f (s.coords p) = some (s.fval p) ∧ 0 ≤ s.fval p

/-- A complete state -/
structure Good (e : Env d) (s : St d) (L : ℕ → List ℕ) (B : ℕ → Vec d × Vec d) (dep : ℕ → ℕ) (c : ℕ) : Prop where
  inv : Inv e s s.npts L B dep fun _ => c
  gen : ∃ bt, Gen e s s.npts L B bt []
  known : Known e s s.npts
  integ : s.integ = ((allPts L s.ncells).map (sampleWeight s)).sum
  pos : 0 < s.integ
  err : s.integErr = √((((allPts L s.ncells).map (sampleWeight s)).foldl Averager.add Averager.init).disp * s.npts)

theorem foldl_max (l : List ℝ) : ∀ a : ℝ, (∀ x ∈ l, x ≤ l.foldl max a) ∧ a ≤ l.foldl max a ∧ (l.foldl max a = a ∨ l.foldl max a ∈ l) := by
  induction l with
  | nil => intro a; exact ⟨by simp, le_rfl, Or.inl rfl⟩
  | cons x l ih =>
    intro a
    obtain ⟨h1, h2, h3⟩ := ih (max a x)
    rw [List.foldl_cons]
    refine ⟨fun y hy => ?_, (le_max_left _ _).trans h2, ?_⟩
    · rcases List.mem_cons.1 hy with rfl | hy
      · exact (le_max_right _ _).trans h2
      · exact h1 y hy
    · rcases h3 with h3 | h3
      · rw [h3]
        rcases max_choice a x with hm | hm
        · left; rw [hm]
        · right; rw [hm]; simp
      · right; simp [h3]

theorem foldl_add_sum (l : List ℝ) : l.foldl (fun a w => a + w) 0 = l.sum := by
  have : ∀ (l : List ℝ) (a : ℝ), l.foldl (fun a w => a + w) a = a + l.sum := by
    intro l
    induction l with
    | nil => intro a; simp
    | cons x l ih => intro a; rw [List.foldl_cons, ih, List.sum_cons, add_assoc]
  rw [this, zero_add]

theorem sampleWeight_nonneg (h : Inv e s s.npts L B dep fun _ => c) (hk : Known e s s.npts) {x : ℕ × ℕ} (hx : x ∈ allPts L s.ncells) : 0 ≤ sampleWeight s x := by
  obtain ⟨h1, h2⟩ := mem_allPts.1 hx
  exact mul_nonneg (hk x.2 (h.lt h1 h2)).2 (h.weight x.1 h1).le

/-- A point with a too large weight exists -/
def Needs (e : Env d) (s : St d) (L : ℕ → List ℕ) : Prop := ∃ j p, j < s.ncells ∧ p ∈ L j ∧ 1 < s.fval p * (s.cells j).weight * e.N / s.integ

/-- All weights are small enough -/
def Fine (e : Env d) (s : St d) (L : ℕ → List ℕ) : Prop := ∀ x ∈ allPts L s.ncells, sampleWeight s x * e.N ≤ s.integ

theorem computeResult_spec (h : Inv e s s.npts L B dep fun _ => c) (hg : ∃ bt, Gen e s s.npts L B bt []) (hk : Known e s s.npts) :
    (((allPts L s.ncells).map (sampleWeight s)).sum ≤ 0 ∧ computeResult e s = .error .exception) ∨
    ∃ r, computeResult e s = .ok r ∧ Good e r.2 L B dep c ∧ (1 < r.1 → Needs e r.2 L) ∧ (r.1 ≤ 1 → Fine e r.2 L) ∧ r.2.npts = s.npts ∧ r.2.ncells = s.ncells ∧ r.2.fval = s.fval ∧
      r.2.coords = s.coords ∧ r.2.cells = s.cells ∧ r.2.next = s.next := by
  set ws := (allPts L s.ncells).map (sampleWeight s) with hws
  have hcount : (ws.foldl Averager.add (Averager.init : Averager ℝ)).count = s.npts := by
    have := (C14_averager ws).1
    rw [this, hws, List.length_map, allPts_length h]
  have hres : computeResult e s = if ws.sum ≤ 0 then .error .exception else
      .ok (ws.foldl max 0 * e.N / ws.sum, { s with integ := ws.sum, integErr := √((ws.foldl Averager.add Averager.init).disp * s.npts) }) := by
    rw [computeResult, allPoints_spec h]
    show (if (ws.foldl Averager.add (Averager.init : Averager ℝ)).count ≠ s.npts then _ else if ws.foldl (fun a w => a + w) 0 ≤ 0 then _ else _) = _
    rw [if_neg (by rw [hcount]; simp), foldl_add_sum]
    rfl
  by_cases h0 : ws.sum ≤ 0
  · left
    exact ⟨h0, by rw [hres, if_pos h0]⟩
  · right
    rw [if_neg h0] at hres
    push Not at h0
    refine ⟨_, hres, ⟨?_, hg.imp fun _ h => h.congr rfl rfl fun _ => rfl, hk, rfl, h0, rfl⟩, fun hgt => ?_, fun hle x hx => ?_, rfl, rfl, rfl, rfl, rfl, rfl⟩
    · exact ⟨h.tree, h.chain, h.count, h.le, h.inside, h.leaf, h.weight, h.coinc⟩
    · obtain ⟨-, -, m3⟩ := foldl_max ws 0
      rcases m3 with m3 | m3
      · rw [m3] at hgt
        simp only [zero_mul, zero_div] at hgt
        linarith
      · obtain ⟨x, hx, hxe⟩ := List.mem_map.1 m3
        obtain ⟨x1, x2⟩ := mem_allPts.1 hx
        refine ⟨x.1, x.2, x1, x2, ?_⟩
        rw [← hxe] at hgt
        exact hgt
    · obtain ⟨m1, -, -⟩ := foldl_max ws 0
      have h1 := m1 (sampleWeight s x) (List.mem_map_of_mem hx)
      have h2 : ws.foldl max 0 * e.N ≤ ws.sum := by
        have := (div_le_iff₀ h0).1 hle
        linarith
      exact (mul_le_mul_of_nonneg_right h1 (Nat.cast_nonneg _)).trans h2

/-! ### Iterations -/

/-- A bad value of the function in the sampling region: an exception or a negative number -/
def Bad (e : Env d) : Prop := ∃ x, InBox (e.lo, e.hi) x ∧ ∀ v, e.f x = some v → v < 0

theorem Tree.inside {cells : ℕ → Cell d} {n : ℕ} (ht : Tree e cells n B dep) (i : ℕ) (hi : i < n) (x : Vec d) (hx : InBox (B i) x) : InBox (e.lo, e.hi) x := by
  induction i using Nat.strong_induction_on with
  | _ i ih =>
    rcases Nat.eq_zero_or_pos i with rfl | hpos
    · rwa [ht.root] at hx
    · obtain ⟨p, c, j, hp, h1, h2, h3, hdep, hcase⟩ := ht.par i hpos hi
      refine ih p hp (by omega) ?_
      obtain ⟨b1, b2, -, -⟩ := inBox_halves (B p) j x
      rcases hcase with ⟨-, hB⟩ | ⟨-, hB⟩ <;> rw [hB] at hx
      · exact (b1 hx).1
      · exact (b2 hx).1

theorem Inv.in_region {nb : ℕ → ℕ} (h : Inv e s m L B dep nb) {p : ℕ} (hp : p < m) : InBox (e.lo, e.hi) (s.coords p) := by
  have hc := h.count p
  rw [if_pos hp] at hc
  obtain ⟨i, hi, hne⟩ := Finset.exists_ne_zero_of_sum_ne_zero (by rw [hc]; exact one_ne_zero)
  rw [mem_range] at hi
  have := List.count_pos_iff.1 (Nat.pos_of_ne_zero hne)
  exact h.tree.inside i hi _ (h.inside i hi p this)

theorem eval_spec {nb : ℕ → ℕ} (h : Inv e s s.npts L B dep nb) {first : ℕ} (hk : Known e s first) :
    (Bad e ∧ evalFncLoop e s first s.npts = .error .exception) ∨
    ∃ fv, evalFncLoop e s first s.npts = .ok { s with fval := fv } ∧ Known e { s with fval := fv } s.npts ∧ ∀ p < first, fv p = s.fval p := by
  classical
  rw [evalFncLoop]
  split_ifs with hb
  · left
    obtain ⟨p, h1, h2, h3⟩ := hb
    exact ⟨⟨_, h.in_region h2, h3⟩, rfl⟩
  · right
    refine ⟨_, rfl, ?_, fun p hp => if_neg (by omega)⟩
    intro p hp
    show e.f (s.coords p) = some (if first ≤ p ∧ p < s.npts then (e.f (s.coords p)).getD 0 else s.fval p) ∧ 0 ≤ (if first ≤ p ∧ p < s.npts then (e.f (s.coords p)).getD 0 else s.fval p)
    by_cases hf : first ≤ p
    · rw [if_pos ⟨hf, hp⟩]
      push Not at hb
      obtain ⟨v, hv, hv0⟩ := hb p hf hp
      rw [hv]
      exact ⟨rfl, hv0⟩
    · rw [if_neg (by omega)]
      exact hk p (by omega)

/-- The first half of the iteration, before the evaluation of the function -/
theorem iteration_mid (hd : 0 < d) (hd' : d ≤ maxPrimes) (hbox : ∀ k, e.lo k < e.hi k) (h : Good e s L B dep c) (hc : c ≤ 2 * minNumPointsInCell) (hneed : Needs e s L) :
    ∃ F s1 s2 L2 B1 dep1, (∀ fuel, F ≤ fuel → processLoop e fuel 0 { s with queue := [] } = .ok s1) ∧ s1.queue ≠ [] ∧
      addLoopQueue e s1.npts s1.queue 0 { s1 with npts := s1.npts + queueTotal s1.queue } = .ok s2 ∧ s2.npts = s1.npts + queueTotal s1.queue ∧ s1.npts = s.npts ∧
      Inv e s2 s2.npts L2 B1 dep1 (fun _ => c + 1) ∧ Known e s2 s1.npts ∧ (∃ bt, Gen e s2 s2.npts L2 B1 bt []) ∧ s2.fval = s.fval := by
  obtain ⟨D, hD⟩ := depth_bound hbox s.coords s.npts c
  obtain ⟨bt, hgen⟩ := h.gen
  have hPL : PL e s s.npts c 0 { s with queue := [] } L B dep bt := by
    refine ⟨⟨h.inv.tree, h.inv.chain, h.inv.count, h.inv.le, h.inv.inside, h.inv.leaf, h.inv.weight, h.inv.coinc⟩, hgen.congr rfl rfl fun _ => rfl, trivial, rfl, rfl, rfl, rfl, trivial, List.nodup_nil, by simp, Or.inr ?_⟩
    obtain ⟨j, p, h1, h2, h3⟩ := hneed
    exact ⟨j, p, Nat.zero_le _, h1, h2, h3⟩
  obtain ⟨i1, s1, L1, B1, dep1, bt1, p1, p2, p3⟩ := processLoop_spec hd hbox h.pos hc hD (measure D 0 s.ncells dep) 0 { s with queue := [] } L B dep bt hPL le_rfl
  have hq : s1.queue ≠ [] := by
    rcases p2.prog with hq | ⟨j, p, h1, h2, -⟩
    · exact hq
    · omega
  have htot : queueTotal s1.queue = lastOf 0 s1.queue := queueTotal_eq _
  set overall := s1.npts + queueTotal s1.queue with hov
  have hinv1 : Inv e { s1 with npts := overall } (s1.npts + 0) L1 B1 dep1 fun _ => c := by
    have := p2.inv
    refine ⟨this.tree, this.chain, ?_, by simp [hov], this.inside, this.leaf, this.weight, this.coinc⟩
    rw [add_zero, p2.npts]
    exact this.count
  obtain ⟨s2, L2, a1, a2, a3, a4, a5, a6, a7, a8, a9⟩ := addQueueLoop_spec hd' hbox s1.npts s1.queue 0 { s1 with npts := overall } L1 _ bt1 hinv1
    (by rw [add_zero, p2.npts]; exact p2.gen.congr rfl rfl fun _ => rfl) p2.qcount p2.mono (by simp [hov, htot]) p2.nodup
    fun x hx => (p2.leaf x hx).2
  have hnp2 : s2.npts = overall := a4
  have hinv2 : Inv e s2 s2.npts L2 B1 dep1 fun _ => c + 1 := by
    have hm : s2.npts = s1.npts + lastOf 0 s1.queue := by rw [hnp2, hov, htot]
    rw [hm]
    refine ⟨a2.tree, a2.chain, a2.count, a2.le, a2.inside, a2.leaf, a2.weight, fun i hi k v => (a2.coinc i hi k v).trans ?_⟩
    split_ifs <;> omega
  have hk2 : Known e s2 s1.npts := by
    intro p hp
    rw [a7 p (by omega), a5]
    show e.f (s1.coords p) = some (s1.fval p) ∧ 0 ≤ s1.fval p
    rw [p2.coords, p2.fval]
    exact h.known p (by rw [p2.npts] at hp; exact hp)
  refine ⟨measure D 0 s.ncells dep, s1, s2, L2, B1, dep1, p1, hq, a1, hnp2, p2.npts, hinv2, hk2, ?_, ?_⟩
  · have hm : s2.npts = s1.npts + lastOf 0 s1.queue := by rw [hnp2, hov, htot]
    rw [hm]
    exact a9
  · rw [a5]
    exact p2.fval

theorem iteration_eq {fuel : ℕ} {s1 s2 : St d} (p1 : processLoop e fuel 0 { s with queue := [] } = .ok s1) (hq : s1.queue ≠ [])
    (a1 : addLoopQueue e s1.npts s1.queue 0 { s1 with npts := s1.npts + queueTotal s1.queue } = .ok s2) (hn : s2.npts = s1.npts + queueTotal s1.queue) :
    iteration e fuel s = (evalFncLoop e s2 s1.npts s2.npts).bind (computeResult e) := by
  rw [iteration, p1]
  show (if s1.queue = [] then _ else _) = _
  rw [if_neg hq]
  show ((addLoopQueue e s1.npts s1.queue 0 { s1 with npts := s1.npts + queueTotal s1.queue }).bind fun s => (evalFncLoop e s s1.npts (s1.npts + queueTotal s1.queue)).bind (computeResult e)) = _
  rw [a1, hn]
  rfl

theorem iteration_spec (hd : 0 < d) (hd' : d ≤ maxPrimes) (hbox : ∀ k, e.lo k < e.hi k) (h : Good e s L B dep c) (hc : c ≤ 2 * minNumPointsInCell) (hneed : Needs e s L) :
    ∃ F, (Bad e ∧ ∀ fuel, F ≤ fuel → iteration e fuel s = .error .exception) ∨
      ∃ r L' B' dep', (∀ fuel, F ≤ fuel → iteration e fuel s = .ok r) ∧ Good e r.2 L' B' dep' (c + 1) ∧ (1 < r.1 → Needs e r.2 L') ∧ (r.1 ≤ 1 → Fine e r.2 L') ∧ s.npts ≤ r.2.npts := by
  obtain ⟨F, s1, s2, L2, B1, dep1, p1, hq, a1, hnp2, hnp1, hinv2, hk2, hg2, hfv2⟩ := iteration_mid hd hd' hbox h hc hneed
  refine ⟨F, ?_⟩
  have hit : ∀ fuel, F ≤ fuel → iteration e fuel s = (evalFncLoop e s2 s1.npts s2.npts).bind (computeResult e) := fun fuel hf => iteration_eq (p1 fuel hf) hq a1 hnp2
  rcases eval_spec hinv2 hk2 with ⟨hbad, hev⟩ | ⟨fv, hev, hk3, hfv⟩
  · left
    refine ⟨hbad, fun fuel hf => ?_⟩
    rw [hit fuel hf, hev]
    rfl
  · right
    set s3 : St d := { s2 with fval := fv } with hs3
    have hinv3 : Inv e s3 s3.npts L2 B1 dep1 fun _ => c + 1 := ⟨hinv2.tree, hinv2.chain, hinv2.count, hinv2.le, hinv2.inside, hinv2.leaf, hinv2.weight, hinv2.coinc⟩
    have hpos : 0 < ((allPts L2 s3.ncells).map (sampleWeight s3)).sum := by
      -- a point with a positive value has been there before
      obtain ⟨j, p, h1, h2, h3⟩ := hneed
      have hfp : 0 < s.fval p := by
        by_contra hneg
        have := le_antisymm (not_lt.1 hneg) (h.known p (h.inv.lt h1 h2)).2
        rw [this] at h3
        simp only [zero_mul, zero_div] at h3
        linarith
      have hpn : p < s.npts := h.inv.lt h1 h2
      have hp3 : s3.fval p = s.fval p := by
        show fv p = _
        rw [hfv p (by rw [hnp1]; exact hpn), hfv2]
      have hmem : p ∈ (allPts L2 s3.ncells).map Prod.snd := by
        rw [(allPts_perm hinv3).mem_iff, List.mem_range]
        show p < s2.npts
        rw [hnp2, hnp1]
        exact Nat.lt_add_right _ hpn
      obtain ⟨x, hx, rfl⟩ := List.mem_map.1 hmem
      have hxw : 0 < sampleWeight s3 x := mul_pos (by rw [hp3]; exact hfp) (hinv3.weight x.1 (mem_allPts.1 hx).1)
      refine lt_of_lt_of_le hxw (List.single_le_sum (fun y hy => ?_) _ (List.mem_map_of_mem hx))
      obtain ⟨z, hz, rfl⟩ := List.mem_map.1 hy
      exact sampleWeight_nonneg hinv3 hk3 hz
    have hg3 : ∃ bt, Gen e s3 s3.npts L2 B1 bt [] := hg2.imp fun _ h => h.congr rfl rfl fun _ => rfl
    rcases computeResult_spec hinv3 hg3 hk3 with ⟨h0, -⟩ | ⟨r, r1, r2, r3, r4, r5, -⟩
    · linarith
    · refine ⟨r, L2, B1, dep1, fun fuel hf => ?_, r2, r3, r4, ?_⟩
      · rw [hit fuel hf, hev]
        exact r1
      · rw [r5]
        show s.npts ≤ s2.npts
        rw [hnp2, hnp1]
        exact Nat.le_add_right _ _

/-- The state after the given number of refinements which is still not good enough -/
inductive Refined (e : Env d) (fuel : ℕ) : ℕ → St d → Prop
  | start {s1 s2 : St d} {r : ℝ × St d} (h1 : addPointsToCell e (initSt d e.N) 0 0 (numInit e.N) = .ok s1) (h2 : evalFncLoop e s1 0 (numInit e.N) = .ok s2) (h3 : computeResult e s2 = .ok r)
      (h4 : 1 < r.1) : Refined e fuel 0 r.2
  | step {k : ℕ} {s : St d} {r : ℝ × St d} (h1 : Refined e fuel k s) (h2 : iteration e fuel s = .ok r) (h3 : 1 < r.1) : Refined e fuel (k + 1) r.2

/-- Legitimate reasons for an exception: Ctrl-Break; a bad value of the function; the procedure did not converge in 49 iterations -/
def Cause (e : Env d) (fuel : ℕ) : Prop := (∃ i, e.brk i = true) ∨ Bad e ∨ ∃ s, Refined e fuel (maxNumIter - 1) s

theorem runLoop_spec (hd : 0 < d) (hd' : d ≤ maxPrimes) (hbox : ∀ k, e.lo k < e.hi k) (left : ℕ) : ∀ (nIter c : ℕ) (s : St d) (L : ℕ → List ℕ) (B : ℕ → Vec d × Vec d) (dep : ℕ → ℕ),
    Good e s L B dep c → Needs e s L → c + left ≤ 2 * minNumPointsInCell → ∃ F, (∀ fuel, F ≤ fuel → Refined e fuel (maxNumIter - 1 - left) s → left ≤ maxNumIter - 1 →
        runLoop e fuel left nIter s = .error .exception ∧ Cause e fuel) ∨
      ∃ s' L' B' dep' c', (∀ fuel, F ≤ fuel → runLoop e fuel left nIter s = .ok s') ∧ Good e s' L' B' dep' c' ∧ Fine e s' L' ∧ s.npts ≤ s'.npts := by
  induction left with
  | zero =>
    intro nIter c s L B dep h hn hc
    exact ⟨0, Or.inl fun fuel _ hr _ => ⟨rfl, Or.inr (Or.inr ⟨s, hr⟩)⟩⟩
  | succ left ih =>
    intro nIter c s L B dep h hn hc
    by_cases hb : e.brk nIter = true
    · refine ⟨0, Or.inl fun fuel _ _ _ => ⟨?_, Or.inl ⟨nIter, hb⟩⟩⟩
      rw [runLoop, if_pos hb]
    · obtain ⟨F1, h1⟩ := iteration_spec hd hd' hbox h (by omega) hn
      rcases h1 with ⟨hbad, h1⟩ | ⟨r, L', B', dep', h1, h2, h3, h4, h5⟩
      · refine ⟨F1, Or.inl fun fuel hf _ _ => ⟨?_, Or.inr (Or.inl hbad)⟩⟩
        rw [runLoop, if_neg hb, h1 fuel hf]
        rfl
      · by_cases hr : r.1 ≤ 1
        · refine ⟨F1, Or.inr ⟨r.2, L', B', dep', c + 1, fun fuel hf => ?_, h2, h4 hr, h5⟩⟩
          rw [runLoop, if_neg hb, h1 fuel hf]
          show (if r.1 ≤ 1 then _ else _) = _
          rw [if_pos hr]
          rfl
        · obtain ⟨F2, h6⟩ := ih (nIter + 1) (c + 1) r.2 L' B' dep' h2 (h3 (not_le.1 hr)) (by omega)
          have hrun : ∀ fuel, F1 ≤ fuel → runLoop e fuel (left + 1) nIter s = runLoop e fuel left (nIter + 1) r.2 := by
            intro fuel hf
            rw [runLoop, if_neg hb, h1 fuel hf]
            show (if r.1 ≤ 1 then _ else _) = _
            rw [if_neg hr]
          refine ⟨max F1 F2, ?_⟩
          rcases h6 with h6 | ⟨s', L2, B2, dep2, c2, g1, g2, g3, g4⟩
          · left
            intro fuel hf hR hl
            rw [hrun fuel ((le_max_left _ _).trans hf)]
            refine h6 fuel ((le_max_right _ _).trans hf) ?_ (by omega)
            have := Refined.step hR (h1 fuel ((le_max_left _ _).trans hf)) (not_le.1 hr)
            convert this using 1
            omega
          · right
            exact ⟨s', L2, B2, dep2, c2, fun fuel hf => by rw [hrun fuel ((le_max_left _ _).trans hf)]; exact g1 fuel ((le_max_right _ _).trans hf), g2, g3, h5.trans g4⟩

theorem init_inv (e : Env d) : Inv e (initSt d e.N) 0 (fun _ => []) (fun _ => (e.lo, e.hi)) (fun _ => 0) fun _ => 0 where
  tree := ⟨Nat.one_pos, rfl, rfl, fun i h1 h2 => absurd h2 (by show ¬ i < 1; omega), fun i _ c hc => by simp [initSt] at hc,
    fun x hx => ⟨0, ⟨Nat.one_pos, rfl, hx⟩, fun j hj => by have : j < 1 := hj.1; omega⟩⟩
  chain := fun _ _ => rfl
  count := fun p => by simp
  le := Nat.zero_le _
  inside := fun _ _ p hp => by cases hp
  leaf := fun _ _ _ => rfl
  weight := fun _ _ => by
    have : 0 < numInit e.N := by
      rw [numInit, maxInitSamples, minNumPointsInCell]
      have : 0 < (1 + e.N / 256) * 256 := by positivity
      omega
    show 0 < 1 / (numInit e.N : ℝ)
    positivity
  coinc := fun _ _ _ _ => le_rfl

theorem numInit_pos (N : ℕ) : 0 < numInit N := by
  rw [numInit, maxInitSamples, minNumPointsInCell]
  have : 0 < (1 + N / 256) * 256 := by positivity
  omega

/-- The history after the first iteration -/
theorem init_gen (e : Env d) {s1 : St d} {L1 : ℕ → List ℕ} (hnp : s1.npts = numInit e.N) (hn : s1.ncells = (initSt d e.N).ncells)
    (hw : ∀ j, (s1.cells j).weight = ((initSt d e.N).cells j).weight) (hL : L1 0 = (List.range' 0 (numInit e.N - 0)).reverse ++ [])
    (hnew : ((List.range' 0 (numInit e.N - 0)).map s1.coords).Perm ((List.range' 0 (numInit e.N - 0)).map (quasiPoint e (e.lo, e.hi)))) :
    Gen e s1 s1.npts L1 (fun _ => (e.lo, e.hi)) (fun _ => [⟨(e.lo, e.hi), 0, numInit e.N⟩]) [] := by
  have h0 : ∀ i < s1.ncells, i = 0 := fun i hi => by
    rw [hn] at hi
    have : i < 1 := hi
    omega
  have hp : (numInit e.N : ℝ) ≠ 0 := by exact_mod_cast (numInit_pos e.N).ne'
  refine ⟨fun _ _ => by simp, fun i _ => ?_, fun i _ => ⟨by simp only; omega, hnew, rfl, trivial⟩, fun i hi p hp => ⟨_, List.mem_singleton_self _, ?_⟩, fun i _ b hb x hx => ?_⟩
  · rw [hw]
    show 1 / (numInit e.N : ℝ) * _ = 1
    simp
    field_simp
  · have := h0 i hi
    subst this
    rw [hL, List.append_nil, List.mem_reverse, List.mem_range'_1] at hp
    simpa using hp
  · rw [List.mem_singleton] at hb
    subst hb
    exact hx

/-- The function is zero at many points in the region -/
def Zero (e : Env d) : Prop := ∃ pts : List (Vec d), pts.length = numInit e.N ∧ ∀ x ∈ pts, InBox (e.lo, e.hi) x ∧ e.f x = some 0

theorem run_spec (hd : 0 < d) (hd' : d ≤ maxPrimes) (hbox : ∀ k, e.lo k < e.hi k) : ∃ F,
    (∀ fuel, F ≤ fuel → run e fuel = .error .exception ∧ (Cause e fuel ∨ Zero e)) ∨
    ∃ s L B dep c, (∀ fuel, F ≤ fuel → run e fuel = .ok s) ∧ Good e s L B dep c ∧ Fine e s L ∧ numInit e.N ≤ s.npts := by
  obtain ⟨s1, L1, a1, a2, a3, a4, a5, -, -, -, -, a10, a11, a12, a13⟩ := addPoints_spec hd' hbox (init_inv e) (i := 0) Nat.one_pos rfl (last := numInit e.N) (Nat.zero_le _) le_rfl
  have hnp : s1.npts = numInit e.N := a4
  have hinv1 : Inv e s1 s1.npts L1 (fun _ => (e.lo, e.hi)) (fun _ => 0) fun _ => 1 := by
    rw [hnp]
    refine ⟨a2.tree, a2.chain, a2.count, a2.le, a2.inside, a2.leaf, a2.weight, fun i hi k v => (a2.coinc i hi k v).trans ?_⟩
    by_cases hi : i = 0
    · subst hi; rw [Function.update_self]
    · rw [Function.update_of_ne hi]; exact Nat.zero_le _
  have hrun : ∀ fuel, run e fuel = (evalFncLoop e s1 0 s1.npts).bind fun s => (computeResult e s).bind fun r => if r.1 ≤ 1 then pure r.2 else runLoop e fuel (maxNumIter - 1) 1 r.2 := by
    intro fuel
    rw [run, a1, hnp]
    rfl
  rcases eval_spec hinv1 (first := 0) (fun p hp => by omega) with ⟨hbad, hev⟩ | ⟨fv, hev, hk, -⟩
  · refine ⟨0, Or.inl fun fuel _ => ⟨?_, Or.inl (Or.inr (Or.inl hbad))⟩⟩
    rw [hrun, hev]
    rfl
  · set s2 : St d := { s1 with fval := fv } with hs2
    have hinv2 : Inv e s2 s2.npts L1 (fun _ => (e.lo, e.hi)) (fun _ => 0) fun _ => 1 :=
      ⟨hinv1.tree, hinv1.chain, hinv1.count, hinv1.le, hinv1.inside, hinv1.leaf, hinv1.weight, hinv1.coinc⟩
    have hg2 : ∃ bt, Gen e s2 s2.npts L1 (fun _ => (e.lo, e.hi)) bt [] := by
      refine ⟨_, (init_gen e hnp a3 (fun j => (a10 j).1) a11 a13).congr rfl rfl fun _ => rfl⟩
    rcases computeResult_spec hinv2 hg2 hk with ⟨h0, hc⟩ | ⟨r, r1, r2, r3, r4, r5, -⟩
    · refine ⟨0, Or.inl fun fuel _ => ⟨?_, Or.inr ?_⟩⟩
      · rw [hrun, hev]
        show ((computeResult e s2).bind _) = _
        rw [hc]
        rfl
      · refine ⟨(List.range s2.npts).map s2.coords, by rw [List.length_map, List.length_range]; exact hnp, fun x hx => ?_⟩
        obtain ⟨p, hp, rfl⟩ := List.mem_map.1 hx
        rw [List.mem_range] at hp
        refine ⟨hinv2.in_region hp, ?_⟩
        have hz : ∀ y ∈ allPts L1 s2.ncells, sampleWeight s2 y = 0 := by
          intro y hy
          refine le_antisymm (le_trans ?_ h0) (sampleWeight_nonneg hinv2 hk hy)
          refine List.single_le_sum (fun z hz => ?_) _ (List.mem_map_of_mem hy)
          obtain ⟨w, hw, rfl⟩ := List.mem_map.1 hz
          exact sampleWeight_nonneg hinv2 hk hw
        have hmem : p ∈ (allPts L1 s2.ncells).map Prod.snd := by
          rw [(allPts_perm hinv2).mem_iff, List.mem_range]
          exact hp
        obtain ⟨y, hy, rfl⟩ := List.mem_map.1 hmem
        rw [(hk y.2 hp).1]
        congr 1
        rcases mul_eq_zero.1 (hz y hy) with h | h
        · exact h
        · exact absurd h (hinv2.weight y.1 (mem_allPts.1 hy).1).ne'
    · have hrun2 : ∀ fuel, run e fuel = if r.1 ≤ 1 then pure r.2 else runLoop e fuel (maxNumIter - 1) 1 r.2 := by
        intro fuel
        rw [hrun, hev]
        show ((computeResult e s2).bind _) = _
        rw [r1]
        rfl
      have hle : numInit e.N ≤ r.2.npts := by rw [r5]; exact hnp.ge
      by_cases hr : r.1 ≤ 1
      · refine ⟨0, Or.inr ⟨r.2, L1, _, _, 1, fun fuel _ => ?_, r2, r4 hr, hle⟩⟩
        rw [hrun2, if_pos hr]
        rfl
      · obtain ⟨F, h6⟩ := runLoop_spec hd hd' hbox (maxNumIter - 1) 1 1 r.2 L1 _ _ r2 (r3 (not_le.1 hr)) (by decide)
        rcases h6 with h6 | ⟨s', L2, B2, dep2, c2, g1, g2, g3, g4⟩
        · refine ⟨F, Or.inl fun fuel hf => ?_⟩
          rw [hrun2, if_neg hr]
          obtain ⟨k1, k2⟩ := h6 fuel hf (by
            rw [Nat.sub_self]
            exact Refined.start a1 (by rw [← hnp]; exact hev) r1 (not_le.1 hr)) le_rfl
          exact ⟨k1, Or.inl k2⟩
        · refine ⟨F, Or.inr ⟨s', L2, B2, dep2, c2, fun fuel hf => ?_, g2, g3, hle.trans g4⟩⟩
          rw [hrun2, if_neg hr]
          exact g1 fuel hf

end

end Verif.Sample
