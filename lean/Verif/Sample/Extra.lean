import Verif.Sample.Props

/-! sampleNdim (math_sample.cpp): the function is not used outside the region; constant function; C89 -/
namespace Verif.Sample

open Verif.Random Verif.Core Finset

noncomputable section

variable {d : ℕ} {e : Env d} {s : St d} {L : ℕ → List ℕ} {B : ℕ → Vec d × Vec d} {dep : ℕ → ℕ} {c : ℕ}

/-! ### The function outside the region -/

/-- The same problem with a different function -/
def withF (e : Env d) (g : Vec d → Option ℝ) : Env d := { e with f := g }

variable {g : Vec d → Option ℝ}

theorem processLoop_withF (fuel : ℕ) : ∀ (i : ℕ) (s : St d), processLoop (withF e g) fuel i s = processLoop e fuel i s := by
  induction fuel with
  | zero => intro i s; rfl
  | succ fuel ih =>
    intro i s
    rw [processLoop, processLoop]
    split_ifs
    · show (processCell e s i).bind _ = (processCell e s i).bind _
      congr 1
      funext s'
      exact ih _ _
    · rfl

theorem addLoop_withF (b : Vec d × Vec d) (first : ℕ) (perm : List ℕ) (count : ℕ) : ∀ (p : ℕ) (st : (ℕ → Vec d) × (ℕ → Option ℕ) × Option ℕ),
    addLoop (withF e g) b first perm count p st = addLoop e b first perm count p st := by
  induction count with
  | zero => intro p st; rfl
  | succ n ih => intro p st; exact ih _ _

theorem addPoints_withF (s : St d) (i first last : ℕ) : addPointsToCell (withF e g) s i first last = addPointsToCell e s i first last := by
  rw [addPointsToCell, addPointsToCell]
  show (getCellBoundaries e s i).bind _ = (getCellBoundaries e s i).bind _
  congr 1
  funext b
  show (match permLoop (e.draws last) (List.replicate (last - first) 0) (last - first) with | none => _ | some perm => _) =
    (match permLoop (e.draws last) (List.replicate (last - first) 0) (last - first) with | none => _ | some perm => _)
  cases permLoop (e.draws last) (List.replicate (last - first) 0) (last - first) with
  | none => rfl
  | some perm =>
    simp only
    rw [addLoop_withF]

theorem addLoopQueue_withF (existing : ℕ) (q : List (ℕ × ℕ)) : ∀ (prev : ℕ) (s : St d), addLoopQueue (withF e g) existing q prev s = addLoopQueue e existing q prev s := by
  induction q with
  | nil => intro prev s; rfl
  | cons x q ih =>
    intro prev s
    rw [addLoopQueue, addLoopQueue, addPoints_withF]
    congr 1
    funext s'
    exact ih _ _

theorem eval_withF (hg : ∀ x, InBox (e.lo, e.hi) x → g x = e.f x) {s : St d} {first : ℕ} (hs : ∀ p < s.npts, InBox (e.lo, e.hi) (s.coords p)) :
    evalFncLoop (withF e g) s first s.npts = evalFncLoop e s first s.npts := by
  classical
  have hf : ∀ p, p < s.npts → (withF e g).f (s.coords p) = e.f (s.coords p) := fun p hp => hg _ (hs p hp)
  rw [evalFncLoop, evalFncLoop]
  have h1 : (∃ p, first ≤ p ∧ p < s.npts ∧ ∀ v, (withF e g).f (s.coords p) = some v → v < 0) ↔ ∃ p, first ≤ p ∧ p < s.npts ∧ ∀ v, e.f (s.coords p) = some v → v < 0 := by
    constructor
    · rintro ⟨p, a1, a2, a3⟩
      exact ⟨p, a1, a2, fun v hv => a3 v (by rw [hf p a2]; exact hv)⟩
    · rintro ⟨p, a1, a2, a3⟩
      exact ⟨p, a1, a2, fun v hv => a3 v (by rw [← hf p a2]; exact hv)⟩
  by_cases hb : ∃ p, first ≤ p ∧ p < s.npts ∧ ∀ v, e.f (s.coords p) = some v → v < 0
  · rw [if_pos hb, if_pos (h1.2 hb)]
  · rw [if_neg hb, if_neg fun h => hb (h1.1 h)]
    congr 2
    funext p
    split_ifs with hp
    · rw [hf p hp.2]
    · rfl

theorem iteration_withF (hd : 0 < d) (hd' : d ≤ maxPrimes) (hbox : ∀ k, e.lo k < e.hi k) (hg : ∀ x, InBox (e.lo, e.hi) x → g x = e.f x) (h : Good e s L B dep c) (hc : c ≤ 2 * minNumPointsInCell)
    (hneed : Needs e s L) : ∃ F, ∀ fuel, F ≤ fuel → iteration (withF e g) fuel s = iteration e fuel s := by
  obtain ⟨F, s1, s2, L2, B1, dep1, p1, hq, a1, hnp2, -, hinv2, -⟩ := iteration_mid hd hd' hbox h hc hneed
  refine ⟨F, fun fuel hf => ?_⟩
  rw [iteration_eq (p1 fuel hf) hq a1 hnp2, iteration_eq (e := withF e g) (s1 := s1) (s2 := s2) (by rw [processLoop_withF]; exact p1 fuel hf) hq (by rw [addLoopQueue_withF]; exact a1) hnp2,
    eval_withF hg fun p hp => hinv2.in_region hp]
  rfl

theorem runLoop_withF (hd : 0 < d) (hd' : d ≤ maxPrimes) (hbox : ∀ k, e.lo k < e.hi k) (hg : ∀ x, InBox (e.lo, e.hi) x → g x = e.f x) (left : ℕ) :
    ∀ (nIter c : ℕ) (s : St d) (L : ℕ → List ℕ) (B : ℕ → Vec d × Vec d) (dep : ℕ → ℕ), Good e s L B dep c → Needs e s L → c + left ≤ 2 * minNumPointsInCell →
      ∃ F, ∀ fuel, F ≤ fuel → runLoop (withF e g) fuel left nIter s = runLoop e fuel left nIter s := by
  induction left with
  | zero => intro nIter c s L B dep _ _ _; exact ⟨0, fun _ _ => rfl⟩
  | succ left ih =>
    intro nIter c s L B dep h hn hc
    obtain ⟨F0, h0⟩ := iteration_withF hd hd' hbox hg h (by omega) hn
    obtain ⟨F1, h1⟩ := iteration_spec hd hd' hbox h (by omega) hn
    rcases h1 with ⟨-, h1⟩ | ⟨r, L', B', dep', h1, h2, h3, h4, -⟩
    · refine ⟨max F0 F1, fun fuel hf => ?_⟩
      rw [runLoop, runLoop, h0 fuel ((le_max_left _ _).trans hf), h1 fuel ((le_max_right _ _).trans hf)]
      rfl
    · by_cases hr : r.1 ≤ 1
      · refine ⟨max F0 F1, fun fuel hf => ?_⟩
        rw [runLoop, runLoop, h0 fuel ((le_max_left _ _).trans hf), h1 fuel ((le_max_right _ _).trans hf)]
        show (if e.brk nIter then _ else if r.1 ≤ 1 then _ else _) = (if e.brk nIter then _ else if r.1 ≤ 1 then _ else _)
        rw [if_pos hr, if_pos hr]
      · obtain ⟨F2, k⟩ := ih (nIter + 1) (c + 1) r.2 L' B' dep' h2 (h3 (not_le.1 hr)) (by omega)
        refine ⟨max (max F0 F1) F2, fun fuel hf => ?_⟩
        have f0 := (le_max_left F0 F1).trans ((le_max_left _ F2).trans hf)
        have f1 := (le_max_right F0 F1).trans ((le_max_left _ F2).trans hf)
        rw [runLoop, runLoop, h0 fuel f0, h1 fuel f1]
        show (if e.brk nIter then _ else if r.1 ≤ 1 then _ else _) = (if e.brk nIter then _ else if r.1 ≤ 1 then _ else _)
        rw [if_neg hr, if_neg hr, k fuel ((le_max_right _ _).trans hf)]

theorem drawFold_withF (s : St d) (perm : List ℕ) (W : ℝ) (l : List (ℕ × ℕ)) : ∀ t, l.foldlM (drawStep (withF e g) s perm W) t = l.foldlM (drawStep e s perm W) t := fun _ => rfl

theorem error_bind {α β : Type*} (x : Err) (k : α → Except Err β) : (Except.error x : Except Err α).bind k = .error x := rfl
theorem ok_bind {α β : Type*} (x : α) (k : α → Except Err β) : (Except.ok x : Except Err α).bind k = k x := rfl

/-- C89. Two functions which coincide inside the (half-open) region produce the same result: the function is not used outside. -/
theorem C89_inside (hd : 0 < d) (g : Vec d → Option ℝ) (hg : ∀ x, InBox (e.lo, e.hi) x → g x = e.f x) :
    ∃ F, ∀ fuel, F ≤ fuel → sampleNdim { e with f := g } fuel = sampleNdim e fuel := by
  show ∃ F, ∀ fuel, F ≤ fuel → sampleNdim (withF e g) fuel = sampleNdim e fuel
  by_cases h1 : d > maxPrimes
  · exact ⟨0, fun fuel _ => by rw [sampleNdim, sampleNdim, if_pos h1, if_pos h1]⟩
  by_cases h2 : ∃ k, ¬ e.hi k > e.lo k
  · exact ⟨0, fun fuel _ => by rw [sampleNdim, sampleNdim, if_neg h1, if_neg h1, if_pos h2, if_pos (show ∃ k, ¬ (withF e g).hi k > (withF e g).lo k from h2)]⟩
  have hbox : ∀ k, e.lo k < e.hi k := by
    intro k
    by_contra hn
    exact h2 ⟨k, hn⟩
  have hd' := not_lt.1 h1
  suffices hrun : ∃ F, ∀ fuel, F ≤ fuel → run (withF e g) fuel = run e fuel by
    obtain ⟨F, hF⟩ := hrun
    refine ⟨F, fun fuel hf => ?_⟩
    rw [sampleNdim, sampleNdim, if_neg h1, if_neg h1, if_neg h2, if_neg (show ¬ ∃ k, ¬ (withF e g).hi k > (withF e g).lo k from h2), hF fuel hf]
    rfl
  obtain ⟨s1, L1, a1, a2, a3, a4, a5, -, -, -, -, a10, a11, a12, a13⟩ := addPoints_spec hd' hbox (init_inv e) (i := 0) Nat.one_pos rfl (last := numInit e.N) (Nat.zero_le _) le_rfl
  have hnp : s1.npts = numInit e.N := a4
  have hinv1 : Inv e s1 s1.npts L1 (fun _ => (e.lo, e.hi)) (fun _ => 0) fun _ => 1 := by
    rw [hnp]
    refine ⟨a2.tree, a2.chain, a2.count, a2.le, a2.inside, a2.leaf, a2.weight, fun i hi k v => (a2.coinc i hi k v).trans ?_⟩
    by_cases hi : i = 0
    · subst hi; rw [Function.update_self]
    · rw [Function.update_of_ne hi]; exact Nat.zero_le _
  have hrun : ∀ fuel, run e fuel = (evalFncLoop e s1 0 s1.npts).bind fun s => (computeResult e s).bind fun r => if r.1 ≤ 1 then pure r.2 else runLoop e fuel (maxNumIter - 1) 1 r.2 := by
    intro fuel
    rw [run, a1, hnp]
    rfl
  have hrun' : ∀ fuel, run (withF e g) fuel =
      (evalFncLoop e s1 0 s1.npts).bind fun s => (computeResult e s).bind fun r => if r.1 ≤ 1 then pure r.2 else runLoop (withF e g) fuel (maxNumIter - 1) 1 r.2 := by
    intro fuel
    have hN : (withF e g).N = e.N := rfl
    rw [run, hN, addPoints_withF, a1, ← hnp]
    show (evalFncLoop (withF e g) s1 0 s1.npts).bind _ = _
    rw [eval_withF hg fun p hp => hinv1.in_region hp]
    rfl
  rcases eval_spec hinv1 (first := 0) (fun p hp => by omega) with ⟨-, hev⟩ | ⟨fv, hev, hk, -⟩
  · exact ⟨0, fun fuel _ => by rw [hrun, hrun', hev, error_bind, error_bind]⟩
  · set s2 : St d := { s1 with fval := fv } with hs2
    have hinv2 : Inv e s2 s2.npts L1 (fun _ => (e.lo, e.hi)) (fun _ => 0) fun _ => 1 :=
      ⟨hinv1.tree, hinv1.chain, hinv1.count, hinv1.le, hinv1.inside, hinv1.leaf, hinv1.weight, hinv1.coinc⟩
    have hg2 : ∃ bt, Gen e s2 s2.npts L1 (fun _ => (e.lo, e.hi)) bt [] := ⟨_, (init_gen e hnp a3 (fun j => (a10 j).1) a11 a13).congr rfl rfl fun _ => rfl⟩
    rcases computeResult_spec hinv2 hg2 hk with ⟨-, hc⟩ | ⟨r, r1, r2, r3, -⟩
    · refine ⟨0, fun fuel _ => ?_⟩
      rw [hrun, hrun', hev, ok_bind, ok_bind, hc, error_bind, error_bind]
    · by_cases hr : r.1 ≤ 1
      · refine ⟨0, fun fuel _ => ?_⟩
        rw [hrun, hrun', hev, ok_bind, ok_bind, r1, ok_bind, ok_bind, if_pos hr, if_pos hr]
      · obtain ⟨F, hF⟩ := runLoop_withF hd hd' hbox hg (maxNumIter - 1) 1 1 r.2 L1 _ _ r2 (r3 (not_le.1 hr)) (by decide)
        refine ⟨F, fun fuel hf => ?_⟩
        rw [hrun, hrun', hev, ok_bind, ok_bind, r1, ok_bind, ok_bind, if_neg hr, if_neg hr, hF fuel hf]

/-! ### Constant function -/

theorem numInit_ge {N : ℕ} (hN : N ≤ 1048576) : N ≤ numInit N := by
  rw [numInit, maxInitSamples, minNumPointsInCell]
  omega

/-- C89. If the function is a positive constant in the region, up to 2^20 samples are produced in the first iteration; the integral is exact and its error is zero. -/
theorem C89_constant (hd' : d ≤ 10) (hbox : ∀ k, e.lo k < e.hi k) (hN : 0 < e.N) (hN' : e.N ≤ 1048576) {a : ℝ} (ha : 0 < a) (hf : ∀ x, InBox (e.lo, e.hi) x → e.f x = some a) :
    ∃ r, (∀ fuel, sampleNdim e fuel = .ok r) ∧ r.integral = a * ∏ k, (e.hi k - e.lo k) ∧ r.error = 0 ∧ r.numTrial = numInit e.N ∧ ∀ i < e.N, ∃ x, r.samples i = some x ∧ InBox (e.lo, e.hi) x := by
  obtain ⟨s1, L1, a1, a2, a3, a4, a5, -, -, -, -, a10, a11, a12, a13⟩ := addPoints_spec hd' hbox (init_inv e) (i := 0) Nat.one_pos rfl (last := numInit e.N) (Nat.zero_le _) le_rfl
  have hnp : s1.npts = numInit e.N := a4
  have hinv1 : Inv e s1 s1.npts L1 (fun _ => (e.lo, e.hi)) (fun _ => 0) fun _ => 1 := by
    rw [hnp]
    refine ⟨a2.tree, a2.chain, a2.count, a2.le, a2.inside, a2.leaf, a2.weight, fun i hi k v => (a2.coinc i hi k v).trans ?_⟩
    by_cases hi : i = 0
    · subst hi; rw [Function.update_self]
    · rw [Function.update_of_ne hi]; exact Nat.zero_le _
  have hrun : ∀ fuel, run e fuel = (evalFncLoop e s1 0 s1.npts).bind fun s => (computeResult e s).bind fun r => if r.1 ≤ 1 then pure r.2 else runLoop e fuel (maxNumIter - 1) 1 r.2 := by
    intro fuel
    rw [run, a1, hnp]
    rfl
  have hn0 : (0 : ℝ) < numInit e.N := by exact_mod_cast numInit_pos e.N
  rcases eval_spec hinv1 (first := 0) (fun p hp => by omega) with ⟨⟨x, hx, hb⟩, -⟩ | ⟨fv, hev, hk, -⟩
  · have := hb a (hf x hx)
    linarith
  set s2 : St d := { s1 with fval := fv } with hs2
  have hinv2 : Inv e s2 s2.npts L1 (fun _ => (e.lo, e.hi)) (fun _ => 0) fun _ => 1 :=
    ⟨hinv1.tree, hinv1.chain, hinv1.count, hinv1.le, hinv1.inside, hinv1.leaf, hinv1.weight, hinv1.coinc⟩
  have hg2 : ∃ bt, Gen e s2 s2.npts L1 (fun _ => (e.lo, e.hi)) bt [] := ⟨_, (init_gen e hnp a3 (fun j => (a10 j).1) a11 a13).congr rfl rfl fun _ => rfl⟩
  have hfv : ∀ p < s2.npts, s2.fval p = a := by
    intro p hp
    have h1 := (hk p hp).1
    rw [hf _ (hinv2.in_region hp)] at h1
    exact (Option.some.inj h1).symm
  have hws : (allPts L1 s2.ncells).map (sampleWeight s2) = List.replicate (numInit e.N) (a * (1 / (numInit e.N : ℝ))) := by
    refine List.eq_replicate_iff.2 ⟨by rw [List.length_map, allPts_length hinv2]; exact hnp, fun w hw => ?_⟩
    obtain ⟨x, hx, rfl⟩ := List.mem_map.1 hw
    obtain ⟨x1, x2⟩ := mem_allPts.1 hx
    rw [sampleWeight, hfv _ (hinv2.lt x1 x2)]
    congr 1
    exact (a10 x.1).1
  have hsum : ((allPts L1 s2.ncells).map (sampleWeight s2)).sum = a := by
    rw [hws, List.sum_replicate, nsmul_eq_mul]
    field_simp
  rcases computeResult_spec hinv2 hg2 hk with ⟨h0, -⟩ | ⟨r, r1, r2, r3, r4, r5, r6, r7, r8, r9, r10⟩
  · rw [hsum] at h0; linarith
  have hsw : sampleWeight r.2 = sampleWeight s2 := by
    funext x
    rw [sampleWeight, sampleWeight, r7, r9]
  have hinteg : r.2.integ = a := by rw [r2.integ, r6, hsw, hsum]
  have hr : r.1 ≤ 1 := by
    by_contra hn
    obtain ⟨j, p, q1, q2, q3⟩ := r3 (not_le.1 hn)
    rw [hinteg, r7, hfv p (by rw [← r5]; exact r2.inv.lt q1 q2), r9, show (s2.cells j).weight = 1 / (numInit e.N : ℝ) from (a10 j).1, show a * (1 / (numInit e.N : ℝ)) * e.N / a = e.N / numInit e.N by
      field_simp, one_lt_div hn0] at q3
    have : (e.N : ℝ) ≤ numInit e.N := by exact_mod_cast numInit_ge hN'
    linarith
  have hrun2 : ∀ fuel, run e fuel = .ok r.2 := by
    intro fuel
    rw [hrun, hev]
    show (computeResult e s2).bind _ = _
    rw [r1]
    show (if r.1 ≤ 1 then _ else _) = _
    rw [if_pos hr]
    rfl
  obtain ⟨out, o1, cells, o2⟩ := good_sampled hN r2 (r4 hr) (by rw [r5]; exact hnp.ge)
  refine ⟨⟨out, r.2.npts, volume e * r.2.integ, volume e * r.2.integErr⟩, fun fuel => ?_, ?_, ?_, ?_, fun i hi => ?_⟩
  · rw [sampleNdim, if_neg (show ¬ d > maxPrimes from not_lt.2 hd'), if_neg (by
      rintro ⟨k, hk⟩
      exact hk (hbox k)), hrun2]
    show (drawSamples e r.2).bind _ = _
    rw [o1]
    rfl
  · show volume e * r.2.integ = _
    rw [hinteg, volume_eq, mul_comm]
  · show volume e * r.2.integErr = 0
    rw [r2.err, r6, hsw, hws]
    have hC := C14_averager (List.replicate (numInit e.N) (a * (1 / (numInit e.N : ℝ))))
    have hlen : 2 ≤ (List.replicate (numInit e.N) (a * (1 / (numInit e.N : ℝ)))).length := by
      rw [List.length_replicate, numInit, maxInitSamples, minNumPointsInCell]
      omega
    have hz : ssqOf (List.replicate (numInit e.N) (a * (1 / (numInit e.N : ℝ)))) (meanOf (List.replicate (numInit e.N) (a * (1 / (numInit e.N : ℝ))))) = 0 := by
      rw [ssqOf, meanOf, List.sum_replicate, List.length_replicate, nsmul_eq_mul, mul_div_cancel_left₀ _ hn0.ne', List.map_replicate, List.sum_replicate]
      simp
    rw [hC.2.2.1 hlen, hz]
    simp
  · show r.2.npts = _
    rw [r5]
    exact hnp
  · have hmem : out i ∈ (List.range e.N).map out := List.mem_map.2 ⟨i, List.mem_range.2 hi, rfl⟩
    obtain ⟨x, hx, hxi⟩ := List.mem_map.1 (o2.rows.mem_iff.1 hmem)
    obtain ⟨l, hl, hxl⟩ := List.mem_flatMap.1 hx
    have hl' := o2.leaf l hl
    exact ⟨x, hxi.symm, hl'.region x (hl'.known x (hl'.chosen.1.subset hxl)).1⟩

/-- For example, 1000 samples of a constant function in the unit square: 1024 points are used -/
example : ∃ r, (∀ fuel, sampleNdim (d := 2) ⟨fun _ => some 3, fun _ => 0, fun _ => 2, 1000, fun _ => 0.5, fun _ _ => 0, fun _ => 0, fun _ => false⟩ fuel = .ok r) ∧ r.integral = 12 ∧ r.error = 0 ∧
    r.numTrial = 1024 := by
  obtain ⟨r, h1, h2, h3, h4, -⟩ := C89_constant (d := 2) (e := ⟨fun _ => some 3, fun _ => 0, fun _ => 2, 1000, fun _ => 0.5, fun _ _ => 0, fun _ => 0, fun _ => false⟩) (by norm_num)
    (fun _ => by norm_num) (by norm_num) (by norm_num) (a := 3) (by norm_num) fun _ _ => rfl
  refine ⟨r, h1, h2.trans ?_, h3, h4.trans (by decide)⟩
  simp
  norm_num

end

end Verif.Sample
