import Verif.Sample.Extra

/-! sampleNdim (math_sample.cpp): the parallel loops (lines 290-311, 601-607) do not depend on the order in which the threads execute the blocks and cells; C89 -/
namespace Verif.Sample

open Verif.Random Verif.Core Finset

noncomputable section

variable {d : ℕ} {e : Env d} {s : St d} {L : ℕ → List ℕ} {B : ℕ → Vec d × Vec d} {dep : ℕ → ℕ} {c : ℕ}

/-! ### Evaluation of the function -/

/-- math_sample.cpp:288 -/
def blocksize : ℕ := 1024

/-- math_sample.cpp:289 -/
def nblocks (first last : ℕ) : ℕ := (last - first - 1) / blocksize + 1

open Classical in
/-- math_sample.cpp:293-311: the body of the loop over blocks. The state is the array of values and badValueOccured; `b.2` tells whether the thread sees the flag set by another one. If the function
throws an exception, the values in this block are not stored (they are not used afterwards). -/
def evalBlock (e : Env d) (coords : ℕ → Vec d) (first last : ℕ) (st : (ℕ → ℝ) × Bool) (b : ℕ × Bool) : (ℕ → ℝ) × Bool :=
  if st.2 = true ∧ b.2 = true then st
  else
    let p0 := first + b.1 * blocksize
    let n := min blocksize (last - p0)
    if ∃ p, p0 ≤ p ∧ p < p0 + n ∧ e.f (coords p) = none then (st.1, true)
    else (fun p => if p0 ≤ p ∧ p < p0 + n then (e.f (coords p)).getD 0 else st.1 p, st.2 || decide (∃ p, p0 ≤ p ∧ p < p0 + n ∧ (e.f (coords p)).getD 0 < 0))

/-- math_sample.cpp:280-315: the loop over blocks, executed in the given order -/
def evalSched (e : Env d) (s : St d) (first last : ℕ) (l : List (ℕ × Bool)) : Except Err (St d) :=
  if first ≥ last then .ok s
  else
    let r := l.foldl (evalBlock e s.coords first last) (s.fval, false)
    if r.2 = true then .error .exception else .ok { s with fval := r.1 }

/-- A bad value in one of the blocks -/
def badIn (e : Env d) (coords : ℕ → Vec d) (first last : ℕ) (b : ℕ) : Prop :=
  ∃ p, first + b * blocksize ≤ p ∧ p < first + b * blocksize + min blocksize (last - (first + b * blocksize)) ∧ ∀ v, e.f (coords p) = some v → v < 0

theorem evalBlocks_spec (e : Env d) (coords : ℕ → Vec d) (first last : ℕ) (l : List (ℕ × Bool)) : ∀ st : (ℕ → ℝ) × Bool,
    let r := l.foldl (evalBlock e coords first last) st
    (r.2 = true ↔ st.2 = true ∨ ∃ b ∈ l, badIn e coords first last b.1) ∧ (r.2 = false → ∀ p,
      r.1 p = if (∃ b ∈ l, first + b.1 * blocksize ≤ p ∧ p < first + b.1 * blocksize + min blocksize (last - (first + b.1 * blocksize))) then (e.f (coords p)).getD 0 else st.1 p) := by
  classical
  induction l with
  | nil => intro st; simp
  | cons b l ih =>
    intro st
    rw [List.foldl_cons]
    obtain ⟨h1, h2⟩ := ih (evalBlock e coords first last st b)
    set st' := evalBlock e coords first last st b with hst
    set r := l.foldl (evalBlock e coords first last) st' with hr
    have step : (st'.2 = true ↔ st.2 = true ∨ badIn e coords first last b.1) ∨ st.2 = true ∧ st'.2 = true := by
      rw [hst, evalBlock]
      by_cases hs : st.2 = true ∧ b.2 = true
      · right
        rw [if_pos hs]
        exact ⟨hs.1, hs.1⟩
      · left
        rw [if_neg hs]
        by_cases hn : ∃ p, first + b.1 * blocksize ≤ p ∧ p < first + b.1 * blocksize + min blocksize (last - (first + b.1 * blocksize)) ∧ e.f (coords p) = none
        · simp only [hn, if_true, true_iff]
          obtain ⟨p, p1, p2, p3⟩ := hn
          exact Or.inr ⟨p, p1, p2, fun v hv => by rw [p3] at hv; cases hv⟩
        · simp only [hn, if_false, Bool.or_eq_true, decide_eq_true_eq]
          refine or_congr Iff.rfl ⟨fun ⟨p, p1, p2, p3⟩ => ⟨p, p1, p2, fun v hv => by rw [hv] at p3; exact p3⟩, fun ⟨p, p1, p2, p3⟩ => ⟨p, p1, p2, ?_⟩⟩
          cases hv : e.f (coords p) with
          | none => exact absurd ⟨p, p1, p2, hv⟩ hn
          | some v => exact p3 v hv
    refine ⟨?_, fun hfalse p => ?_⟩
    · rw [h1]
      simp only [List.mem_cons, exists_eq_or_imp]
      rcases step with step | ⟨s1, s2⟩
      · rw [step, or_assoc]
      · simp [s1, s2]
    · have hst'2 : st'.2 = false := by
        by_contra hne
        rw [Bool.not_eq_false] at hne
        rw [h1.2 (Or.inl hne)] at hfalse
        cases hfalse
      have hst2 : st.2 = false := by
        by_contra hne
        rw [Bool.not_eq_false] at hne
        rcases step with step | ⟨-, s2⟩
        · rw [step.2 (Or.inl hne)] at hst'2; cases hst'2
        · rw [s2] at hst'2; cases hst'2
      have e1 : st'.1 p = if first + b.1 * blocksize ≤ p ∧ p < first + b.1 * blocksize + min blocksize (last - (first + b.1 * blocksize)) then (e.f (coords p)).getD 0 else st.1 p := by
        rw [hst, evalBlock, if_neg (by simp [hst2])] at hst'2 ⊢
        by_cases hn : ∃ p, first + b.1 * blocksize ≤ p ∧ p < first + b.1 * blocksize + min blocksize (last - (first + b.1 * blocksize)) ∧ e.f (coords p) = none
        · simp only [hn, if_true] at hst'2
          cases hst'2
        · simp only [hn, if_false]
      rw [h2 hfalse p, e1]
      simp only [List.mem_cons, exists_eq_or_imp]
      by_cases g1 : first + b.1 * blocksize ≤ p ∧ p < first + b.1 * blocksize + min blocksize (last - (first + b.1 * blocksize))
      · simp only [g1, and_self, if_true, true_or, ite_self]
      · by_cases g2 : ∃ b ∈ l, first + b.1 * blocksize ≤ p ∧ p < first + b.1 * blocksize + min blocksize (last - (first + b.1 * blocksize))
        · rw [if_pos g2, if_pos (Or.inr g2)]
        · rw [if_neg g2, if_neg g1, if_neg (by rintro (h | h); exacts [g1 h, g2 h])]

theorem block_cover {first last : ℕ} (hlt : first < last) {l : List (ℕ × Bool)} (hl : (l.map Prod.fst).Perm (List.range (nblocks first last))) (p : ℕ) :
    (∃ b ∈ l, first + b.1 * blocksize ≤ p ∧ p < first + b.1 * blocksize + min blocksize (last - (first + b.1 * blocksize))) ↔ first ≤ p ∧ p < last := by
  constructor
  · rintro ⟨b, -, h1, h2⟩
    have : min blocksize (last - (first + b.1 * blocksize)) ≤ last - (first + b.1 * blocksize) := min_le_right _ _
    have : first ≤ first + b.1 * blocksize := Nat.le_add_right _ _
    omega
  · rintro ⟨h1, h2⟩
    have hb : (p - first) / blocksize < nblocks first last := by
      rw [nblocks, Nat.lt_succ_iff]
      exact Nat.div_le_div_right (by omega)
    obtain ⟨b, hbl, hbe⟩ := List.mem_map.1 (hl.mem_iff.2 (List.mem_range.2 hb))
    refine ⟨b, hbl, ?_⟩
    rw [hbe]
    unfold blocksize
    have h3 := Nat.div_add_mod (p - first) 1024
    have h4 := Nat.mod_lt (p - first) (show 0 < 1024 by norm_num)
    omega

/-- The evaluation of the function in parallel, in any order of blocks, gives the same result as the sequential one. -/
theorem eval_order (e : Env d) (s : St d) (first last : ℕ) (l : List (ℕ × Bool)) (hl : (l.map Prod.fst).Perm (List.range (nblocks first last))) :
    evalSched e s first last l = evalFncLoop e s first last := by
  classical
  rw [evalSched, evalFncLoop]
  by_cases h0 : first ≥ last
  · rw [if_pos h0, if_neg (by rintro ⟨p, h1, h2, -⟩; omega)]
    congr 1
    have : (fun p => if first ≤ p ∧ p < last then (e.f (s.coords p)).getD 0 else s.fval p) = s.fval := by
      funext p
      rw [if_neg (by omega)]
    rw [this]
  · rw [if_neg h0]
    push Not at h0
    obtain ⟨h1, h2⟩ := evalBlocks_spec e s.coords first last l (s.fval, false)
    simp only at h1 h2 ⊢
    have hiff : (∃ p, first ≤ p ∧ p < last ∧ ∀ v, e.f (s.coords p) = some v → v < 0) ↔ (l.foldl (evalBlock e s.coords first last) (s.fval, false)).2 = true := by
      rw [h1]
      constructor
      · rintro ⟨p, p1, p2, p3⟩
        obtain ⟨b, hb, hb'⟩ := (block_cover h0 hl p).2 ⟨p1, p2⟩
        exact Or.inr ⟨b, hb, p, hb'.1, hb'.2, p3⟩
      · rintro (h | ⟨b, hb, p, p1, p2, p3⟩)
        · cases h
        · obtain ⟨q1, q2⟩ := (block_cover h0 hl p).1 ⟨b, hb, p1, p2⟩
          exact ⟨p, q1, q2, p3⟩
    by_cases hbad : (l.foldl (evalBlock e s.coords first last) (s.fval, false)).2 = true
    · rw [if_pos hbad, if_pos (hiff.2 hbad)]
    · rw [if_neg hbad, if_neg fun h => hbad (hiff.1 h)]
      congr 2
      funext p
      rw [h2 (by simpa using hbad) p]
      simp only [block_cover h0 hl p]

/-! ### Adding points -/

/-- math_sample.cpp:604-607: the calls of addPointsToCell -/
def tasks (existing : ℕ) : ℕ → List (ℕ × ℕ) → List (ℕ × ℕ × ℕ)
  | _, [] => []
  | prev, x :: q => (x.1, existing + prev, existing + x.2) :: tasks existing x.2 q

/-- The calls performed in the given order -/
def addSched (e : Env d) (s : St d) (l : List (ℕ × ℕ × ℕ)) : Except Err (St d) := l.foldlM (fun s t => addPointsToCell e s t.1 t.2.1 t.2.2) s

theorem addLoopQueue_tasks (existing : ℕ) (q : List (ℕ × ℕ)) : ∀ (prev : ℕ) (s : St d), addLoopQueue e existing q prev s = addSched e s (tasks existing prev q) := by
  induction q with
  | nil => intro prev s; rfl
  | cons x q ih =>
    intro prev s
    rw [addLoopQueue, tasks, addSched, List.foldlM_cons]
    congr 1
    funext s'
    exact ih _ _

theorem addLoop_closed (e : Env d) (b : Vec d × Vec d) (first : ℕ) (perm : List ℕ) (count : ℕ) : ∀ (p : ℕ) (st : (ℕ → Vec d) × (ℕ → Option ℕ) × Option ℕ),
    addLoop e b first perm count p st = (fun q => if p ≤ q ∧ q < p + count then newPoint e b first perm q else st.1 q,
      fun q => if p ≤ q ∧ q < p + count then (if q = p then st.2.2 else some (q - 1)) else st.2.1 q, if count = 0 then st.2.2 else some (p + count - 1)) := by
  induction count with
  | zero =>
    intro p st
    rw [addLoop]
    refine Prod.ext (funext fun q => ?_) (Prod.ext (funext fun q => ?_) ?_)
    · simp only; rw [if_neg (by omega)]
    · simp only; rw [if_neg (by omega)]
    · simp
  | succ n ih =>
    intro p st
    rw [addLoop, ih]
    refine Prod.ext (funext fun q => ?_) (Prod.ext (funext fun q => ?_) ?_)
    · simp only
      by_cases hq : q = p
      · subst hq
        rw [if_neg (by omega), if_pos (by omega), Function.update_self]
        rfl
      · rw [Function.update_of_ne hq]
        by_cases h : p ≤ q ∧ q < p + (n + 1)
        · rw [if_pos (by omega), if_pos h]
        · rw [if_neg (by omega), if_neg h]
    · simp only
      by_cases hq : q = p
      · subst hq
        rw [if_neg (by omega), if_pos (by omega), if_pos rfl, Function.update_self]
      · rw [Function.update_of_ne hq]
        by_cases h : p ≤ q ∧ q < p + (n + 1)
        · rw [if_pos (by omega), if_pos h, if_neg hq]
          by_cases hq' : q = p + 1
          · subst hq'; rw [if_pos rfl]; simp
          · rw [if_neg hq']
        · rw [if_neg (by omega), if_neg h]
    · simp only
      by_cases hn : n = 0
      · subst hn; simp
      · rw [if_neg hn, if_neg (by omega)]
        congr 1
        omega

/-- The fields which determine the boundaries of cells -/
def SameTree (s s' : St d) : Prop :=
  s'.ncells = s.ncells ∧ ∀ j, (s'.cells j).parent = (s.cells j).parent ∧ (s'.cells j).child = (s.cells j).child ∧ (s'.cells j).splitDim = (s.cells j).splitDim

theorem relLoop_congr {cells cells' : ℕ → Cell d} (h : ∀ j, (cells' j).parent = (cells j).parent ∧ (cells' j).child = (cells j).child ∧ (cells' j).splitDim = (cells j).splitDim) (fuel : ℕ) :
    ∀ (i : ℕ) (b : Vec d × Vec d), relLoop cells' fuel i b = relLoop cells fuel i b := by
  induction fuel with
  | zero => intro i b; cases i <;> rfl
  | succ fuel ih =>
    intro i b
    cases i with
    | zero => rfl
    | succ i =>
      rw [relLoop, relLoop, (h (i + 1)).1]
      cases (cells (i + 1)).parent with
      | none => rfl
      | some p =>
        simp only
        rw [(h p).2.2, (h p).2.1]
        cases (cells p).splitDim with
        | none => rfl
        | some k => simp only [ih]

theorem bounds_congr {s s' : St d} (h : SameTree s s') (i : ℕ) : getCellBoundaries e s' i = getCellBoundaries e s i := by
  rw [getCellBoundaries, getCellBoundaries, h.1, relLoop_congr h.2]

/-- The state after new points are added to a cell with the given boundaries -/
def added (e : Env d) (b : Vec d × Vec d) (perm : List ℕ) (s : St d) (i first last : ℕ) : St d :=
  { s with
    coords := fun q => if first ≤ q ∧ q < last then newPoint e b first perm q else s.coords q
    next := fun q => if first ≤ q ∧ q < last then (if q = first then (s.cells i).head else some (q - 1)) else s.next q
    cells := Function.update s.cells i { s.cells i with head := if last ≤ first then (s.cells i).head else some (last - 1) } }

theorem addPoints_closed {s : St d} {i first last : ℕ} {b : Vec d × Vec d} (hb : getCellBoundaries e s i = .ok b) (h : first ≤ last) {perm : List ℕ}
    (hp : permLoop (e.draws last) (List.replicate (last - first) 0) (last - first) = some perm) : addPointsToCell e s i first last = .ok (added e b perm s i first last) := by
  rw [addPointsToCell, hb]
  show (match permLoop (e.draws last) (List.replicate (last - first) 0) (last - first) with | none => _ | some perm => _) = _
  rw [hp]
  simp only
  rw [addLoop_closed]
  simp only [Nat.add_sub_cancel' h]
  show Except.ok _ = Except.ok _
  congr 1
  rw [added]
  have e1 : (if last - first = 0 then (s.cells i).head else some (last - 1)) = if last ≤ first then (s.cells i).head else some (last - 1) := by
    by_cases hc : last ≤ first
    · rw [if_pos hc, if_pos (by omega)]
    · rw [if_neg hc, if_neg (by omega)]
  rw [e1]

theorem added_sameTree (b : Vec d × Vec d) (perm : List ℕ) (s : St d) (i first last : ℕ) : SameTree s (added e b perm s i first last) := by
  refine ⟨rfl, fun j => ?_⟩
  simp only [added]
  by_cases hj : j = i
  · subst hj; rw [Function.update_self]; exact ⟨rfl, rfl, rfl⟩
  · rw [Function.update_of_ne hj]; exact ⟨rfl, rfl, rfl⟩

/-- Two calls of addPointsToCell for different cells and different points commute -/
theorem added_comm (b b' : Vec d × Vec d) (perm perm' : List ℕ) (s : St d) {i j a1 a2 c1 c2 : ℕ} (hij : i ≠ j) (hdis : a2 ≤ c1 ∨ c2 ≤ a1) :
    added e b' perm' (added e b perm s i a1 a2) j c1 c2 = added e b perm (added e b' perm' s j c1 c2) i a1 a2 := by
  rw [added, added, added, added]
  simp only
  rw [Function.update_of_ne hij.symm, Function.update_of_ne hij, Function.update_comm hij]
  congr 1
  · funext q
    by_cases h1 : a1 ≤ q ∧ q < a2
    · rw [if_neg (by omega), if_pos h1, if_pos h1]
    · rw [if_neg h1, if_neg h1]
  · funext q
    by_cases h1 : a1 ≤ q ∧ q < a2
    · rw [if_neg (by omega), if_pos h1, if_pos h1]
    · rw [if_neg h1, if_neg h1]

/-- Different cells and different points -/
def Apart (t u : ℕ × ℕ × ℕ) : Prop := t.1 ≠ u.1 ∧ (t.2.2 ≤ u.2.1 ∨ u.2.2 ≤ t.2.1)

theorem addSched_perm {l l' : List (ℕ × ℕ × ℕ)} (hp : l.Perm l') : ∀ (s : St d), l.Pairwise Apart → (∀ t ∈ l, t.2.1 ≤ t.2.2 ∧ ∃ b, getCellBoundaries e s t.1 = .ok b) →
    addSched e s l = addSched e s l' := by
  have keep : ∀ (s s' : St d) (t : ℕ × ℕ × ℕ), t.2.1 ≤ t.2.2 → (∃ b, getCellBoundaries e s t.1 = .ok b) → addPointsToCell e s t.1 t.2.1 t.2.2 = .ok s' → SameTree s s' := by
    intro s s' t ht ⟨b, hb⟩ h
    obtain ⟨perm, hperm, -⟩ := perm_spec (e.draws t.2.2) (t.2.2 - t.2.1)
    rw [addPoints_closed hb ht hperm] at h
    cases h
    exact added_sameTree _ _ _ _ _ _
  induction hp with
  | nil => intro s _ _; rfl
  | cons t hp ih =>
    intro s hpw hb
    rw [addSched, addSched, List.foldlM_cons, List.foldlM_cons]
    have ht := hb t (by simp)
    cases hs : addPointsToCell e s t.1 t.2.1 t.2.2 with
    | error x => rfl
    | ok s' =>
      refine ih s' (List.pairwise_cons.1 hpw).2 fun u hu => ?_
      rw [bounds_congr (keep s s' t ht.1 ht.2 hs)]
      exact hb u (by simp [hu])
  | swap t u l =>
    intro s hpw hb
    obtain ⟨ht1, b, ht2⟩ := hb t (by simp)
    obtain ⟨hu1, b', hu2⟩ := hb u (by simp)
    obtain ⟨perm, hperm, -⟩ := perm_spec (e.draws t.2.2) (t.2.2 - t.2.1)
    obtain ⟨perm', hperm', -⟩ := perm_spec (e.draws u.2.2) (u.2.2 - u.2.1)
    have hap : Apart u t := (List.pairwise_cons.1 hpw).1 t (by simp)
    rw [addSched, addSched, List.foldlM_cons, List.foldlM_cons, addPoints_closed ht2 ht1 hperm, addPoints_closed hu2 hu1 hperm']
    show List.foldlM (fun s t => addPointsToCell e s t.1 t.2.1 t.2.2) (added e b' perm' s u.1 u.2.1 u.2.2) (t :: l) =
      List.foldlM (fun s t => addPointsToCell e s t.1 t.2.1 t.2.2) (added e b perm s t.1 t.2.1 t.2.2) (u :: l)
    rw [List.foldlM_cons, List.foldlM_cons,
      addPoints_closed ((bounds_congr (added_sameTree _ _ _ _ _ _) _).trans ht2) ht1 hperm, addPoints_closed ((bounds_congr (added_sameTree _ _ _ _ _ _) _).trans hu2) hu1 hperm',
      added_comm b' b perm' perm s hap.1 (by have := hap.2; omega)]
  | trans h1 h2 ih1 ih2 =>
    intro s hpw hb
    rw [ih1 s hpw hb]
    refine ih2 s ((h1.pairwise_iff ?_).1 hpw) fun t ht => hb t (h1.mem_iff.2 ht)
    rintro x y ⟨g1, g2⟩
    exact ⟨g1.symm, g2.symm⟩

theorem tasks_mem (existing : ℕ) (q : List (ℕ × ℕ)) : ∀ prev, Mono prev q → ∀ t ∈ tasks existing prev q, t.1 ∈ q.map Prod.fst ∧ existing + prev ≤ t.2.1 ∧ t.2.1 ≤ t.2.2 := by
  induction q with
  | nil => intro prev _ t ht; cases ht
  | cons x q ih =>
    intro prev hm t ht
    rcases List.mem_cons.1 ht with rfl | ht
    · exact ⟨by simp, le_rfl, Nat.add_le_add_left hm.1 _⟩
    · obtain ⟨h1, h2, h3⟩ := ih x.2 hm.2 t ht
      have := hm.1
      exact ⟨by rw [List.map_cons]; exact List.mem_cons_of_mem _ h1, by omega, h3⟩

theorem tasks_pairwise (existing : ℕ) (q : List (ℕ × ℕ)) : ∀ prev, Mono prev q → (q.map Prod.fst).Nodup → (tasks existing prev q).Pairwise Apart := by
  induction q with
  | nil => intro prev _ _; exact List.Pairwise.nil
  | cons x q ih =>
    intro prev hm hn
    rw [List.map_cons, List.nodup_cons] at hn
    refine List.pairwise_cons.2 ⟨fun t ht => ?_, ih x.2 hm.2 hn.2⟩
    obtain ⟨h1, h2, -⟩ := tasks_mem existing q x.2 hm.2 t ht
    exact ⟨fun h => hn.1 (by rw [show x.1 = t.1 from h]; exact h1), Or.inl h2⟩

/-- In each iteration, the new points are added to the scheduled cells with the same result whatever the order in which the cells are processed by the threads. -/
theorem add_order (hd : 0 < d) (hbox : ∀ k, e.lo k < e.hi k) (h : Good e s L B dep c) (hc : c ≤ 2 * minNumPointsInCell) (hneed : Needs e s L) :
    ∃ F s1, (∀ fuel, F ≤ fuel → processLoop e fuel 0 { s with queue := [] } = .ok s1) ∧ s1.queue ≠ [] ∧
      ∀ l, l.Perm (tasks s1.npts 0 s1.queue) →
        addSched e { s1 with npts := s1.npts + queueTotal s1.queue } l = addLoopQueue e s1.npts s1.queue 0 { s1 with npts := s1.npts + queueTotal s1.queue } := by
  obtain ⟨D, hD⟩ := depth_bound hbox s.coords s.npts c
  obtain ⟨bt, hgen⟩ := h.gen
  have hPL : PL e s s.npts c 0 { s with queue := [] } L B dep bt := by
    refine ⟨⟨h.inv.tree, h.inv.chain, h.inv.count, h.inv.le, h.inv.inside, h.inv.leaf, h.inv.weight, h.inv.coinc⟩, hgen.congr rfl rfl fun _ => rfl, trivial, rfl, rfl, rfl, rfl, trivial,
      List.nodup_nil, by simp, Or.inr ?_⟩
    obtain ⟨j, p, h1, h2, h3⟩ := hneed
    exact ⟨j, p, Nat.zero_le _, h1, h2, h3⟩
  obtain ⟨i1, s1, L1, B1, dep1, bt1, p1, p2, p3⟩ := processLoop_spec hd hbox h.pos hc hD (measure D 0 s.ncells dep) 0 { s with queue := [] } L B dep bt hPL le_rfl
  have hq : s1.queue ≠ [] := by
    rcases p2.prog with hq | ⟨j, p, h1, h2, -⟩
    · exact hq
    · omega
  refine ⟨_, s1, p1, hq, fun l hl => ?_⟩
  rw [addLoopQueue_tasks]
  symm
  refine addSched_perm hl.symm _ (tasks_pairwise _ _ _ p2.mono p2.nodup) fun t ht => ?_
  obtain ⟨t1, t2, t3⟩ := tasks_mem _ _ _ p2.mono t ht
  obtain ⟨x, hx, hxt⟩ := List.mem_map.1 t1
  refine ⟨t3, B1 t.1, ?_⟩
  rw [bounds_congr (s := s1) (s' := { s1 with npts := s1.npts + queueTotal s1.queue }) ⟨rfl, fun _ => ⟨rfl, rfl, rfl⟩⟩]
  refine bounds_spec p2.inv.tree ?_
  rw [← hxt]
  exact (p2.leaf x hx).2.1

/-! ### The entire procedure -/

/-- The order in which the threads execute the calls of addPointsToCell and the blocks of points in each iteration -/
structure Schedule where
  cells : ℕ → List (ℕ × ℕ × ℕ) → List (ℕ × ℕ × ℕ)
  blocks : ℕ → ℕ → List (ℕ × Bool)

/-- All tasks are executed, each one only once -/
def Schedule.Valid (σ : Schedule) : Prop := (∀ k l, (σ.cells k l).Perm l) ∧ ∀ k n, ((σ.blocks k n).map Prod.fst).Perm (List.range n)

/-- math_sample.cpp:589-615: one iteration with the given schedule -/
def iterationSched (e : Env d) (σ : Schedule) (fuel nIter : ℕ) (s : St d) : Except Err (ℝ × St d) := do
  let s ← processLoop e fuel 0 { s with queue := [] }
  if s.queue = [] then .error .assertion
  else do
    let existing := s.npts
    let overall := existing + queueTotal s.queue
    let s ← addSched e { s with npts := overall } (σ.cells nIter (tasks existing 0 s.queue))
    let s ← evalSched e s existing overall (σ.blocks nIter (nblocks existing overall))
    computeResult e s

/-- math_sample.cpp:581-620 -/
def runLoopSched (e : Env d) (σ : Schedule) (fuel : ℕ) : ℕ → ℕ → St d → Except Err (St d)
  | 0, _, _ => .error .exception
  | left + 1, nIter, s =>
    if e.brk nIter then .error .exception
    else do
      let r ← iterationSched e σ fuel nIter s
      if r.1 ≤ 1 then pure r.2 else runLoopSched e σ fuel left (nIter + 1) r.2

/-- math_sample.cpp:564-621 -/
def runSched (e : Env d) (σ : Schedule) (fuel : ℕ) : Except Err (St d) := do
  let s ← addPointsToCell e (initSt d e.N) 0 0 (numInit e.N)
  let s ← evalSched e s 0 (numInit e.N) (σ.blocks 0 (nblocks 0 (numInit e.N)))
  let r ← computeResult e s
  if r.1 ≤ 1 then pure r.2 else runLoopSched e σ fuel (maxNumIter - 1) 1 r.2

/-- math_sample.cpp:655-673 -/
def sampleNdimSched (e : Env d) (σ : Schedule) (fuel : ℕ) : Except Err (Result d) :=
  if d > maxPrimes then .error .exception
  else if ∃ k, ¬ e.hi k > e.lo k then .error .exception
  else do
    let s ← runSched e σ fuel
    let out ← drawSamples e s
    pure ⟨out, s.npts, volume e * s.integ, volume e * s.integErr⟩

theorem iterationSched_eq {σ : Schedule} (hσ : σ.Valid) (hd : 0 < d) (hbox : ∀ k, e.lo k < e.hi k) (h : Good e s L B dep c) (hc : c ≤ 2 * minNumPointsInCell) (hneed : Needs e s L)
    (nIter : ℕ) : ∃ F, ∀ fuel, F ≤ fuel → iterationSched e σ fuel nIter s = iteration e fuel s := by
  obtain ⟨F, s1, p1, hq, hall⟩ := add_order hd hbox h hc hneed
  refine ⟨F, fun fuel hf => ?_⟩
  rw [iterationSched, iteration, p1 fuel hf]
  show (if s1.queue = [] then _ else _) = (if s1.queue = [] then _ else _)
  rw [if_neg hq, if_neg hq, ← hall _ (hσ.1 nIter _)]
  congr 1
  funext s2
  rw [eval_order _ _ _ _ _ (hσ.2 _ _)]

theorem runLoopSched_eq {σ : Schedule} (hσ : σ.Valid) (hd : 0 < d) (hd' : d ≤ maxPrimes) (hbox : ∀ k, e.lo k < e.hi k) (left : ℕ) :
    ∀ (nIter c : ℕ) (s : St d) (L : ℕ → List ℕ) (B : ℕ → Vec d × Vec d) (dep : ℕ → ℕ), Good e s L B dep c → Needs e s L → c + left ≤ 2 * minNumPointsInCell →
      ∃ F, ∀ fuel, F ≤ fuel → runLoopSched e σ fuel left nIter s = runLoop e fuel left nIter s := by
  induction left with
  | zero => intro nIter c s L B dep _ _ _; exact ⟨0, fun _ _ => rfl⟩
  | succ left ih =>
    intro nIter c s L B dep h hn hc
    obtain ⟨F0, h0⟩ := iterationSched_eq hσ hd hbox h (by omega) hn nIter
    obtain ⟨F1, h1⟩ := iteration_spec hd hd' hbox h (by omega) hn
    rcases h1 with ⟨-, h1⟩ | ⟨r, L', B', dep', h1, h2, h3, h4, -⟩
    · refine ⟨max F0 F1, fun fuel hf => ?_⟩
      rw [runLoop, runLoopSched, h0 fuel ((le_max_left _ _).trans hf), h1 fuel ((le_max_right _ _).trans hf)]
      rfl
    · by_cases hr : r.1 ≤ 1
      · refine ⟨max F0 F1, fun fuel hf => ?_⟩
        rw [runLoop, runLoopSched, h0 fuel ((le_max_left _ _).trans hf), h1 fuel ((le_max_right _ _).trans hf)]
        show (if e.brk nIter then _ else if r.1 ≤ 1 then _ else _) = (if e.brk nIter then _ else if r.1 ≤ 1 then _ else _)
        rw [if_pos hr, if_pos hr]
      · obtain ⟨F2, k⟩ := ih (nIter + 1) (c + 1) r.2 L' B' dep' h2 (h3 (not_le.1 hr)) (by omega)
        refine ⟨max (max F0 F1) F2, fun fuel hf => ?_⟩
        have f0 := (le_max_left F0 F1).trans ((le_max_left _ F2).trans hf)
        have f1 := (le_max_right F0 F1).trans ((le_max_left _ F2).trans hf)
        rw [runLoop, runLoopSched, h0 fuel f0, h1 fuel f1]
        show (if e.brk nIter then _ else if r.1 ≤ 1 then _ else _) = (if e.brk nIter then _ else if r.1 ≤ 1 then _ else _)
        rw [if_neg hr, if_neg hr, k fuel ((le_max_right _ _).trans hf)]

/-- C89. The result does not depend on the order in which the blocks of points and the cells are processed by parallel threads. -/
theorem C89_schedule (hd : 0 < d) (σ : Schedule) (hσ : σ.Valid) : ∃ F, ∀ fuel, F ≤ fuel → sampleNdimSched e σ fuel = sampleNdim e fuel := by
  by_cases h1 : d > maxPrimes
  · exact ⟨0, fun fuel _ => by rw [sampleNdim, sampleNdimSched, if_pos h1, if_pos h1]⟩
  by_cases h2 : ∃ k, ¬ e.hi k > e.lo k
  · exact ⟨0, fun fuel _ => by rw [sampleNdim, sampleNdimSched, if_neg h1, if_neg h1, if_pos h2, if_pos h2]⟩
  have hbox : ∀ k, e.lo k < e.hi k := by
    intro k
    by_contra hn
    exact h2 ⟨k, hn⟩
  have hd' := not_lt.1 h1
  suffices hrun : ∃ F, ∀ fuel, F ≤ fuel → runSched e σ fuel = run e fuel by
    obtain ⟨F, hF⟩ := hrun
    refine ⟨F, fun fuel hf => ?_⟩
    rw [sampleNdim, sampleNdimSched, if_neg h1, if_neg h1, if_neg h2, if_neg h2, hF fuel hf]
  obtain ⟨s1, L1, a1, a2, a3, a4, a5, -, -, -, -, a10, a11, a12, a13⟩ := addPoints_spec hd' hbox (init_inv e) (i := 0) Nat.one_pos rfl (last := numInit e.N) (Nat.zero_le _) le_rfl
  have hnp : s1.npts = numInit e.N := a4
  have hinv1 : Inv e s1 s1.npts L1 (fun _ => (e.lo, e.hi)) (fun _ => 0) fun _ => 1 := by
    rw [hnp]
    refine ⟨a2.tree, a2.chain, a2.count, a2.le, a2.inside, a2.leaf, a2.weight, fun i hi k v => (a2.coinc i hi k v).trans ?_⟩
    by_cases hi : i = 0
    · subst hi; rw [Function.update_self]
    · rw [Function.update_of_ne hi]; exact Nat.zero_le _
  have hrun : ∀ fuel, run e fuel = (evalFncLoop e s1 0 s1.npts).bind fun s => (computeResult e s).bind fun r => if r.1 ≤ 1 then pure r.2 else runLoop e fuel (maxNumIter - 1) 1 r.2 := by
    intro fuel
    rw [run, a1, hnp]
    rfl
  have hrun' : ∀ fuel, runSched e σ fuel =
      (evalFncLoop e s1 0 s1.npts).bind fun s => (computeResult e s).bind fun r => if r.1 ≤ 1 then pure r.2 else runLoopSched e σ fuel (maxNumIter - 1) 1 r.2 := by
    intro fuel
    rw [runSched, a1, hnp, ← eval_order _ _ _ _ _ (hσ.2 0 _)]
    rfl
  rcases eval_spec hinv1 (first := 0) (fun p hp => by omega) with ⟨-, hev⟩ | ⟨fv, hev, hk, -⟩
  · exact ⟨0, fun fuel _ => by rw [hrun, hrun', hev, error_bind, error_bind]⟩
  · set s2 : St d := { s1 with fval := fv } with hs2
    have hinv2 : Inv e s2 s2.npts L1 (fun _ => (e.lo, e.hi)) (fun _ => 0) fun _ => 1 :=
      ⟨hinv1.tree, hinv1.chain, hinv1.count, hinv1.le, hinv1.inside, hinv1.leaf, hinv1.weight, hinv1.coinc⟩
    have hg2 : ∃ bt, Gen e s2 s2.npts L1 (fun _ => (e.lo, e.hi)) bt [] := ⟨_, (init_gen e hnp a3 (fun j => (a10 j).1) a11 a13).congr rfl rfl fun _ => rfl⟩
    rcases computeResult_spec hinv2 hg2 hk with ⟨-, hc⟩ | ⟨r, r1, r2, r3, -⟩
    · exact ⟨0, fun fuel _ => by rw [hrun, hrun', hev, ok_bind, ok_bind, hc, error_bind, error_bind]⟩
    · by_cases hr : r.1 ≤ 1
      · exact ⟨0, fun fuel _ => by rw [hrun, hrun', hev, ok_bind, ok_bind, r1, ok_bind, ok_bind, if_pos hr, if_pos hr]⟩
      · obtain ⟨F, hF⟩ := runLoopSched_eq hσ hd hd' hbox (maxNumIter - 1) 1 1 r.2 L1 _ _ r2 (r3 (not_le.1 hr)) (by decide)
        exact ⟨F, fun fuel hf => by rw [hrun, hrun', hev, ok_bind, ok_bind, r1, ok_bind, ok_bind, if_neg hr, if_neg hr, hF fuel hf]⟩

/-- For example, the tasks may be executed in the reverse order -/
example : Schedule.Valid ⟨fun _ l => l.reverse, fun _ n => (List.range n).reverse.map fun b => (b, true)⟩ := by
  refine ⟨fun _ l => List.reverse_perm l, fun _ n => ?_⟩
  rw [List.map_map]
  show ((List.range n).reverse.map fun b => b).Perm _
  rw [List.map_id']
  exact List.reverse_perm _

end

end Verif.Sample
