import Verif.Sample.Tree
import Mathlib.Data.List.GetD

/-! Adding points, scheduling and processing of cells (math_sample.cpp): preservation of the invariant -/
namespace Verif.Sample

open Verif.Random Verif.Core Finset

noncomputable section

variable {d : ℕ} {e : Env d} {s : St d} {m : ℕ} {L : ℕ → List ℕ} {B : ℕ → Vec d × Vec d} {dep : ℕ → ℕ} {nb : ℕ → ℕ}

/-- Only the head of one list or the weight is changed -/
theorem Tree.congr {cells cells' : ℕ → Cell d} {n : ℕ} (ht : Tree e cells n B dep)
    (hc : ∀ i, (cells' i).parent = (cells i).parent ∧ (cells' i).child = (cells i).child ∧ (cells' i).splitDim = (cells i).splitDim) : Tree e cells' n B dep where
  pos := ht.pos
  root := ht.root
  rootDep := ht.rootDep
  par := fun i h0 hi => by
    obtain ⟨p, c, k, h⟩ := ht.par i h0 hi
    refine ⟨p, c, k, ?_⟩
    rw [(hc i).1, (hc p).2.1, (hc p).2.2]
    exact h
  child := fun i hi c h => ht.child i hi c (by rw [← (hc i).2.1]; exact h)
  tiling := fun x hx => by
    simp only [(hc _).2.1]
    exact ht.tiling x hx

/-! ### Adding points to a cell -/

/-- The point number `ind` of the shifted quasi-random sequence in the given box -/
def quasiPoint (e : Env d) (b : Vec d × Vec d) (ind : ℕ) : Vec d := fun k => b.1 k + (b.2 k - b.1 k) * quasi e ind k

theorem newPoints_perm (e : Env d) (b : Vec d × Vec d) (first n : ℕ) (perm : List ℕ) (hp : perm.Perm (List.range n)) (coords : ℕ → Vec d)
    (hc : ∀ p, first ≤ p ∧ p < first + n → coords p = newPoint e b first perm p) :
    ((List.range' first n).map coords).Perm ((List.range' first n).map (quasiPoint e b)) := by
  have hlen : perm.length = n := by rw [hp.length_eq, List.length_range]
  have e1 : (List.range' first n).map coords = perm.map fun j => quasiPoint e b (first + j) := by
    refine List.ext_getElem (by simp [hlen]) fun j h1 h2 => ?_
    rw [List.getElem_map, List.getElem_map, List.getElem_range', hc _ (by simp at h1; omega)]
    funext k
    simp only [List.length_map] at h2
    simp only [newPoint, quasiPoint]
    rw [one_mul, Nat.add_sub_cancel_left, List.getD_eq_getElem _ _ h2]
  rw [e1, List.range'_eq_map_range, List.map_map]
  exact hp.map _

/-- A random permutation of the given length -/
theorem perm_spec (draws : ℕ → ℕ) (n : ℕ) : ∃ r, permLoop draws (List.replicate n 0) n = some r ∧ r.Perm (List.range n) := by
  obtain ⟨r, hr, hl, hp⟩ := permLoop_inv draws (List.replicate n 0) n (by simp)
  rw [List.length_replicate] at hl
  refine ⟨r, hr, ?_⟩
  rwa [← hl, List.take_length, hl] at hp

theorem addPoints_spec (hd : d ≤ maxPrimes) (hbox : ∀ k, e.lo k < e.hi k) (h : Inv e s m L B dep nb) {i : ℕ} (hi : i < s.ncells) (hleaf : (s.cells i).child = none) {last : ℕ}
    (hm : m ≤ last) (hlast : last ≤ s.npts) :
    ∃ s' L', addPointsToCell e s i m last = .ok s' ∧ Inv e s' last L' B dep (Function.update nb i (nb i + 1)) ∧ s'.ncells = s.ncells ∧ s'.npts = s.npts ∧ s'.fval = s.fval ∧
      s'.integ = s.integ ∧ s'.integErr = s.integErr ∧ s'.queue = s.queue ∧ (∀ p < m, s'.coords p = s.coords p) ∧
      (∀ j, (s'.cells j).weight = (s.cells j).weight ∧ (s'.cells j).child = (s.cells j).child) ∧ L' i = (List.range' m (last - m)).reverse ++ L i ∧ (∀ j, j ≠ i → L' j = L j) ∧
      ((List.range' m (last - m)).map s'.coords).Perm ((List.range' m (last - m)).map (quasiPoint e (B i))) := by
  obtain ⟨perm, hperm, hp⟩ := perm_spec (e.draws last) (last - m)
  obtain ⟨a1, a2, a3⟩ := addLoop_spec e (B i) m perm (last - m) m (s.coords, s.next, (s.cells i).head) (L i) (h.chain i hi) fun q hq => h.lt hi hq
  set r := addLoop e (B i) m perm (last - m) m (s.coords, s.next, (s.cells i).head) with hr
  rw [Nat.add_sub_cancel' hm] at a2 a3
  set cells' : ℕ → Cell d := Function.update s.cells i { s.cells i with head := r.2.2 } with hcells
  have Ci : cells' i = { s.cells i with head := r.2.2 } := Function.update_self _ _ _
  have Cj : ∀ j, j ≠ i → cells' j = s.cells j := fun j hj => Function.update_of_ne hj _ _
  set L' : ℕ → List ℕ := Function.update L i ((List.range' m (last - m)).reverse ++ L i) with hL'
  have Li : L' i = (List.range' m (last - m)).reverse ++ L i := Function.update_self _ _ _
  have Lj : ∀ j, j ≠ i → L' j = L j := fun j hj => Function.update_of_ne hj _ _
  have hold : ∀ j < s.ncells, ∀ p ∈ L j, r.1 p = s.coords p := fun j hj p hp => (a2 p (by have := h.lt hj hp; omega)).2
  have hmem : ∀ p, p ∈ (List.range' m (last - m)).reverse ↔ m ≤ p ∧ p < last := by
    intro p
    rw [List.mem_reverse, List.mem_range'_1, Nat.add_sub_cancel' hm]
  refine ⟨{ s with coords := r.1, next := r.2.1, cells := cells' }, L', ?_, ?_, rfl, rfl, rfl, rfl, rfl, rfl, ?_, ?_, Li, Lj, newPoints_perm e (B i) m (last - m) perm hp r.1 fun p h => a3 p (by omega)⟩
  · rw [addPointsToCell, bounds_spec h.tree hi]
    show (match permLoop (e.draws last) (List.replicate (last - m) 0) (last - m) with | none => _ | some perm => _) = _
    rw [hperm]
    rfl
  · refine ⟨h.tree.congr fun j => ?_, ?_, ?_, hlast, ?_, ?_, ?_, ?_⟩
    · show (cells' j).parent = _ ∧ (cells' j).child = _ ∧ (cells' j).splitDim = _
      by_cases hj : j = i
      · subst hj; rw [Ci]; exact ⟨rfl, rfl, rfl⟩
      · rw [Cj j hj]; exact ⟨rfl, rfl, rfl⟩
    · intro j hj
      show Chain r.2.1 (cells' j).head (L' j)
      by_cases hji : j = i
      · subst hji
        rw [Ci, Li]
        exact a1
      · rw [Cj j hji, Lj j hji]
        exact (h.chain j hj).congr fun q hq => (a2 q (by have := h.lt hj hq; omega)).1
    · intro p
      show ∑ j ∈ range s.ncells, (L' j).count p = _
      have h1 := h.count p
      rw [← Finset.sum_erase_add _ _ (mem_range.2 hi)] at h1 ⊢
      rw [Li, List.count_append, List.count_reverse, Finset.sum_congr rfl fun j hj => by rw [Lj j (mem_erase.1 hj).1]]
      have h2 : (List.range' m (last - m)).count p = if m ≤ p ∧ p < last then 1 else 0 := by
        split_ifs with hc
        · exact List.count_eq_one_of_mem (List.nodup_range' (step := 1)) (by rw [List.mem_range'_1]; omega)
        · rw [List.count_eq_zero, List.mem_range'_1]; omega
      rw [h2]
      split_ifs at h1 ⊢ <;> omega
    · intro j hj p hp
      show InBox (B j) (r.1 p)
      by_cases hji : j = i
      · subst hji
        rw [Li, List.mem_append, hmem] at hp
        rcases hp with hp | hp
        · rw [a3 p hp]
          intro k
          have q := quasi_range e (m + perm.getD (p - m) 0) k
          have w := cell_pos h.tree hbox j hj k
          constructor
          · have := mul_nonneg (sub_nonneg.2 w.le) q.1
            simp only [newPoint]; linarith
          · have := mul_lt_mul_of_pos_left q.2 (sub_pos.2 w)
            simp only [newPoint]; linarith
        · rw [hold j hj p hp]; exact h.inside j hj p hp
      · rw [Lj j hji] at hp
        rw [hold j hj p hp]; exact h.inside j hj p hp
    · intro j hj hne
      show (cells' j).child = none
      by_cases hji : j = i
      · subst hji; rw [Ci]; exact hleaf
      · rw [Cj j hji]
        rw [Lj j hji] at hne
        exact h.leaf j hj hne
    · intro j hj
      show 0 < (cells' j).weight
      by_cases hji : j = i
      · subst hji; rw [Ci]; exact h.weight j hj
      · rw [Cj j hji]; exact h.weight j hj
    · intro j hj k v
      show coincide r.1 (L' j) k v ≤ _
      have hsame : coincide r.1 (L j) k v = coincide s.coords (L j) k v := by
        unfold coincide
        refine List.countP_congr fun p hp => ?_
        rw [hold j hj p hp]
      by_cases hji : j = i
      · subst hji
        rw [Function.update_self, Li]
        have h1 := h.coinc j hj k v
        rw [← hsame] at h1
        have h2 : coincide r.1 (List.range' m (last - m)).reverse k v ≤ 1 := by
          unfold coincide
          rw [List.countP_reverse, List.countP_eq_length_filter]
          by_contra hgt
          push Not at hgt
          classical
          have hnd := (List.nodup_range' (s := m) (n := last - m) (step := 1)).filter fun p => decide (r.1 p k = v)
          set F := (List.range' m (last - m)).filter fun p => decide (r.1 p k = v) with hF
          have hgt : 1 < F.length := by
            convert hgt using 3
          have hne := List.nodup_iff_injective_get.1 hnd
          have hne' : F.get ⟨0, by omega⟩ ≠ F.get ⟨1, hgt⟩ := fun hh => by
            have := hne hh
            simp at this
          have m1 := List.get_mem F ⟨0, by omega⟩
          have m2 := List.get_mem F ⟨1, hgt⟩
          generalize F.get ⟨0, by omega⟩ = p at *
          generalize F.get ⟨1, hgt⟩ = q at *
          rw [hF, List.mem_filter, List.mem_range'_1, Nat.add_sub_cancel' hm, decide_eq_true_iff] at m1 m2
          rw [a3 p m1.1] at m1
          rw [a3 q m2.1] at m2
          have w := cell_pos h.tree hbox j hj k
          have hq : quasi e (m + perm.getD (p - m) 0) k = quasi e (m + perm.getD (q - m) 0) k := by
            have := m1.2.trans m2.2.symm
            simp only [newPoint] at this
            exact mul_left_cancel₀ (sub_pos.2 w).ne' (by linarith)
          have := quasi_inj hd e _ _ k hq
          have hlen : perm.length = last - m := by rw [hp.length_eq, List.length_range]
          have hnp : perm.Nodup := hp.nodup_iff.2 List.nodup_range
          rw [List.getD_eq_getElem _ _ (by omega), List.getD_eq_getElem _ _ (by omega)] at this
          have := (List.Nodup.getElem_inj_iff hnp).1 (Nat.add_left_cancel this)
          apply hne'
          omega
        have e3 : coincide r.1 ((List.range' m (last - m)).reverse ++ L j) k v = coincide r.1 (List.range' m (last - m)).reverse k v + coincide r.1 (L j) k v := by
          unfold coincide
          rw [List.countP_append]
        rw [e3]
        omega
      · rw [Function.update_of_ne hji, Lj j hji, hsame]
        exact h.coinc j hj k v
  · intro p hp
    exact (a2 p (by omega)).2
  · intro j
    show (cells' j).weight = _ ∧ (cells' j).child = _
    by_cases hji : j = i
    · subst hji; rw [Ci]; exact ⟨rfl, rfl⟩
    · rw [Cj j hji]; exact ⟨rfl, rfl⟩

/-! ### The queue -/

/-- The last number in the queue -/
def lastOf (prev : ℕ) (q : List (ℕ × ℕ)) : ℕ := q.foldl (fun _ x => x.2) prev

/-- The cumulative numbers do not decrease -/
def Mono : ℕ → List (ℕ × ℕ) → Prop
  | _, [] => True
  | prev, x :: q => prev ≤ x.2 ∧ Mono x.2 q

theorem lastOf_append (prev : ℕ) (q : List (ℕ × ℕ)) (a : ℕ × ℕ) : lastOf prev (q ++ [a]) = a.2 := by
  rw [lastOf, List.foldl_append]; rfl

theorem queueTotal_eq (q : List (ℕ × ℕ)) : queueTotal q = lastOf 0 q := by
  induction q using List.reverseRecOn with
  | nil => rfl
  | append_singleton q a _ => rw [lastOf_append, queueTotal, List.getLast?_append]; rfl

theorem Mono.append {prev : ℕ} {q : List (ℕ × ℕ)} (h : Mono prev q) {a : ℕ × ℕ} (ha : lastOf prev q ≤ a.2) : Mono prev (q ++ [a]) := by
  induction q generalizing prev with
  | nil => exact ⟨ha, trivial⟩
  | cons x q ih => exact ⟨h.1, ih h.2 ha⟩

theorem Mono.le_last {prev : ℕ} {q : List (ℕ × ℕ)} (h : Mono prev q) : prev ≤ lastOf prev q := by
  induction q generalizing prev with
  | nil => exact le_rfl
  | cons x q ih => exact h.1.trans (ih h.2)

theorem Inv.setWeight (h : Inv e s m L B dep nb) (i : ℕ) {w : ℝ} (hw : 0 < w) (q : List (ℕ × ℕ)) :
    Inv e { s with cells := Function.update s.cells i { s.cells i with weight := w }, queue := q } m L B dep nb := by
  have Ci : ∀ j, (Function.update s.cells i { s.cells i with weight := w } j).parent = (s.cells j).parent ∧
      (Function.update s.cells i { s.cells i with weight := w } j).child = (s.cells j).child ∧
      (Function.update s.cells i { s.cells i with weight := w } j).splitDim = (s.cells j).splitDim ∧
      (Function.update s.cells i { s.cells i with weight := w } j).head = (s.cells j).head := by
    intro j
    by_cases hj : j = i
    · subst hj; rw [Function.update_self]; exact ⟨rfl, rfl, rfl, rfl⟩
    · rw [Function.update_of_ne hj]; exact ⟨rfl, rfl, rfl, rfl⟩
  refine ⟨h.tree.congr fun j => ⟨(Ci j).1, (Ci j).2.1, (Ci j).2.2.1⟩, ?_, h.count, h.le, h.inside, ?_, ?_, h.coinc⟩
  · intro j hj
    rw [(Ci j).2.2.2]
    exact h.chain j hj
  · intro j hj hne
    rw [(Ci j).2.1]
    exact h.leaf j hj hne
  · intro j hj
    by_cases hji : j = i
    · subst hji
      show 0 < (Function.update s.cells j _ j).weight
      rw [Function.update_self]
      exact hw
    · show 0 < (Function.update s.cells i _ j).weight
      rw [Function.update_of_ne hji]
      exact h.weight j hj

theorem addQueue_spec (h : Inv e s m L B dep nb) {i : ℕ} (hi : i < s.ncells) :
    addCellToQueue s i = .ok { s with
      cells := Function.update s.cells i { s.cells i with weight := (s.cells i).weight * 0.5 }
      queue := s.queue ++ [(i, ⌊1 / (s.cells i).weight * 0.5 ^ dep i⌋₊ + lastOf 0 s.queue)] } := by
  rw [addCellToQueue, halveLoop_spec h.tree i hi _ _ (by omega), ← queueTotal_eq]
  rfl

/-! ### The choice of dimension -/

theorem argMin_spec (hd : 0 < d) (ent : Fin d → ℝ) : ∃ k, argMin ent = some k ∧ ∀ j, ent k ≤ ent j := by
  have main : ∀ (l : List (Fin d)) (st : Option (ℝ × Fin d)), (∀ x, st = some x → x.1 = ent x.2) → (l ≠ [] ∨ st ≠ none) →
      ∃ x, l.foldl (argStep ent) st = some x ∧ x.1 = ent x.2 ∧ (∀ j ∈ l, ent x.2 ≤ ent j) ∧ ∀ y, st = some y → x.1 ≤ y.1 := by
    intro l
    induction l with
    | nil =>
      intro st hst hne
      cases st with
      | none => simp at hne
      | some x => exact ⟨x, rfl, hst x rfl, by simp, fun y hy => by cases hy; exact le_rfl⟩
    | cons k l ih =>
      intro st hst hne
      cases st with
      | none =>
        obtain ⟨x, hx, h1, h2, h3⟩ := ih (some (ent k, k)) (fun x hx => by cases hx; rfl) (Or.inr (by simp))
        refine ⟨x, hx, h1, fun j hj => ?_, fun y hy => by cases hy⟩
        rcases List.mem_cons.1 hj with rfl | hj
        · rw [← h1]; exact h3 _ rfl
        · exact h2 j hj
      | some y =>
        by_cases hlt : ent k < y.1
        · obtain ⟨x, hx, h1, h2, h3⟩ := ih (some (ent k, k)) (fun x hx => by cases hx; rfl) (Or.inr (by simp))
          refine ⟨x, ?_, h1, fun j hj => ?_, fun z hz => ?_⟩
          · rw [List.foldl_cons]
            simp only [argStep, hlt, if_true]
            exact hx
          · rcases List.mem_cons.1 hj with rfl | hj
            · rw [← h1]; exact h3 _ rfl
            · exact h2 j hj
          · cases hz
            exact (h3 _ rfl).trans hlt.le
        · obtain ⟨x, hx, h1, h2, h3⟩ := ih (some y) hst (Or.inr (by simp))
          refine ⟨x, ?_, h1, fun j hj => ?_, h3⟩
          · rw [List.foldl_cons]
            simp only [argStep, hlt, if_false]
            exact hx
          · rcases List.mem_cons.1 hj with rfl | hj
            · rw [← h1]; exact (h3 _ rfl).trans (not_lt.1 hlt)
            · exact h2 j hj
  obtain ⟨x, hx, h1, h2, -⟩ := main (List.finRange d) none (by simp) (Or.inl (by
    intro hn
    have := congrArg List.length hn
    rw [List.length_finRange] at this
    simp at this
    omega))
  exact ⟨x.2, by rw [argMin, hx]; rfl, fun j => h2 j (List.mem_finRange j)⟩

theorem bin_range {b : Vec d × Vec d} {x : Vec d} (hx : InBox b x) (k : Fin d) : 0 ≤ binOf b x k ∧ binOf b x k < numBinsEntropy := by
  have h := hx k
  have hp : 0 < b.2 k - b.1 k := by linarith
  have h0 : 0 ≤ (x k - b.1 k) / (b.2 k - b.1 k) := div_nonneg (by linarith) hp.le
  have h1 : (x k - b.1 k) / (b.2 k - b.1 k) < 1 := by rw [div_lt_one hp]; linarith
  have hn : (0 : ℝ) < numBinsEntropy := by norm_num [numBinsEntropy]
  have h2 := mul_nonneg h0 hn.le
  rw [binOf, truncInt, if_pos h2]
  refine ⟨Int.floor_nonneg.2 h2, Int.floor_lt.2 ?_⟩
  push_cast
  nlinarith

theorem decide_spec (hd : 0 < d) (h : Inv e s m L B dep nb) {i : ℕ} (hi : i < s.ncells) (hL : L i ≠ []) :
    ∃ k, decideHowToSplitCell e s i = splitCell s i k (0.5 * ((B i).1 k + (B i).2 k)) ∧
      ∀ j, entropy (hist s (B i) (L i) k) ≤ entropy (hist s (B i) (L i) j) := by
  obtain ⟨k, hk, hmin⟩ := argMin_spec hd fun k => entropy (hist s (B i) (L i) k)
  refine ⟨k, ?_, hmin⟩
  rw [decideHowToSplitCell, bounds_spec h.tree hi, h.points hi]
  show (if L i = [] then _ else if ∃ p ∈ L i, ∃ k, ¬ (0 ≤ binOf (B i) (s.coords p) k ∧ binOf (B i) (s.coords p) k < numBinsEntropy) then _ else _) = _
  rw [if_neg hL, if_neg (by
    rintro ⟨p, hp, k, hk⟩
    exact hk (bin_range (h.inside i hi p hp) k)), hk]

theorem top2_spec (l : List ℝ) : (top2 l).2 ≤ (top2 l).1 ∧ 0 ≤ (top2 l).2 ∧ ∀ v ∈ l, v ≤ (top2 l).1 := by
  have : ∀ (l : List ℝ) (a : ℝ × ℝ), a.2 ≤ a.1 → 0 ≤ a.2 → let t := l.foldl (fun a v => if v > a.1 then (v, a.1) else if v > a.2 then (a.1, v) else a) a
      t.2 ≤ t.1 ∧ 0 ≤ t.2 ∧ a.1 ≤ t.1 ∧ ∀ v ∈ l, v ≤ t.1 := by
    intro l
    induction l with
    | nil => intro a h1 h2; exact ⟨h1, h2, le_rfl, by simp⟩
    | cons v l ih =>
      intro a h1 h2
      rw [List.foldl_cons]
      split_ifs with g1 g2
      · obtain ⟨i1, i2, i3, i4⟩ := ih (v, a.1) g1.le (h2.trans h1)
        refine ⟨i1, i2, g1.le.trans i3, fun w hw => ?_⟩
        rcases List.mem_cons.1 hw with rfl | hw
        · exact i3
        · exact i4 w hw
      · obtain ⟨i1, i2, i3, i4⟩ := ih (a.1, v) (not_lt.1 g1) (h2.trans g2.le)
        refine ⟨i1, i2, i3, fun w hw => ?_⟩
        rcases List.mem_cons.1 hw with rfl | hw
        · exact (not_lt.1 g1).trans i3
        · exact i4 w hw
      · obtain ⟨i1, i2, i3, i4⟩ := ih a h1 h2
        refine ⟨i1, i2, i3, fun w hw => ?_⟩
        rcases List.mem_cons.1 hw with rfl | hw
        · exact (not_lt.1 g1).trans i3
        · exact i4 w hw
  obtain ⟨h1, h2, -, h3⟩ := this l (0, 0) le_rfl le_rfl
  exact ⟨h1, h2, h3⟩

end

end Verif.Sample
