import Verif.Sample.Draw

/-! sampleNdim (math_sample.cpp): properties of the result; C89 -/
namespace Verif.Sample

open Verif.Random Verif.Core Finset

noncomputable section

variable {d : ℕ} {e : Env d} {s : St d} {L : ℕ → List ℕ} {B : ℕ → Vec d × Vec d} {dep : ℕ → ℕ} {c : ℕ}

/-! ### Specification -/

/-- A cell: a half-open box; the history of points; the points with equal weights; the points chosen for the output -/
structure Leaf (d : ℕ) where
  box : Vec d × Vec d
  hist : List (Batch d)
  weight : ℝ
  pts : List (Vec d)
  chosen : List (Vec d)

/-- The value of the function -/
def value (e : Env d) (x : Vec d) : ℝ := (e.f x).getD 0

/-- The contribution of one cell, and of all cells, to the integral -/
def cellSum (e : Env d) (l : Leaf d) : ℝ := (l.pts.map fun x => value e x * l.weight).sum
def total (e : Env d) (cells : List (Leaf d)) : ℝ := (cells.map (cellSum e)).sum

/-- The history of a cell, the newest batch is the first: each batch consists of points with new numbers, uniformly covers a box that contains the cell, and its size is given by `batchCount`:
numInit points in the entire region for the first one; the j-th of the following ones has such number of points that the density becomes 2^j times the initial one -/
def History (e : Env d) : List (Batch d) → Prop
  | [] => True
  | b :: bs => b.count = batchCount e b.box bs.length ∧ (∀ b' ∈ bs, b'.first + b'.count ≤ b.first) ∧ History e bs

open Classical in
/-- The points of the batches which are inside the cell -/
def histPts (e : Env d) (l : Leaf d) : List (Vec d) := l.hist.flatMap fun b => ((List.range' b.first b.count).map (quasiPoint e b.box)).filter fun x => InBox l.box x

/-- One cell -/
structure LeafOK (e : Env d) (cells : List (Leaf d)) (l : Leaf d) : Prop where
  /-- inside the region -/
  region : ∀ x, InBox l.box x → InBox (e.lo, e.hi) x
  /-- the points belong to batches; each batch covers the cell -/
  history : l.hist ≠ [] ∧ History e l.hist ∧ ∀ b ∈ l.hist, ∀ x, InBox l.box x → InBox b.box x
  points : l.pts.Perm (histPts e l)
  /-- the weight is inverse to the density of points -/
  weight : l.weight = 1 / (numInit e.N * 2 ^ (l.hist.length - 1))
  /-- the function is known at all points and is not negative -/
  known : ∀ x ∈ l.pts, InBox l.box x ∧ ∃ v, e.f x = some v ∧ 0 ≤ v
  /-- no point has a weight larger than that of the output sample -/
  small : ∀ x ∈ l.pts, value e x * l.weight * e.N ≤ total e cells
  /-- the output samples are different elements of the list of points, with positive values of the function -/
  chosen : l.chosen.Sublist l.pts ∧ ∀ x ∈ l.chosen, 0 < value e x
  /-- the number of output samples is the contribution of this cell, rounded up or down -/
  fair : |(l.chosen.length : ℝ) - e.N * cellSum e l / total e cells| < 1

/-- The weighted values at all points -/
def weights (e : Env d) (cells : List (Leaf d)) : List ℝ := cells.flatMap fun l => l.pts.map fun x => value e x * l.weight

/-- The result of sampling -/
structure Sampled (e : Env d) (r : Result d) (cells : List (Leaf d)) : Prop where
  /-- each point of the region belongs to one cell -/
  tiling : ∀ x, InBox (e.lo, e.hi) x → ∃! i : Fin cells.length, InBox cells[i].box x
  leaf : ∀ l ∈ cells, LeafOK e cells l
  pos : 0 < total e cells
  /-- the number of evaluations of the function -/
  numTrial : r.numTrial = (cells.map fun l => l.pts.length).sum
  enough : numInit e.N ≤ r.numTrial
  /-- the integral of the function -/
  integral : r.integral = (∏ k, (e.hi k - e.lo k)) * total e cells
  /-- the error is determined by the dispersion of weighted values -/
  error : r.error = (∏ k, (e.hi k - e.lo k)) * √(ssqOf (weights e cells) (meanOf (weights e cells)) / ((r.numTrial - 1 : ℕ) : ℝ) * r.numTrial)
  /-- the rows of the output matrix are the chosen points in arbitrary order, and all of them are assigned -/
  rows : ((List.range e.N).map r.samples).Perm ((cells.flatMap Leaf.chosen).map some)
  size : ∀ i, e.N ≤ i → r.samples i = none

/-! ### Proofs -/

theorem volume_eq (e : Env d) : volume e = ∏ k, (e.hi k - e.lo k) := by
  have : ∀ (l : List (Fin d)) (a : ℝ), l.foldl (fun v k => v * (e.hi k - e.lo k)) a = a * (l.map fun k => e.hi k - e.lo k).prod := by
    intro l
    induction l with
    | nil => intro a; simp
    | cons k l ih => intro a; rw [List.foldl_cons, ih, List.map_cons, List.prod_cons, mul_assoc]
  rw [volume, this, one_mul, ← List.ofFn_eq_map, List.prod_ofFn]

theorem flatMap_filter {α β : Type*} (l : List α) (q : α → Bool) (f : α → List β) (h : ∀ x ∈ l, q x = false → f x = []) : (l.filter q).flatMap f = l.flatMap f := by
  induction l with
  | nil => rfl
  | cons x l ih =>
    have ih := ih fun y hy => h y (by simp [hy])
    rw [List.filter_cons]
    cases hq : q x with
    | true => simp [ih]
    | false => simp [ih, h x (by simp) hq]

/-- The points chosen in the cell number `i` -/
def pickCell (s : St d) (L : ℕ → List ℕ) (W : ℝ) (i : ℕ) : List (ℕ × ℕ) :=
  pick (sampleWeight s) W ((allPts L i).map (sampleWeight s)).sum (pick (sampleWeight s) W 0 0 (allPts L i)).length ((L i).map fun p => (i, p))

theorem allPts_succ (L : ℕ → List ℕ) (n : ℕ) : allPts L (n + 1) = allPts L n ++ (L n).map fun p => (n, p) := by
  rw [allPts, allPts, List.range_succ, List.flatMap_append]; simp

theorem pick_allPts (L : ℕ → List ℕ) (W : ℝ) (n : ℕ) : pick (sampleWeight s) W 0 0 (allPts L n) = (List.range n).flatMap (pickCell s L W) := by
  induction n with
  | zero => simp [allPts, pick]
  | succ n ih =>
    rw [allPts_succ, pick_append, zero_add, zero_add, List.range_succ, List.flatMap_append, ih]
    simp [pickCell, ih]

theorem pickCell_fair {W : ℝ} (hW : 0 < W) {n : ℕ} (hw : ∀ x ∈ allPts L n, 0 ≤ sampleWeight s x ∧ sampleWeight s x ≤ W) {i : ℕ} (hi : i < n) :
    |((pickCell s L W i).length : ℝ) * W - ((L i).map fun p => sampleWeight s (i, p)).sum| < W := by
  have sub : ∀ j ≤ n, ∀ x ∈ allPts L j, x ∈ allPts L n := fun j hj x hx => by
    rw [mem_allPts] at hx ⊢
    exact ⟨by omega, hx.2⟩
  have h1 := pick_bound (allPts L i) (fun x hx => hw x (sub i hi.le x hx)) 0 0 (by push_cast; linarith) (by push_cast; linarith)
  have h2 := pick_bound (allPts L (i + 1)) (fun x hx => hw x (sub (i + 1) hi x hx)) 0 0 (by push_cast; linarith) (by push_cast; linarith)
  have e1 : (pick (sampleWeight s) W 0 0 (allPts L (i + 1))).length = (pick (sampleWeight s) W 0 0 (allPts L i)).length + (pickCell s L W i).length := by
    rw [allPts_succ, pick_append, List.length_append, pickCell, zero_add, zero_add]
  have e2 : ((allPts L (i + 1)).map (sampleWeight s)).sum = ((allPts L i).map (sampleWeight s)).sum + ((L i).map fun p => sampleWeight s (i, p)).sum := by
    rw [allPts_succ, List.map_append, List.sum_append, List.map_map]; rfl
  rw [e1, e2] at h2
  push_cast at h1 h2
  rw [abs_lt]
  constructor <;> nlinarith [h1.1, h1.2, h2.1, h2.2]

/-- The points in a cell are those of its history -/
theorem cell_points (h : Inv e s s.npts L B dep fun _ => c) {bt : ℕ → List (Batch d)} (hg : Gen e s s.npts L B bt []) {i : ℕ} (hi : i < s.ncells) (hl : (s.cells i).child = none)
    (w : ℝ) (ch : List (Vec d)) : ((L i).map s.coords).Perm (histPts e ⟨B i, bt i, w, (L i).map s.coords, ch⟩) := by
  classical
  have main : ∀ (bs : List (Batch d)) (m : ℕ), Hist e s.coords m bs → (bs.flatMap fun b => (List.range' b.first b.count).filter fun p => InBox (B i) (s.coords p)).Nodup ∧
      (∀ p ∈ bs.flatMap fun b => (List.range' b.first b.count).filter fun p => InBox (B i) (s.coords p), p < m) ∧
      ((bs.flatMap fun b => (List.range' b.first b.count).filter fun p => InBox (B i) (s.coords p)).map s.coords).Perm
        (bs.flatMap fun b => ((List.range' b.first b.count).map (quasiPoint e b.box)).filter fun x => InBox (B i) x) := by
    intro bs
    induction bs with
    | nil => intro m _; simp
    | cons b bs ih =>
      rintro m ⟨h1, h2, h3, h4⟩
      obtain ⟨k1, k2, k3⟩ := ih b.first h4
      rw [List.flatMap_cons, List.flatMap_cons, List.map_append]
      refine ⟨List.nodup_append.2 ⟨(List.nodup_range' (step := 1)).filter _, k1, fun a ha a' hb hab => ?_⟩, fun p hp => ?_, List.Perm.append ?_ k3⟩
      · rw [List.mem_filter, List.mem_range'_1] at ha
        have := k2 a' hb
        omega
      · rcases List.mem_append.1 hp with hp | hp
        · rw [List.mem_filter, List.mem_range'_1] at hp
          omega
        · have := k2 p hp
          omega
      · have e1 : ((List.range' b.first b.count).filter fun p => InBox (B i) (s.coords p)).map s.coords = ((List.range' b.first b.count).map s.coords).filter fun x => InBox (B i) x := by
          rw [List.filter_map]; rfl
        rw [e1]
        exact h2.filter _
  obtain ⟨k1, k2, k3⟩ := main (bt i) s.npts (hg.hist i hi)
  refine List.Perm.trans (List.Perm.map _ ?_) k3
  refine (List.perm_ext_iff_of_nodup (h.nodup hi) k1).2 fun p => ⟨fun hp => ?_, fun hp => ?_⟩
  · obtain ⟨b, hb, hb'⟩ := hg.cover i hi p hp
    refine List.mem_flatMap.2 ⟨b, hb, List.mem_filter.2 ⟨List.mem_range'_1.2 hb', ?_⟩⟩
    simpa using h.inside i hi p hp
  · have hlt := k2 p hp
    obtain ⟨b, hb, hp'⟩ := List.mem_flatMap.1 hp
    have hin : InBox (B i) (s.coords p) := by simpa using (List.mem_filter.1 hp').2
    have hc := h.count p
    rw [if_pos hlt] at hc
    obtain ⟨j, hj, hne⟩ := Finset.exists_ne_zero_of_sum_ne_zero (by rw [hc]; exact one_ne_zero)
    rw [mem_range] at hj
    have hpj := List.count_pos_iff.1 (Nat.pos_of_ne_zero hne)
    obtain ⟨x, -, hu⟩ := h.tree.tiling _ (h.tree.inside i hi _ hin)
    have e1 := hu i ⟨hi, hl, hin⟩
    have e2 := hu j ⟨hj, h.leaf j hj (List.ne_nil_of_mem hpj), h.inside j hj p hpj⟩
    rw [e1, ← e2]
    exact hpj

theorem history_of_hist {coords : ℕ → Vec d} {m : ℕ} {bs : List (Batch d)} (h : Hist e coords m bs) : History e bs ∧ ∀ b ∈ bs, b.first + b.count ≤ m := by
  induction bs generalizing m with
  | nil => exact ⟨trivial, by simp⟩
  | cons b bs ih =>
    obtain ⟨h1, -, h3, h4⟩ := h
    obtain ⟨k1, k2⟩ := ih h4
    refine ⟨⟨h3, k2, k1⟩, fun b' hb => ?_⟩
    rcases List.mem_cons.1 hb with rfl | hb
    · exact h1
    · have := k2 b' hb
      omega

theorem good_sampled (hN : 0 < e.N) (h : Good e s L B dep c) (hfine : Fine e s L) (hnum : numInit e.N ≤ s.npts) :
    ∃ out, drawSamples e s = .ok out ∧ ∃ cells, Sampled e ⟨out, s.npts, volume e * s.integ, volume e * s.integErr⟩ cells := by
  classical
  obtain ⟨bt, hg⟩ := h.gen
  have hinv := h.inv
  have hNr : (0 : ℝ) < e.N := by exact_mod_cast hN
  have hw : ∀ x ∈ allPts L s.ncells, 0 ≤ sampleWeight s x ∧ sampleWeight s x * e.N ≤ s.integ := fun x hx => ⟨sampleWeight_nonneg hinv h.known hx, hfine x hx⟩
  obtain ⟨out, o1, o2, o3, o4⟩ := drawSamples_spec hN _ (allPoints_spec hinv) h.integ.symm h.pos hw
  refine ⟨out, o1, ?_⟩
  set W := s.integ / e.N with hW
  have hWp : 0 < W := div_pos h.pos hNr
  have hw' : ∀ x ∈ allPts L s.ncells, 0 ≤ sampleWeight s x ∧ sampleWeight s x ≤ W := fun x hx => ⟨(hw x hx).1, by rw [hW, le_div_iff₀ hNr]; exact (hw x hx).2⟩
  set mk : ℕ → Leaf d := fun i => ⟨B i, bt i, (s.cells i).weight, (L i).map s.coords, (pickCell s L W i).map fun x => s.coords x.2⟩ with hmk
  set q : ℕ → Bool := fun i => decide ((s.cells i).child = none) with hq
  set cells := ((List.range s.ncells).filter q).map mk with hcells
  have hval : ∀ p < s.npts, value e (s.coords p) = s.fval p := fun p hp => by rw [value, (h.known p hp).1]; rfl
  have hempty : ∀ i ∈ List.range s.ncells, q i = false → L i = [] := by
    intro i hi hqi
    by_contra hne
    have := hinv.leaf i (List.mem_range.1 hi) hne
    simp [hq, this] at hqi
  have hcell : ∀ i < s.ncells, ((L i).map fun p => sampleWeight s (i, p)) = (mk i).pts.map fun x => value e x * (mk i).weight := by
    intro i hi
    rw [hmk]
    simp only [List.map_map]
    refine List.map_congr_left fun p hp => ?_
    simp only [Function.comp, sampleWeight, hval p (hinv.lt hi hp)]
  have hweights : weights e cells = (allPts L s.ncells).map (sampleWeight s) := by
    rw [weights, hcells, List.flatMap_map, flatMap_filter, allPts, List.map_flatMap]
    · refine List.flatMap_congr fun i hi => ?_
      rw [← hcell i (List.mem_range.1 hi), List.map_map]
      rfl
    · intro i hi hqi
      rw [← hcell i (List.mem_range.1 hi), hempty i hi hqi]
      rfl
  have htotal : total e cells = s.integ := by
    rw [h.integ, ← hweights, weights, total, List.flatMap_def, List.sum_flatten]
    conv_rhs => rw [List.map_map]
    rfl
  have hmem : ∀ l ∈ cells, ∃ i < s.ncells, (s.cells i).child = none ∧ l = mk i := by
    intro l hl
    obtain ⟨i, hi, rfl⟩ := List.mem_map.1 hl
    rw [List.mem_filter, List.mem_range] at hi
    exact ⟨i, hi.1, by simpa [hq] using hi.2, rfl⟩
  have hchosen : ∀ i < s.ncells, (pickCell s L W i).Sublist ((L i).map fun p => (i, p)) := fun i _ => pick_sublist _ _ _
  have hlenw : (weights e cells).length = s.npts := by rw [hweights, List.length_map, allPts_length hinv]
  refine ⟨cells, ?_, ?_, ?_, ?_, hnum, ?_, ?_, ?_, o4⟩
  · intro x hx
    obtain ⟨i, ⟨h1, h2, h3⟩, hu⟩ := hinv.tree.tiling x hx
    have hi : i ∈ (List.range s.ncells).filter q := List.mem_filter.2 ⟨List.mem_range.2 h1, by simpa [hq] using h2⟩
    obtain ⟨n, hn, hni⟩ := List.getElem_of_mem hi
    have hn' : n < cells.length := by rw [hcells, List.length_map]; exact hn
    refine ⟨⟨n, hn'⟩, ?_, fun j hj => ?_⟩
    · show InBox (cells[n]).box x
      simp only [hcells, List.getElem_map, hni]
      exact h3
    · have hj' : j.1 < ((List.range s.ncells).filter q).length := by
        have h1 := j.2
        have h2 : cells.length = ((List.range s.ncells).filter q).length := by rw [hcells, List.length_map]
        omega
      have hjm := List.getElem_mem hj'
      have hj2 : InBox (B (((List.range s.ncells).filter q)[j.1])) x := by
        have : InBox (cells[j.1]).box x := hj
        simpa only [hcells, List.getElem_map] using this
      have hjm2 := List.mem_filter.1 hjm
      have := hu _ ⟨List.mem_range.1 hjm2.1, by simpa [hq] using hjm2.2, hj2⟩
      have hnd : ((List.range s.ncells).filter q).Nodup := List.nodup_range.filter _
      refine Fin.ext ((List.Nodup.getElem_inj_iff hnd (hi := hj') (hj := hn)).1 (this.trans hni.symm))
  · intro l hl
    obtain ⟨i, hi, hleaf, rfl⟩ := hmem l hl
    have hpos : (0 : ℝ) < numInit e.N := by exact_mod_cast numInit_pos e.N
    refine ⟨fun x hx => hinv.tree.inside i hi x hx, ⟨hg.ne i hi, (history_of_hist (hg.hist i hi)).1, hg.boxes i hi⟩, cell_points hinv hg hi hleaf _ _, ?_, ?_, ?_, ⟨?_, ?_⟩, ?_⟩
    · have := hg.weight i hi
      rw [if_neg (by simp), add_zero] at this
      exact eq_one_div_of_mul_eq_one_left this
    · intro x hx
      obtain ⟨p, hp, rfl⟩ := List.mem_map.1 hx
      exact ⟨hinv.inside i hi p hp, s.fval p, h.known p (hinv.lt hi hp)⟩
    · intro x hx
      obtain ⟨p, hp, rfl⟩ := List.mem_map.1 hx
      rw [htotal, hval p (hinv.lt hi hp)]
      exact hfine (i, p) (mem_allPts.2 ⟨hi, hp⟩)
    · have := (hchosen i hi).map fun x : ℕ × ℕ => s.coords x.2
      rwa [List.map_map] at this
    · intro x hx
      obtain ⟨y, hy, rfl⟩ := List.mem_map.1 hx
      obtain ⟨p, hp, rfl⟩ := List.mem_map.1 ((hchosen i hi).subset hy)
      rw [hval p (hinv.lt hi hp)]
      have h1 : 0 < sampleWeight s (i, p) := by
        refine pick_pos _ (fun z hz => ?_) _ _ ?_ _ hy
        · obtain ⟨p', hp', rfl⟩ := List.mem_map.1 hz
          exact hw' _ (mem_allPts.2 ⟨hi, hp'⟩)
        · have := (pick_bound (allPts L i) (sw := sampleWeight s) (W := W) (fun x hx => hw' x (by
            rw [mem_allPts] at hx ⊢
            exact ⟨by omega, hx.2⟩)) 0 0 (by push_cast; linarith) (by push_cast; linarith)).2
          rwa [zero_add, zero_add] at this
      exact pos_of_mul_pos_left h1 (hinv.weight i hi).le
    · have hf := pickCell_fair hWp hw' hi
      rw [hcell i hi] at hf
      have e1 : ((mk i).chosen.length : ℝ) - e.N * cellSum e (mk i) / total e cells = (((pickCell s L W i).length : ℝ) * W - cellSum e (mk i)) / W := by
        have key : ∀ a b : ℝ, a - e.N * b / s.integ = (a * W - b) / W := by
          intro a b
          have := h.pos.ne'
          rw [hW]
          field_simp
        rw [htotal, key]
        simp only [hmk, List.length_map]
      rw [e1, abs_div, abs_of_pos hWp, div_lt_one hWp]
      exact hf
  · rw [htotal]; exact h.pos
  · show s.npts = _
    rw [← hlenw, weights, List.length_flatMap]
    congr 1
    refine List.map_congr_left fun l _ => ?_
    rw [List.length_map]
  · show volume e * s.integ = _
    rw [htotal, volume_eq]
  · show volume e * s.integErr = _ * √(_ / ((s.npts - 1 : ℕ) : ℝ) * s.npts)
    rw [volume_eq, h.err, ← hweights]
    congr 3
    have := (C14_averager (weights e cells)).2.2.1
    rw [hlenw] at this
    refine this ?_
    have := numInit_pos e.N
    have h256 : 256 ≤ numInit e.N := by
      rw [numInit, maxInitSamples, minNumPointsInCell]
      have : 256 ≤ (1 + e.N / 256) * 256 := by omega
      omega
    omega
  · refine o3.trans (List.Perm.of_eq ?_)
    rw [pick_allPts, hcells, List.flatMap_map, flatMap_filter, List.map_flatMap, List.map_flatMap]
    · refine List.flatMap_congr fun i _ => ?_
      simp only [hmk, List.map_map]
      rfl
    · intro i hi hqi
      have := hchosen i (List.mem_range.1 hi)
      rw [hempty i hi hqi] at this
      simp only [hmk]
      rw [List.map_eq_nil_iff]
      exact List.eq_nil_of_sublist_nil this

/-- The legitimate reasons for an exception: too many dimensions; an empty region; Ctrl-Break; the function throws an exception or is negative somewhere in the region; it is zero at all initial
points; the procedure has not converged after all iterations -/
def Failure (e : Env d) (fuel : ℕ) : Prop := 10 < d ∨ (∃ k, e.hi k ≤ e.lo k) ∨ (∃ i, e.brk i = true) ∨ Bad e ∨ Zero e ∨ ∃ s, Refined e fuel 49 s

/-- C89. For any function and region, the sampling routine returns either a correct result (the required number of samples), or an exception for one of the listed reasons; it does not fail in
any other way. -/
theorem C89_sample (hd : 0 < d) (hN : 0 < e.N) : ∃ F, (∀ fuel, F ≤ fuel → sampleNdim e fuel = .error .exception ∧ Failure e fuel) ∨
    ∃ r, (∀ fuel, F ≤ fuel → sampleNdim e fuel = .ok r) ∧ ∃ cells, Sampled e r cells := by
  by_cases h1 : d > maxPrimes
  · exact ⟨0, Or.inl fun fuel _ => ⟨by rw [sampleNdim, if_pos h1], Or.inl h1⟩⟩
  by_cases h2 : ∃ k, ¬ e.hi k > e.lo k
  · refine ⟨0, Or.inl fun fuel _ => ⟨by rw [sampleNdim, if_neg h1, if_pos h2], Or.inr (Or.inl ?_)⟩⟩
    obtain ⟨k, hk⟩ := h2
    exact ⟨k, not_lt.1 hk⟩
  have hbox : ∀ k, e.lo k < e.hi k := by
    intro k
    by_contra hn
    exact h2 ⟨k, hn⟩
  have hdef : ∀ fuel, sampleNdim e fuel = (run e fuel).bind fun s => (drawSamples e s).bind fun out => .ok ⟨out, s.npts, volume e * s.integ, volume e * s.integErr⟩ := by
    intro fuel
    rw [sampleNdim, if_neg h1, if_neg h2]
    rfl
  obtain ⟨F, hF⟩ := run_spec hd (not_lt.1 h1) hbox
  refine ⟨F, ?_⟩
  rcases hF with hF | ⟨s, L, B, dep, c, hF, hg, hf, hn⟩
  · left
    intro fuel hf
    obtain ⟨k1, k2⟩ := hF fuel hf
    refine ⟨by rw [hdef, k1]; rfl, ?_⟩
    rcases k2 with (k | k | k) | k
    · exact Or.inr (Or.inr (Or.inl k))
    · exact Or.inr (Or.inr (Or.inr (Or.inl k)))
    · exact Or.inr (Or.inr (Or.inr (Or.inr (Or.inr k))))
    · exact Or.inr (Or.inr (Or.inr (Or.inr (Or.inl k))))
  · right
    obtain ⟨out, o1, o2⟩ := good_sampled hN hg hf hn
    refine ⟨_, fun fuel hfu => ?_, o2⟩
    rw [hdef, hF fuel hfu]
    show (drawSamples e s).bind _ = _
    rw [o1]
    rfl

/-- Both outcomes are possible. A negative function leads to an exception. -/
example (fuel : ℕ) : sampleNdim (d := 1) ⟨fun _ => some (-1), fun _ => 0, fun _ => 1, 10, fun _ => 0, fun _ _ => 0, fun _ => 0, fun _ => false⟩ fuel = .error .exception := by
  classical
  obtain ⟨s1, L1, a1, -, -, a4, -⟩ := addPoints_spec (d := 1) (e := ⟨fun _ => some (-1), fun _ => 0, fun _ => 1, 10, fun _ => 0, fun _ _ => 0, fun _ => 0, fun _ => false⟩) (by decide)
    (fun _ => by norm_num) (init_inv _) (i := 0) Nat.one_pos rfl (last := numInit 10) (Nat.zero_le _) le_rfl
  rw [sampleNdim, if_neg (by decide), if_neg (by simp), run]
  simp only
  rw [a1]
  have hev : evalFncLoop ⟨fun _ => some (-1), fun _ => 0, fun _ => 1, 10, fun _ => 0, fun _ _ => 0, fun _ => 0, fun _ => false⟩ s1 0 (numInit 10) = .error .exception := by
    rw [evalFncLoop, if_pos]
    exact ⟨0, le_rfl, by decide, fun v hv => by cases hv; norm_num⟩
  show ((evalFncLoop _ s1 0 (numInit 10)).bind _ >>= _) = _
  rw [hev]
  rfl

end

end Verif.Sample
