import Verif.Sample.Steps

/-! The history of points: each cell contains points of several batches, placed uniformly in the cell or in a larger cell that was split later; the weight of points is inverse to their
density. -/
namespace Verif.Sample

open Verif.Random Verif.Core Finset

noncomputable section

variable {d : ℕ} {e : Env d} {s : St d} {m : ℕ} {L : ℕ → List ℕ} {B : ℕ → Vec d × Vec d} {dep : ℕ → ℕ} {nb : ℕ → ℕ} {c : ℕ}

/-- Points with numbers `first`, ..., `first + count - 1`, placed in the given box -/
structure Batch (d : ℕ) where
  box : Vec d × Vec d
  first : ℕ
  count : ℕ

/-- The fraction of the volume of the sampling region -/
def share (e : Env d) (b : Vec d × Vec d) : ℝ := (∏ k, (b.2 k - b.1 k)) / ∏ k, (e.hi k - e.lo k)

/-- The number of points in the batch after `j` previous ones: the first batch fills the entire region, each next one doubles the number of points, rounded down -/
def batchCount (e : Env d) (b : Vec d × Vec d) (j : ℕ) : ℕ := if j = 0 then numInit e.N else ⌊numInit e.N * 2 ^ (j - 1) * share e b⌋₊

/-- A correct history, the newest batch is the first; all numbers of points are below `m` -/
def Hist (e : Env d) (coords : ℕ → Vec d) : ℕ → List (Batch d) → Prop
  | _, [] => True
  | m, b :: bs => b.first + b.count ≤ m ∧ ((List.range' b.first b.count).map coords).Perm ((List.range' b.first b.count).map (quasiPoint e b.box)) ∧
      b.count = batchCount e b.box bs.length ∧ Hist e coords b.first bs

theorem Hist.mono {coords : ℕ → Vec d} {l : List (Batch d)} {m m' : ℕ} (h : Hist e coords m l) (hm : m ≤ m') : Hist e coords m' l := by
  cases l with
  | nil => trivial
  | cons b bs => exact ⟨h.1.trans hm, h.2⟩

theorem Hist.congr {coords coords' : ℕ → Vec d} {l : List (Batch d)} {m : ℕ} (h : Hist e coords m l) (hc : ∀ p < m, coords' p = coords p) : Hist e coords' m l := by
  induction l generalizing m with
  | nil => trivial
  | cons b bs ih =>
    obtain ⟨h1, h2, h3, h4⟩ := h
    refine ⟨h1, ?_, h3, ih h4 fun p hp => hc p (by omega)⟩
    rw [List.map_congr_left fun p hp => hc p (by rw [List.mem_range'_1] at hp; omega)]
    exact h2

/-- The points in each cell belong to the batches of its history; the weights correspond to the number of batches, including the one which will be added to each of the scheduled cells -/
structure Gen (e : Env d) (s : St d) (m : ℕ) (L : ℕ → List ℕ) (B : ℕ → Vec d × Vec d) (bt : ℕ → List (Batch d)) (pend : List ℕ) : Prop where
  ne : ∀ i < s.ncells, bt i ≠ []
  weight : ∀ i < s.ncells, (s.cells i).weight * (numInit e.N * 2 ^ ((bt i).length - 1 + if i ∈ pend then 1 else 0)) = 1
  hist : ∀ i < s.ncells, Hist e s.coords m (bt i)
  cover : ∀ i < s.ncells, ∀ p ∈ L i, ∃ b ∈ bt i, b.first ≤ p ∧ p < b.first + b.count
  boxes : ∀ i < s.ncells, ∀ b ∈ bt i, ∀ x, InBox (B i) x → InBox b.box x

/-- The number of points in the next batch of the cell -/
def newCount (e : Env d) (bt : ℕ → List (Batch d)) (B : ℕ → Vec d × Vec d) (i : ℕ) : ℕ := batchCount e (B i) (bt i).length

/-- The cumulative numbers of points in the queue -/
def QCount (f : ℕ → ℕ) : ℕ → List (ℕ × ℕ) → Prop
  | _, [] => True
  | prev, x :: q => x.2 = f x.1 + prev ∧ QCount f x.2 q

theorem QCount.congr {f g : ℕ → ℕ} {q : List (ℕ × ℕ)} {prev : ℕ} (h : QCount f prev q) (hc : ∀ j ∈ q.map Prod.fst, g j = f j) : QCount g prev q := by
  induction q generalizing prev with
  | nil => trivial
  | cons x q ih =>
    exact ⟨by rw [hc x.1 (by simp)]; exact h.1, ih h.2 fun j hj => hc j (by rw [List.map_cons]; exact List.mem_cons_of_mem _ hj)⟩

theorem QCount.append {f : ℕ → ℕ} {q : List (ℕ × ℕ)} {prev : ℕ} (h : QCount f prev q) (a : ℕ × ℕ) (ha : a.2 = f a.1 + lastOf prev q) : QCount f prev (q ++ [a]) := by
  induction q generalizing prev with
  | nil => exact ⟨ha, trivial⟩
  | cons x q ih => exact ⟨h.1, ih h.2 ha⟩

/-- The history of cells after the split: the two new cells have the same history as the parent -/
def btSplit (bt : ℕ → List (Batch d)) (n i : ℕ) : ℕ → List (Batch d) := Function.update (Function.update bt n (bt i)) (n + 1) (bt i)

theorem newCount_split {bt : ℕ → List (Batch d)} {B' : ℕ → Vec d × Vec d} {n i j : ℕ} (_ : i < n) (hB : B' j = B j) (hj : j < n) : newCount e (btSplit bt n i) B' j = newCount e bt B j := by
  rw [newCount, newCount, hB, btSplit, Function.update_of_ne (by omega), Function.update_of_ne (by omega)]

theorem Gen.split {bt : ℕ → List (Batch d)} {q : List ℕ} (h : Gen e s m L B bt q) {i : ℕ} (hi : i < s.ncells) {s' : St d} {L' : ℕ → List ℕ} {B' : ℕ → Vec d × Vec d}
    (hn : s'.ncells = s.ncells + 2) (hco : s'.coords = s.coords) (hperm : (L i).Perm (L' s.ncells ++ L' (s.ncells + 1)))
    (hw : (s'.cells s.ncells).weight = (s.cells i).weight ∧ (s'.cells (s.ncells + 1)).weight = (s.cells i).weight) (hold : ∀ j < s.ncells, (s'.cells j).weight = (s.cells j).weight)
    (hrest : ∀ j < s.ncells, j ≠ i → L' j = L j) (hempty : L' i = []) (k : Fin d)
    (hB : (∀ j < s.ncells, B' j = B j) ∧ B' s.ncells = lowerHalf (B i) k ∧ B' (s.ncells + 1) = upperHalf (B i) k) (hq : ∀ j ∈ q, j < i) :
    Gen e s' m L' B' (btSplit bt s.ncells i) q := by
  have cases3 : ∀ j < s.ncells + 2, j = s.ncells ∨ j = s.ncells + 1 ∨ j < s.ncells := by omega
  have b1 : btSplit bt s.ncells i s.ncells = bt i := by rw [btSplit, Function.update_of_ne (by omega), Function.update_self]
  have b2 : btSplit bt s.ncells i (s.ncells + 1) = bt i := by rw [btSplit, Function.update_self]
  have b3 : ∀ j < s.ncells, btSplit bt s.ncells i j = bt j := fun j hj => by rw [btSplit, Function.update_of_ne (by omega), Function.update_of_ne (by omega)]
  have q0 : ∀ j, i ≤ j → j ∉ q := fun j hj hm => by have := hq j hm; omega
  have wi := h.weight i hi
  rw [if_neg (q0 i le_rfl)] at wi
  refine ⟨fun j hj => ?_, fun j hj => ?_, fun j hj => ?_, fun j hj p hp => ?_, fun j hj b hb x hx => ?_⟩
  · rw [hn] at hj
    rcases cases3 j hj with rfl | rfl | hj
    · rw [b1]; exact h.ne i hi
    · rw [b2]; exact h.ne i hi
    · rw [b3 j hj]; exact h.ne j hj
  · rw [hn] at hj
    rcases cases3 j hj with rfl | rfl | hj
    · rw [b1, hw.1, if_neg (q0 _ (by omega))]; exact wi
    · rw [b2, hw.2, if_neg (q0 _ (by omega))]; exact wi
    · rw [b3 j hj, hold j hj]; exact h.weight j hj
  · rw [hn] at hj
    rw [hco]
    rcases cases3 j hj with rfl | rfl | hj
    · rw [b1]; exact h.hist i hi
    · rw [b2]; exact h.hist i hi
    · rw [b3 j hj]; exact h.hist j hj
  · rw [hn] at hj
    rcases cases3 j hj with rfl | rfl | hj
    · rw [b1]; exact h.cover i hi p (hperm.mem_iff.2 (List.mem_append_left _ hp))
    · rw [b2]; exact h.cover i hi p (hperm.mem_iff.2 (List.mem_append_right _ hp))
    · rw [b3 j hj]
      by_cases hji : j = i
      · subst hji; rw [hempty] at hp; cases hp
      · rw [hrest j hj hji] at hp; exact h.cover j hj p hp
  · rw [hn] at hj
    obtain ⟨c1, c2, -, -⟩ := inBox_halves (B i) k x
    rcases cases3 j hj with rfl | rfl | hj
    · rw [b1] at hb; rw [hB.2.1] at hx; exact h.boxes i hi b hb x (c1 hx).1
    · rw [b2] at hb; rw [hB.2.2] at hx; exact h.boxes i hi b hb x (c2 hx).1
    · rw [b3 j hj] at hb; rw [hB.1 j hj] at hx; exact h.boxes j hj b hb x hx

theorem Gen.enqueue {bt : ℕ → List (Batch d)} {q : List ℕ} (h : Gen e s m L B bt q) {i : ℕ} (hi : i < s.ncells) (hnot : i ∉ q) (qu : List (ℕ × ℕ)) :
    Gen e { s with cells := Function.update s.cells i { s.cells i with weight := (s.cells i).weight * 0.5 }, queue := qu } m L B bt (q ++ [i]) := by
  refine ⟨h.ne, fun j hj => ?_, h.hist, h.cover, h.boxes⟩
  show (Function.update s.cells i _ j).weight * _ = 1
  have hw := h.weight j hj
  by_cases hji : j = i
  · subst hji
    rw [if_neg hnot, add_zero] at hw
    rw [Function.update_self, if_pos (by simp), pow_succ]
    linear_combination hw
  · rw [Function.update_of_ne hji]
    have : (j ∈ q ++ [i]) ↔ j ∈ q := by simp [hji]
    simp only [this]
    exact hw

theorem share_cell (hbox : ∀ k, e.lo k < e.hi k) {cells : ℕ → Cell d} {n : ℕ} (ht : Tree e cells n B dep) {i : ℕ} (hi : i < n) : share e (B i) = 0.5 ^ dep i := by
  rw [share, cell_vol ht i hi, mul_div_cancel_left₀]
  exact (Finset.prod_pos fun k _ => sub_pos.2 (hbox k)).ne'

theorem Gen.num {bt : ℕ → List (Batch d)} {q : List ℕ} (h : Gen e s m L B bt q) (hbox : ∀ k, e.lo k < e.hi k) (ht : Tree e s.cells s.ncells B dep) {i : ℕ} (hi : i < s.ncells)
    (hnot : i ∉ q) : ⌊1 / (s.cells i).weight * 0.5 ^ dep i⌋₊ = newCount e bt B i := by
  have hw := h.weight i hi
  rw [if_neg hnot, add_zero] at hw
  have hne : (bt i).length ≠ 0 := fun h0 => h.ne i hi (List.length_eq_zero_iff.1 h0)
  rw [newCount, batchCount, if_neg hne, share_cell hbox ht hi]
  congr 2
  have : (s.cells i).weight ≠ 0 := left_ne_zero_of_mul_eq_one hw
  rw [div_eq_iff this, mul_comm]
  exact hw.symm

/-- New points are added to the cell -/
theorem Gen.add {bt : ℕ → List (Batch d)} {q : List ℕ} {i : ℕ} (h : Gen e s m L B bt (i :: q)) (hi : i < s.ncells) (hnot : i ∉ q) {s' : St d} {L' : ℕ → List ℕ} {last : ℕ} (hm : m ≤ last)
    (hn : s'.ncells = s.ncells) (hco : ∀ p < m, s'.coords p = s.coords p) (hw : ∀ j, (s'.cells j).weight = (s.cells j).weight)
    (hLi : L' i = (List.range' m (last - m)).reverse ++ L i) (hLj : ∀ j, j ≠ i → L' j = L j)
    (hnew : ((List.range' m (last - m)).map s'.coords).Perm ((List.range' m (last - m)).map (quasiPoint e (B i)))) (hcount : last - m = newCount e bt B i) :
    Gen e s' last L' B (Function.update bt i (⟨B i, m, last - m⟩ :: bt i)) q := by
  refine ⟨fun j hj => ?_, fun j hj => ?_, fun j hj => ?_, fun j hj p hp => ?_, fun j hj b hb x hx => ?_⟩ <;> rw [hn] at hj <;> by_cases hji : j = i
  · subst hji; rw [Function.update_self]; simp
  · rw [Function.update_of_ne hji]; exact h.ne j hj
  · subst hji
    have := h.weight j hj
    have hne : (bt j).length ≠ 0 := fun h0 => h.ne j hj (List.length_eq_zero_iff.1 h0)
    rw [if_pos (by simp)] at this
    rw [Function.update_self, hw, if_neg hnot, List.length_cons, show (bt j).length + 1 - 1 + 0 = (bt j).length - 1 + 1 by omega]
    exact this
  · have := h.weight j hj
    simp only [List.mem_cons, hji, false_or] at this
    rw [Function.update_of_ne hji, hw]
    exact this
  · subst hji
    rw [Function.update_self]
    exact ⟨by simp only; omega, hnew, hcount, (h.hist j hj).congr hco⟩
  · rw [Function.update_of_ne hji]
    exact ((h.hist j hj).congr hco).mono hm
  · subst hji
    rw [Function.update_self]
    rw [hLi, List.mem_append, List.mem_reverse, List.mem_range'_1] at hp
    rcases hp with hp | hp
    · exact ⟨_, List.mem_cons_self, hp⟩
    · obtain ⟨b, hb, hb'⟩ := h.cover j hj p hp
      exact ⟨b, List.mem_cons_of_mem _ hb, hb'⟩
  · rw [Function.update_of_ne hji]
    rw [hLj j hji] at hp
    exact h.cover j hj p hp
  · subst hji
    rw [Function.update_self] at hb
    rcases List.mem_cons.1 hb with rfl | hb
    · exact hx
    · exact h.boxes j hj b hb x hx
  · rw [Function.update_of_ne hji] at hb
    exact h.boxes j hj b hb x hx

theorem Gen.congr {bt : ℕ → List (Batch d)} {q : List ℕ} (h : Gen e s m L B bt q) {s' : St d} (hn : s'.ncells = s.ncells) (hco : s'.coords = s.coords)
    (hw : ∀ j, (s'.cells j).weight = (s.cells j).weight) : Gen e s' m L B bt q :=
  ⟨fun i hi => h.ne i (hn ▸ hi), fun i hi => by rw [hw]; exact h.weight i (hn ▸ hi), fun i hi => by rw [hco]; exact h.hist i (hn ▸ hi), fun i hi => h.cover i (hn ▸ hi),
    fun i hi => h.boxes i (hn ▸ hi)⟩

end

end Verif.Sample
