import Mathlib.Analysis.Calculus.Deriv.Pow
import Mathlib.Analysis.Calculus.Deriv.Inv
import Mathlib.Analysis.Calculus.Deriv.Polynomial
import Verif.Core.BinSearch
import Verif.Core.Hermite
import Verif.Spline.BSpline

/-! Model of the one-dimensional interpolators (/repo/src/math_spline.cpp:600-730, 1208-1450), evaluation part, in exact
real arithmetic; C69. A `std::vector<double>` of length n is a function on the naturals together with n. -/
namespace Verif.Spline

open Verif.BSpline (Grid)
open Verif.BinSearch

noncomputable section

/-! ## Model -/

/-- The outputs value, deriv, deriv2, deriv3. -/
@[ext] structure Jet3 where
  val : ℝ
  der : ℝ
  der2 : ℝ
  der3 : ℝ

/-- math_core.cpp:202-233 applied to the array xval[0..n-1] (the model of C11 without rounding; -2 does not occur). -/
def bin (x : ℕ → ℝ) (n : ℕ) (t : ℝ) : ℤ :=
  (binSearch (guessR id t (((List.range n).map x).headD 0) (((List.range n).map x).getLastD 0) n) (some t)
    ((List.range n).map x)).getD (-2)

/-- math_spline.cpp:611-665 (evalCubicSplines with K=1, the branch that is compiled). -/
def evalCubic (x xl xh fl fh dl dh : ℝ) : Jet3 :=
  let h := xh - xl
  let hi := 1 / h
  let t := (x - xl) / h
  let T := 1 - t
  let tT := t * T
  let dif := fh - fl
  let Q := 3 * (dl + dh) - 6 * hi * dif
  { val := fl * T + fh * t + (dif * (t - T) + (dl * T - dh * t) * h) * tT
    der := dl * T + dh * t - Q * tT
    der2 := (dh - dl + Q * (t - T)) * hi
    der3 := 2 * Q * hi * hi }

/-- math_spline.cpp:672-735 (evalQuinticSplines with K=1). -/
def evalQuintic (x xl xh fl fh f1l f1h f2l f2h : ℝ) : Jet3 :=
  if x = xh then
    { val := fh, der := f1h, der2 := f2h
      der3 := ((60 * (fh - fl) / (xh - xl) - (36 * f1h + 24 * f1l)) / (xh - xl) + (9 * f2h - 3 * f2l)) / (xh - xl) }
  else
    let dx := x - xl
    let dx2 := 0.5 * dx * dx
    let h := xh - xl
    let hi := 1 / h
    let h2 := h * h
    let t := dx * hi
    let t2 := t * t
    let t3 := t * t2
    let t1t := t * (1 - t)
    let P := t3 * (10 - t * (15 - 6 * t))
    let Q := t3 * (1 - t * 0.5) * h
    let R := t3 * (1 - t * (1.25 - 0.5 * t)) * h2
    let Px := 30 * t1t * hi
    let Pp := Px * t1t
    let Qp := t2 * (3 - t * 2)
    let Rp := t2 * (3 - t * (5 - 2.5 * t)) * h
    let Ppp := Px * hi * (2 - 4 * t)
    let Qpp := Px * 0.2
    let Rpp := t * (6 - t * (15 - 10 * t))
    let fd := fh - fl - 0.5 * h * (f1h + f1l)
    let f1d := f1h - f1l - 0.5 * h * (f2h + f2l)
    let f2d := f2h - f2l
    { val := fl + P * fd + dx * f1l + Q * f1d + dx2 * f2l + R * f2d
      der := Pp * fd + f1l + Qp * f1d + dx * f2l + Rp * f2d
      der2 := Ppp * fd + Qpp * f1d + f2l + Rpp * f2d
      der3 := hi * hi * (60 * hi - 12 * Px) * fd + hi * hi * (6 - 12 * t) * f1d + (6 * hi - Px) * f2d }

/-- math_spline.cpp:1225-1238 for a number x (for NaN, or if there are no nodes, all outputs are NaN: `none`). -/
def LinearInterpolator.evalDeriv (x f : ℕ → ℝ) (size : ℕ) (t : ℝ) : Option Jet3 :=
  if size = 0 then none else
  let i := (max 0 (min ((size : ℤ) - 2) (bin x size t))).toNat
  some { val := if size > 1 then _root_.Verif.Core.linearInterp t (x i) (x (i + 1)) (f i) (f (i + 1)) else f 0
         der := if size > 1 then (f (i + 1) - f i) / (x (i + 1) - x i) else 0
         der2 := 0, der3 := 0 }

/-- math_spline.cpp:1323-1348. -/
def CubicSpline.evalDeriv (x f d : ℕ → ℝ) (size : ℕ) (t : ℝ) : Option Jet3 :=
  if size = 0 then none else
  let index := bin x size t
  if index < 0 then
    some { val := f 0 + (if d 0 = 0 then 0 else d 0 * (t - x 0)), der := d 0, der2 := 0, der3 := 0 }
  else if index ≥ (size : ℤ) - 1 then
    some { val := f (size - 1) + (if d (size - 1) = 0 then 0 else d (size - 1) * (t - x (size - 1)))
           der := d (size - 1), der2 := 0, der3 := 0 }
  else
    let i := index.toNat
    some (evalCubic t (x i) (x (i + 1)) (f i) (f (i + 1)) (d i) (d (i + 1)))

/-- math_spline.cpp:1423-1447. -/
def QuinticSpline.evalDeriv (x f d d2 : ℕ → ℝ) (size : ℕ) (t : ℝ) : Option Jet3 :=
  if size = 0 then none else
  let index := bin x size t
  if index < 0 then
    some { val := f 0 + (if d 0 = 0 then 0 else d 0 * (t - x 0)), der := d 0, der2 := 0, der3 := 0 }
  else if index ≥ (size : ℤ) - 1 then
    some { val := f (size - 1) + (if d (size - 1) = 0 then 0 else d (size - 1) * (t - x (size - 1)))
           der := d (size - 1), der2 := 0, der3 := 0 }
  else
    let i := index.toNat
    some (evalQuintic t (x i) (x (i + 1)) (f i) (f (i + 1)) (d i) (d (i + 1)) (d2 i) (d2 (i + 1)))

/-! ## The bin -/

theorem bin_cases {x : ℕ → ℝ} {n : ℕ} (hg : Grid x n) (hn : 0 < n) (t : ℝ) :
    (t < x 0 ∧ bin x n t = -1) ∨ (x (n - 1) < t ∧ bin x n t = (n : ℤ) - 1) ∨ (n = 1 ∧ t = x 0 ∧ bin x n t = 0) ∨
    ∃ k : ℕ, k + 1 < n ∧ x k ≤ t ∧ t ≤ x (k + 1) ∧ (t = x (k + 1) → k + 2 = n) ∧ bin x n t = k := by
  have hs : ((List.range n).map x).Pairwise (· < ·) := by
    rw [List.pairwise_iff_getElem]
    intro i j hi hj hij
    simp only [List.length_map, List.length_range] at hi hj
    simp only [List.getElem_map, List.getElem_range]
    exact hg i j hij hj
  obtain ⟨k0, h1, h2, _⟩ := C11_binSearch_partial (some t) ((List.range n).map x) hs
  have hbin : bin x n t = k0 := by
    rw [bin]
    simp only [Option.getD_some, List.length_map, List.length_range] at h1
    rw [h1]; rfl
  have get : ∀ i a, ((List.range n).map x)[i]? = some a → i < n ∧ x i = a := by
    intro i a h
    obtain ⟨hi, h⟩ := List.getElem?_eq_some_iff.1 h
    simp only [List.length_map, List.length_range] at hi
    simp only [List.getElem_map, List.getElem_range] at h
    exact ⟨hi, h⟩
  rw [hbin]
  cases h2 with
  | empty _ h => simp at h; omega
  | left _ a h hx => left; have := get _ _ h; exact ⟨by rw [this.2]; exact hx, rfl⟩
  | right _ a h hx =>
    right; left
    simp only [List.length_map, List.length_range] at h ⊢
    have := get _ _ h
    exact ⟨by rw [this.2]; exact hx, trivial⟩
  | single _ a h hx =>
    right; right; left
    have hl := congrArg List.length h
    simp only [List.length_map, List.length_range, List.length_cons, List.length_nil] at hl
    have : n = 1 := by omega
    subst this
    simp at h
    exact ⟨rfl, by rw [h]; exact hx, rfl⟩
  | bin _ a b k ha hb h3 h4 =>
    right; right; right
    have ha := get _ _ ha
    have hb := get _ _ hb
    refine ⟨k, hb.1, by rw [ha.2]; exact h3, by rw [hb.2]; exact h4.le, ?_, rfl⟩
    intro h; rw [hb.2] at h; exact absurd h h4.ne
  | last _ a b k hk ha hb h3 h4 =>
    right; right; right
    have ha := get _ _ ha
    have hb := get _ _ hb
    simp only [List.length_map, List.length_range] at hk
    exact ⟨k, hb.1, by rw [ha.2]; exact h3, by rw [hb.2]; exact h4.le, fun _ => hk, rfl⟩

theorem Grid.le {x : ℕ → ℝ} {n : ℕ} (hg : Grid x n) {i j : ℕ} (h : i ≤ j) (hj : j < n) : x i ≤ x j := by
  rcases h.lt_or_eq with h | h
  · exact (hg i j h hj).le
  · rw [h]

/-- Position of t relative to the nodes: piece 0 is to the left of the grid, piece k the k-th segment x[k-1]..x[k],
piece n is to the right of the grid (closed intervals). -/
def InPiece (x : ℕ → ℝ) (n k : ℕ) (t : ℝ) : Prop := k ≤ n ∧ (0 < k → x (k - 1) ≤ t) ∧ (k < n → t ≤ x k)

/-- The whole line is covered: either t is strictly inside a piece, or it is a node. -/
theorem piece_or_node {x : ℕ → ℝ} {n : ℕ} (hg : Grid x n) (hn : 0 < n) (t : ℝ) :
    (∃ i < n, t = x i) ∨ ∃ k ≤ n, (0 < k → x (k - 1) < t) ∧ (k < n → t < x k) := by
  rcases bin_cases hg hn t with ⟨h, _⟩ | ⟨h, _⟩ | ⟨h1, h2, _⟩ | ⟨k, hk, h1, h2, _, _⟩
  · right; exact ⟨0, by omega, fun h' => absurd h' (lt_irrefl _), fun _ => h⟩
  · right; exact ⟨n, le_rfl, fun _ => h, fun h' => absurd h' (lt_irrefl _)⟩
  · left; exact ⟨0, hn, h2⟩
  · rcases h1.lt_or_eq with h1 | h1
    · rcases h2.lt_or_eq with h2 | h2
      · right; exact ⟨k + 1, by omega, fun _ => h1, fun _ => h2⟩
      · left; exact ⟨k + 1, by omega, h2⟩
    · left; exact ⟨k, by omega, h1.symm⟩

theorem inPiece_left {x : ℕ → ℝ} {n i : ℕ} (hg : Grid x n) (hi : i < n) : InPiece x n i (x i) :=
  ⟨by omega, fun h => (hg (i - 1) i (by omega) hi).le, fun _ => le_rfl⟩

theorem inPiece_right {x : ℕ → ℝ} {n i : ℕ} (hg : Grid x n) (hi : i < n) : InPiece x n (i + 1) (x i) :=
  ⟨by omega, fun _ => le_rfl, fun h => (hg i (i + 1) (by omega) h).le⟩

/-- Two different pieces have at most one common point, a node. -/
theorem inPiece_two {x : ℕ → ℝ} {n k l : ℕ} (hg : Grid x n) {t : ℝ} (hk : InPiece x n k t) (hl : InPiece x n l t)
    (h : k < l) : l = k + 1 ∧ t = x k := by
  have hl' := hl.1
  have h1 := hk.2.2 (by omega)
  have h2 := hl.2.1 (by omega)
  have h3 : x k ≤ x (l - 1) := Grid.le hg (by omega) (by omega)
  have h4 : t = x k := le_antisymm h1 (h3.trans h2)
  refine ⟨?_, h4⟩
  by_contra hc
  have := hg k (l - 1) (by omega) (by omega)
  linarith

/-- At a given point, in a neighbourhood, no other nodes. -/
theorem eventually_not_node (x : ℕ → ℝ) (n : ℕ) (t : ℝ) : ∀ᶠ s in nhds t, ∀ i < n, s = x i → t = x i := by
  have : ∀ᶠ s in nhds t, ∀ i ∈ Finset.range n, s = x i → t = x i := by
    rw [Filter.eventually_all_finset]
    intro i _
    by_cases h : t = x i
    · exact Filter.Eventually.of_forall (fun _ _ => h)
    · filter_upwards [isOpen_ne.mem_nhds h] with s hs hs' using absurd hs' hs
  filter_upwards [this] with s hs i hi using hs i (Finset.mem_range.2 hi)

/-- Gluing, for a quantity q of the jet: S picks one of the pieces, and the pieces on both sides of the node t agree. -/
theorem agree {x : ℕ → ℝ} {n : ℕ} (hg : Grid x n) {pieces : ℕ → ℝ → Jet3} {S : ℝ → Jet3}
    (hS : ∀ t, ∃ k, InPiece x n k t ∧ S t = pieces k t) (q : Jet3 → ℝ) {t : ℝ}
    (hq : ∀ i < n, t = x i → q (pieces i t) = q (pieces (i + 1) t)) {k : ℕ} (hk : InPiece x n k t) : q (S t) = q (pieces k t) := by
  obtain ⟨l, hl, e⟩ := hS t
  rw [e]
  rcases Nat.lt_trichotomy k l with h | h | h
  · obtain ⟨rfl, h2⟩ := inPiece_two hg hk hl h
    exact (hq k (by have := hl.1; omega) h2).symm
  · rw [h]
  · obtain ⟨rfl, h2⟩ := inPiece_two hg hl hk h
    exact hq l (by have := hk.1; omega) h2

theorem agree_near {x : ℕ → ℝ} {n : ℕ} (hg : Grid x n) {pieces : ℕ → ℝ → Jet3} {S : ℝ → Jet3}
    (hS : ∀ t, ∃ k, InPiece x n k t ∧ S t = pieces k t) (q : Jet3 → ℝ) {t : ℝ}
    (hq : ∀ i < n, t = x i → q (pieces i t) = q (pieces (i + 1) t)) (k : ℕ) :
    ∀ᶠ s in nhds t, InPiece x n k s → q (S s) = q (pieces k s) := by
  filter_upwards [eventually_not_node x n t] with s hs hk
  refine agree hg hS q ?_ hk
  intro i hi hsi
  have := hs i hi hsi
  rw [hsi, ← this]; exact hq i hi this

/-- Limits from the two sides: statements about a neighbourhood split into statements about the pieces. -/
theorem glue {x : ℕ → ℝ} {n : ℕ} (hg : Grid x n) (hn : 0 < n) {pieces : ℕ → ℝ → Jet3} {S : ℝ → Jet3}
    (hS : ∀ t, ∃ k, InPiece x n k t ∧ S t = pieces k t) (q : Jet3 → ℝ) {t g' : ℝ}
    (hq : ∀ i < n, t = x i → q (pieces i t) = q (pieces (i + 1) t))
    (hd : ∀ k, InPiece x n k t → HasDerivAt (fun s => q (pieces k s)) g' t) : HasDerivAt (fun s => q (S s)) g' t := by
  have near := agree_near hg hS q hq
  rcases piece_or_node hg hn t with ⟨i, hi, ht⟩ | ⟨k, hk, h1, h2⟩
  · have hL : InPiece x n i t := by rw [ht]; exact inPiece_left hg hi
    have hR : InPiece x n (i + 1) t := by rw [ht]; exact inPiece_right hg hi
    have dL : HasDerivWithinAt (fun s => q (S s)) g' (Set.Iic t) t := by
      refine ((hd i hL).hasDerivWithinAt (s := Set.Iic t)).congr_of_eventuallyEq ?_ (agree hg hS q hq hL)
      have near' := (near i).filter_mono (nhdsWithin_le_nhds (s := Set.Iic t))
      by_cases h0 : i = 0
      · filter_upwards [self_mem_nhdsWithin, near'] with s hs hn'
        exact hn' ⟨by omega, fun h => by omega, fun _ => by rw [← ht]; exact hs⟩
      · have : Set.Ioi (x (i - 1)) ∈ nhdsWithin t (Set.Iic t) :=
          mem_nhdsWithin_of_mem_nhds (Ioi_mem_nhds (by rw [ht]; exact hg _ _ (by omega) hi))
        filter_upwards [self_mem_nhdsWithin, this, near'] with s hs hs' hn'
        exact hn' ⟨by omega, fun h => le_of_lt hs', fun _ => by rw [← ht]; exact hs⟩
    have dR : HasDerivWithinAt (fun s => q (S s)) g' (Set.Ici t) t := by
      refine ((hd (i + 1) hR).hasDerivWithinAt (s := Set.Ici t)).congr_of_eventuallyEq ?_ (agree hg hS q hq hR)
      have near' := (near (i + 1)).filter_mono (nhdsWithin_le_nhds (s := Set.Ici t))
      by_cases h0 : i + 1 = n
      · filter_upwards [self_mem_nhdsWithin, near'] with s hs hn'
        exact hn' ⟨by omega, fun h => by rw [Nat.add_sub_cancel, ← ht]; exact hs, fun h => by omega⟩
      · have : Set.Iio (x (i + 1)) ∈ nhdsWithin t (Set.Ici t) :=
          mem_nhdsWithin_of_mem_nhds (Iio_mem_nhds (by rw [ht]; exact hg _ _ (by omega) (by omega)))
        filter_upwards [self_mem_nhdsWithin, this, near'] with s hs hs' hn'
        exact hn' ⟨by omega, fun h => by rw [Nat.add_sub_cancel, ← ht]; exact hs, fun _ => le_of_lt hs'⟩
    have := dL.union dR
    rw [Set.Iic_union_Ici] at this
    exact hasDerivWithinAt_univ.1 this
  · have hI : InPiece x n k t := ⟨hk, fun h => (h1 h).le, fun h => (h2 h).le⟩
    refine (hd k hI).congr_of_eventuallyEq ?_
    have e1 : ∀ᶠ s in nhds t, 0 < k → x (k - 1) < s := by
      by_cases h : 0 < k
      · filter_upwards [Ioi_mem_nhds (h1 h)] with s hs _ using hs
      · exact Filter.Eventually.of_forall (fun s h' => absurd h' h)
    have e2 : ∀ᶠ s in nhds t, k < n → s < x k := by
      by_cases h : k < n
      · filter_upwards [Iio_mem_nhds (h2 h)] with s hs _ using hs
      · exact Filter.Eventually.of_forall (fun s h' => absurd h' h)
    filter_upwards [e1, e2, near k] with s a b c
    exact c ⟨hk, fun h => (a h).le, fun h => (b h).le⟩

theorem glue_continuous {x : ℕ → ℝ} {n : ℕ} (hg : Grid x n) (hn : 0 < n) {pieces : ℕ → ℝ → Jet3} {S : ℝ → Jet3}
    (hS : ∀ t, ∃ k, InPiece x n k t ∧ S t = pieces k t) (q : Jet3 → ℝ) {t : ℝ}
    (hq : ∀ i < n, t = x i → q (pieces i t) = q (pieces (i + 1) t))
    (hd : ∀ k, InPiece x n k t → ContinuousAt (fun s => q (pieces k s)) t) : ContinuousAt (fun s => q (S s)) t := by
  have near := agree_near hg hS q hq
  have key : ∀ k, InPiece x n k t → ContinuousWithinAt (fun s => q (S s)) {s | InPiece x n k s} t := by
    intro k hk
    refine ((hd k hk).continuousWithinAt (s := {s | InPiece x n k s})).congr_of_eventuallyEq ?_ (agree hg hS q hq hk)
    filter_upwards [self_mem_nhdsWithin, (near k).filter_mono nhdsWithin_le_nhds] with s hs hn' using hn' hs
  rcases piece_or_node hg hn t with ⟨i, hi, ht⟩ | ⟨k, hk, h1, h2⟩
  · have hL : InPiece x n i t := by rw [ht]; exact inPiece_left hg hi
    have hR : InPiece x n (i + 1) t := by rw [ht]; exact inPiece_right hg hi
    have := (key i hL).union (key (i + 1) hR)
    refine this.continuousAt ?_
    have e1 : ∀ᶠ s in nhds t, 0 < i → x (i - 1) < s := by
      by_cases h : 0 < i
      · filter_upwards [Ioi_mem_nhds (show x (i - 1) < t by rw [ht]; exact hg _ _ (by omega) hi)] with s hs _ using hs
      · exact Filter.Eventually.of_forall (fun s h' => absurd h' h)
    have e2 : ∀ᶠ s in nhds t, i + 1 < n → s < x (i + 1) := by
      by_cases h : i + 1 < n
      · filter_upwards [Iio_mem_nhds (show t < x (i + 1) by rw [ht]; exact hg _ _ (by omega) h)] with s hs _ using hs
      · exact Filter.Eventually.of_forall (fun s h' => absurd h' h)
    filter_upwards [e1, e2] with s a b
    rcases le_total s t with h | h
    · left; exact ⟨by omega, fun h' => (a h').le, fun _ => by rw [← ht]; exact h⟩
    · right; exact ⟨by omega, fun h' => by rw [Nat.add_sub_cancel, ← ht]; exact h, fun h' => (b h').le⟩
  · have hI : InPiece x n k t := ⟨hk, fun h => (h1 h).le, fun h => (h2 h).le⟩
    refine (key k hI).continuousAt ?_
    have e1 : ∀ᶠ s in nhds t, 0 < k → x (k - 1) < s := by
      by_cases h : 0 < k
      · filter_upwards [Ioi_mem_nhds (h1 h)] with s hs _ using hs
      · exact Filter.Eventually.of_forall (fun s h' => absurd h' h)
    have e2 : ∀ᶠ s in nhds t, k < n → s < x k := by
      by_cases h : k < n
      · filter_upwards [Iio_mem_nhds (h2 h)] with s hs _ using hs
      · exact Filter.Eventually.of_forall (fun s h' => absurd h' h)
    filter_upwards [e1, e2] with s a b
    exact ⟨hk, fun h => (a h).le, fun h => (b h).le⟩

/-! ## Segments -/

theorem quintic_poly (x xl xh fl fh f1l f1h f2l f2h : ℝ) (h : xl ≠ xh) :
    let t := (x - xl) / (xh - xl)
    let h := xh - xl
    let a := fh - fl - h * f1l - h ^ 2 / 2 * f2l
    let b := h * (f1h - f1l - h * f2l)
    let c := h ^ 2 * (f2h - f2l)
    evalQuintic x xl xh fl fh f1l f1h f2l f2h =
    { val := fl + h * f1l * t + h ^ 2 / 2 * f2l * t ^ 2 + (10 * a - 4 * b + c / 2) * t ^ 3 + (-15 * a + 7 * b - c) * t ^ 4 + (6 * a - 3 * b + c / 2) * t ^ 5
      der := (h * f1l + h ^ 2 * f2l * t + 3 * (10 * a - 4 * b + c / 2) * t ^ 2 + 4 * (-15 * a + 7 * b - c) * t ^ 3 + 5 * (6 * a - 3 * b + c / 2) * t ^ 4) / h
      der2 := (h ^ 2 * f2l + 6 * (10 * a - 4 * b + c / 2) * t + 12 * (-15 * a + 7 * b - c) * t ^ 2 + 20 * (6 * a - 3 * b + c / 2) * t ^ 3) / h ^ 2
      der3 := (6 * (10 * a - 4 * b + c / 2) + 24 * (-15 * a + 7 * b - c) * t + 60 * (6 * a - 3 * b + c / 2) * t ^ 2) / h ^ 3 } := by
  have hh : xh - xl ≠ 0 := sub_ne_zero.2 h.symm
  intro t h a b c
  rw [evalQuintic]
  split_ifs with hx
  · have ht : t = 1 := by simp only [t]; rw [hx, div_self hh]
    rw [ht]
    simp only [a, b, c]
    ext
    · ring
    · have h0 : h ≠ 0 := hh
      simp only; field_simp; ring
    · have h0 : h ≠ 0 := hh
      simp only; field_simp; ring
    · simp only [h]; field_simp; ring
  · have hxx : x - xl = h * t := by simp only [t, h]; field_simp
    ext
    · simp only [hxx]
      simp only [a, b, c, show xh - xl = h from rfl]
      have : h * t * (1 / h) = t := by simp only [h]; field_simp
      rw [this]; ring
    · simp only [hxx]
      simp only [a, b, c, show xh - xl = h from rfl]
      have h0 : h ≠ 0 := hh
      have : h * t * (1 / h) = t := by field_simp
      rw [this]; field_simp; ring
    · simp only [hxx]
      simp only [a, b, c, show xh - xl = h from rfl]
      have h0 : h ≠ 0 := hh
      have : h * t * (1 / h) = t := by field_simp
      rw [this]; field_simp; ring
    · simp only [hxx]
      simp only [a, b, c, show xh - xl = h from rfl]
      have h0 : h ≠ 0 := hh
      have : h * t * (1 / h) = t := by field_simp
      rw [this]; field_simp; ring

theorem cubic_poly (x xl xh fl fh dl dh : ℝ) (h : xl ≠ xh) :
    let t := x - xl
    let h := xh - xl
    let a := (dl + dh - 2 * (fh - fl) / h) / h ^ 2
    let b := (3 * (fh - fl) / h - 2 * dl - dh) / h
    evalCubic x xl xh fl fh dl dh =
    { val := fl + dl * t + b * t ^ 2 + a * t ^ 3, der := dl + 2 * b * t + 3 * a * t ^ 2, der2 := 2 * b + 6 * a * t, der3 := 6 * a } := by
  have hh : xh - xl ≠ 0 := sub_ne_zero.2 h.symm
  intro t h a b
  have h0 : h ≠ 0 := hh
  rw [evalCubic]
  simp only [a, b, show xh - xl = h from rfl, show x - xl = t from rfl]
  ext <;> (simp only; field_simp; ring)

end
end Verif.Spline
