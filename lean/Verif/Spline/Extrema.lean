import Mathlib.Analysis.Calculus.Darboux
import Mathlib.Order.Monotone.Union
import Verif.Core.Quartic
import Verif.Spline.BRoots

/-! C77: extrema of interpolators (`findRoots<true>`, /repo/src/math_spline.cpp:933-993; `CubicSpline::extrema`, `QuinticSpline::extrema`,
`BsplineWrapper<N>::extrema` for N=2,3; `findExtremaBspline`, 1090-1119). Exact real arithmetic. -/
namespace Verif.Spline

open Verif.BSpline (Grid)
open Polynomial (C derivative)
open Set

noncomputable section

/-! ## Model -/

open Classical in
/-- math_spline.cpp:972-989 (EXTREMA=true), one candidate; the state is result, prevValue, sign. -/
def extStep (S : ℝ → ℝ) (t1 t2 : ℝ) (st : List ℝ × ℝ × ℤ) (r : ℝ) : List ℝ × ℝ × ℤ :=
  if r ≥ t1 ∧ r ≤ t2 ∧ (∀ last, st.1.getLast? = some last → isLarger r last) then
    let newValue := S r
    if (st.2.2 > 0 ∧ newValue > st.2.1) ∨ (st.2.2 < 0 ∧ newValue < st.2.1) then (st.1.dropLast ++ [r], newValue, st.2.2)
    else if newValue ≠ st.2.1 then (st.1 ++ [r], newValue, if newValue > st.2.1 then 1 else -1)
    else st
  else st

/-- math_spline.cpp:933-993 (EXTREMA=true); `none` is a failed assertion. -/
def findExtrema (x : ℕ → ℝ) (size : ℕ) (S : ℝ → ℝ) (rootFnc : ℕ → List ℝ) (x1 x2 : Option ℝ) : Option (List ℝ) :=
  if size = 0 then some [] else
  let lim := clipLimits x size x1 x2
  if lim.1 = lim.2 then some [lim.1] else
  let i1 := bin x size lim.1
  let i2 := bin x size lim.2
  if 0 ≤ i1 ∧ i1 ≤ i2 ∧ i2 ≤ (size : ℤ) - 2 then
    some ((List.range' i1.toNat (i2 - i1 + 1).toNat).foldl (fun st i =>
      let t1 := max lim.1 (x i)
      let t2 := min lim.2 (x (i + 1))
      let roots := (rootFnc i).map (fun r => r + x i)
      let roots := if (i : ℤ) = i2 then roots ++ [t2] else roots
      roots.foldl (extStep S t1 t2) st) ([lim.1], S lim.1, 0)).1
  else none

/-- math_spline.cpp:1010-1028: `RootsCubicSpline<1>` -/
def rootsCubicDeriv (x f d : ℕ → ℝ) (i : ℕ) : List ℝ :=
  let dx := x (i + 1) - x i
  let dy := f (i + 1) - f i
  let dl := d i
  let dh := d (i + 1)
  let a := (dl + dh - 2 * dy / dx) / dx ^ 2
  let b := (3 * dy / dx - 2 * dl - dh) / dx
  let c := dl
  Verif.Core.solveQuadratic (3 * a) (2 * b) c

/-- math_spline.cpp:1040-1055: `RootsDerivQuinticSpline` -/
def rootsQuinticDeriv (eps seps : ℝ) (x f d d2 : ℕ → ℝ) (i : ℕ) : List ℝ :=
  let dx := x (i + 1) - x i
  let dy := f (i + 1) - f i
  let dl := d i
  let dh := d (i + 1)
  let sl := d2 i
  let sh := d2 (i + 1)
  let a := 2.5 * (sh - sl) * dx - 15 * (dh + dl) + 30 * dy / dx
  let b := ((6 * sl - 4 * sh) * dx + 32 * dl + 28 * dh) * dx - 60 * dy
  let c := (((1.5 * sh - 4.5 * sl) * dx - 18 * dl - 12 * dh) * dx + 30 * dy) * dx
  let d' := sl * (dx ^ 2) ^ 2
  let e := dl * (dx ^ 2) ^ 2
  Verif.Core.solveQuartic eps seps a b c d' e

/-- math_spline.cpp:1090-1119, `findExtremaBspline<1>`; the limits as in `clipLimits`. -/
def findExtremaLinear (x ampl : ℕ → ℝ) (size : ℕ) (x1 x2 : Option ℝ) : Option (List ℝ) :=
  if size = 0 then some [] else
  let lim := clipLimits x size x1 x2
  let i1 := bin x size lim.1
  let i2 := bin x size lim.2
  if 0 ≤ i1 ∧ i2 ≤ (size : ℤ) - 2 then
    let result := (List.range' (i1 + 1).toNat (i2 - i1).toNat).foldl (fun result i =>
      let thisVal := ampl i
      let prevVal := ampl (i - 1)
      let nextVal := ampl (i + 1)
      if thisVal ≠ prevVal ∧ (thisVal - prevVal) * (nextVal - thisVal) ≤ 0 then result ++ [x i] else result) [lim.1]
    some (if lim.2 > x i2.toNat ∧ ampl (i2.toNat + 1) ≠ ampl i2.toNat then result ++ [lim.2] else result)
  else none

/-! ## Specification -/

/-- A list of points in decreasing order, such that between adjacent points the function S is monotone and its values at these points differ,
going up and down alternately; the first argument is the last direction (seen from left to right), zero for a single point. -/
inductive Alternating (S : ℝ → ℝ) : ℤ → List ℝ → Prop
  | one (r : ℝ) : Alternating S 0 [r]
  | up {σ : ℤ} {c a : ℝ} {R : List ℝ} : Alternating S σ (a :: R) → σ ≠ 1 → a < c → S a < S c → MonotoneOn S (Icc a c) → Alternating S 1 (c :: a :: R)
  | down {σ : ℤ} {c a : ℝ} {R : List ℝ} : Alternating S σ (a :: R) → σ ≠ -1 → a < c → S c < S a → AntitoneOn S (Icc a c) → Alternating S (-1) (c :: a :: R)

/-! ## The loop -/

theorem monotone_join {S : ℝ → ℝ} {a b c : ℝ} (h1 : MonotoneOn S (Icc a b)) (h2 : MonotoneOn S (Icc b c)) (hab : a ≤ b) (hbc : b ≤ c) :
    MonotoneOn S (Icc a c) := by
  have := h1.union_right h2 (isGreatest_Icc hab) (isLeast_Icc hbc)
  rwa [Icc_union_Icc_eq_Icc hab hbc] at this

theorem antitone_join {S : ℝ → ℝ} {a b c : ℝ} (h1 : AntitoneOn S (Icc a b)) (h2 : AntitoneOn S (Icc b c)) (hab : a ≤ b) (hbc : b ≤ c) :
    AntitoneOn S (Icc a c) := by
  have := h1.union_right h2 (isGreatest_Icc hab) (isLeast_Icc hbc)
  rwa [Icc_union_Icc_eq_Icc hab hbc] at this

/-- Invariant: the list so far, and the function is constant between the last element and the current point. -/
structure Inv (S : ℝ → ℝ) (a cur : ℝ) (back : ℝ) (R : List ℝ) (st : List ℝ × ℝ × ℤ) : Prop where
  list : st.1 = (back :: R).reverse
  prev : st.2.1 = S back
  alt : Alternating S st.2.2 (back :: R)
  first : (back :: R).getLast? = some a
  le : back ≤ cur
  const : ∀ t, back ≤ t → t ≤ cur → S t = S back

theorem extStep_inv {S : ℝ → ℝ} {a cur c t1 t2 : ℝ} {back : ℝ} {R : List ℝ} {st : List ℝ × ℝ × ℤ} (h : Inv S a cur back R st) (hc : cur ≤ c)
    (ht : t1 ≤ c ∧ c ≤ t2) (hm : MonotoneOn S (Icc cur c) ∨ AntitoneOn S (Icc cur c)) (hsep : back < c → isLarger c back) :
    ∃ back' R', Inv S a c back' R' (extStep S t1 t2 st c) ∧ (back' = back ∨ back' = c) := by
  have hcur : S cur = S back := h.const cur h.le le_rfl
  have hlast : st.1.getLast? = some back := by rw [h.list]; simp
  -- the monotone continuation from back to c
  have hcon : MonotoneOn S (Icc back cur) ∧ AntitoneOn S (Icc back cur) := by
    constructor
    · intro u hu v hv _; rw [h.const u hu.1 hu.2, h.const v hv.1 hv.2]
    · intro u hu v hv _; rw [h.const u hu.1 hu.2, h.const v hv.1 hv.2]
  have hm' : MonotoneOn S (Icc back c) ∨ AntitoneOn S (Icc back c) :=
    hm.imp (fun q => monotone_join hcon.1 q h.le hc) (fun q => antitone_join hcon.2 q h.le hc)
  have hbc : back ≤ c := h.le.trans hc
  have mB : back ∈ Icc back c := ⟨le_rfl, hbc⟩
  have mC : c ∈ Icc back c := ⟨hbc, le_rfl⟩
  -- equal values: nothing changes
  have same : S c = S back → Inv S a c back R st := by
    intro he
    refine ⟨h.list, h.prev, h.alt, h.first, hbc, ?_⟩
    intro t h1 h2
    rcases hm' with q | q
    · exact le_antisymm ((q ⟨h1, h2⟩ mC h2).trans he.le) (q mB ⟨h1, h2⟩ h1)
    · exact le_antisymm (q mB ⟨h1, h2⟩ h1) (he.symm.le.trans (q ⟨h1, h2⟩ mC h2))
  rw [extStep]
  by_cases hbe : back = c
  · -- no progress
    have he : S c = S back := by rw [hbe]
    refine ⟨back, R, ?_, Or.inl rfl⟩
    split
    · simp only
      rw [h.prev, he, if_neg (by rintro (⟨_, q⟩ | ⟨_, q⟩) <;> exact lt_irrefl _ q), if_neg (by simp)]
      exact same he
    · exact same he
  have hlt : back < c := lt_of_le_of_ne hbc hbe
  rw [if_pos ⟨ht.1, ht.2, fun last hl => by rw [hlast] at hl; cases hl; exact hsep hlt⟩]
  simp only
  have one : ∀ r, (c :: r).getLast? = some a ∨ r = [] → True := fun _ _ => trivial
  have append : st.1 ++ [c] = (c :: back :: R).reverse := by rw [h.list]; simp
  have replace : st.1.dropLast ++ [c] = (c :: R).reverse := by
    rw [h.list, List.reverse_cons, List.dropLast_concat, List.reverse_cons]
  have constC : ∀ t, c ≤ t → t ≤ c → S t = S c := fun t h1 h2 => by rw [le_antisymm h2 h1]
  have firstA : (c :: back :: R).getLast? = some a := by
    rw [List.getLast?_cons_cons]; exact h.first
  rcases lt_trichotomy (S c) (S back) with hv | hv | hv
  · -- downwards
    have anti : AntitoneOn S (Icc back c) := by
      rcases hm' with q | q
      · exact absurd (q mB mC hbc) (not_le.2 hv)
      · exact q
    by_cases hσ : st.2.2 < 0
    · rw [if_pos (Or.inr ⟨hσ, by rw [h.prev]; exact hv⟩)]
      have hal := h.alt
      generalize hst : st.2.2 = σ at *
      cases hal with
      | one => exact absurd hσ (lt_irrefl _)
      | up => norm_num at hσ
      | @down σ' c' a' R' k1 k2 k3 k4 k5 =>
        refine ⟨c, a' :: R', ⟨replace, rfl, ?_, ?_, le_rfl, constC⟩, Or.inr rfl⟩
        · exact Alternating.down k1 k2 (k3.trans hlt) (hv.trans k4) (antitone_join k5 anti k3.le hlt.le)
        · have := h.first
          rw [List.getLast?_cons_cons] at this ⊢
          exact this
    · rw [if_neg (by rintro (⟨_, q⟩ | ⟨q, _⟩); · rw [h.prev] at q; exact lt_asymm q hv
                     · exact hσ q), if_pos (by rw [h.prev]; exact hv.ne)]
      refine ⟨c, back :: R, ⟨append, rfl, ?_, firstA, le_rfl, constC⟩, Or.inr rfl⟩
      simp only
      rw [if_neg (by rw [h.prev]; exact not_lt.2 hv.le)]
      exact Alternating.down h.alt (by intro q; rw [q] at hσ; norm_num at hσ) hlt hv anti
  · rw [if_neg (by rintro (⟨_, q⟩ | ⟨_, q⟩) <;> rw [h.prev, hv] at q <;> exact lt_irrefl _ q), if_neg (by rw [h.prev, hv]; simp)]
    exact ⟨back, R, same hv, Or.inl rfl⟩
  · -- upwards
    have mono : MonotoneOn S (Icc back c) := by
      rcases hm' with q | q
      · exact q
      · exact absurd (q mB mC hbc) (not_le.2 hv)
    by_cases hσ : st.2.2 > 0
    · rw [if_pos (Or.inl ⟨hσ, by rw [h.prev]; exact hv⟩)]
      have hal := h.alt
      generalize hst : st.2.2 = σ at *
      cases hal with
      | one => exact absurd hσ (lt_irrefl _)
      | down => norm_num at hσ
      | @up σ' c' a' R' k1 k2 k3 k4 k5 =>
        refine ⟨c, a' :: R', ⟨replace, rfl, ?_, ?_, le_rfl, constC⟩, Or.inr rfl⟩
        · exact Alternating.up k1 k2 (k3.trans hlt) (k4.trans hv) (monotone_join k5 mono k3.le hlt.le)
        · have := h.first
          rw [List.getLast?_cons_cons] at this ⊢
          exact this
    · rw [if_neg (by rintro (⟨q, _⟩ | ⟨_, q⟩); · exact hσ q
                     · rw [h.prev] at q; exact lt_asymm q hv), if_pos (by rw [h.prev]; exact hv.ne')]
      refine ⟨c, back :: R, ⟨append, rfl, ?_, firstA, le_rfl, constC⟩, Or.inr rfl⟩
      simp only
      rw [if_pos (by rw [h.prev]; exact hv)]
      exact Alternating.up h.alt (by intro q; rw [q] at hσ; norm_num at hσ) hlt hv mono

/-- One step without the check of boundaries. -/
def extPush (S : ℝ → ℝ) (st : List ℝ × ℝ × ℤ) (r : ℝ) : List ℝ × ℝ × ℤ := extStep S r r st r

theorem extStep_fold (S : ℝ → ℝ) (t1 t2 : ℝ) (L : List ℝ) (st : List ℝ × ℝ × ℤ) :
    L.foldl (extStep S t1 t2) st = (L.filter (fun r => decide (t1 ≤ r ∧ r ≤ t2))).foldl (extPush S) st := by
  induction L generalizing st with
  | nil => rfl
  | cons r L ih =>
    rw [List.foldl_cons, ih]
    by_cases h : t1 ≤ r ∧ r ≤ t2
    · rw [List.filter_cons_of_pos (by simpa using h), List.foldl_cons]
      congr 1
      rw [extPush, extStep, extStep]
      by_cases q : ∀ last, st.1.getLast? = some last → isLarger r last
      · have c1 : r ≥ t1 ∧ r ≤ t2 ∧ ∀ last, st.1.getLast? = some last → isLarger r last := ⟨h.1, h.2, q⟩
        have c2 : r ≥ r ∧ r ≤ r ∧ ∀ last, st.1.getLast? = some last → isLarger r last := ⟨le_rfl, le_rfl, q⟩
        rw [if_pos c1, if_pos c2]
      · have c1 : ¬ (r ≥ t1 ∧ r ≤ t2 ∧ ∀ last, st.1.getLast? = some last → isLarger r last) := fun z => q z.2.2
        have c2 : ¬ (r ≥ r ∧ r ≤ r ∧ ∀ last, st.1.getLast? = some last → isLarger r last) := fun z => q z.2.2
        rw [if_neg c1, if_neg c2]
    · rw [List.filter_cons_of_neg (by simpa using h)]
      congr 1
      rw [extStep, if_neg (fun q => h ⟨q.1, q.2.1⟩)]

theorem fold_inv {S : ℝ → ℝ} {a : ℝ} (Crit : ℝ → Prop) (hsep : ∀ s t, Crit s → Crit t → s < t → isLarger t s) :
    ∀ (L : List ℝ) (cur back : ℝ) (R : List ℝ) (st : List ℝ × ℝ × ℤ), Inv S a cur back R st → Crit back → (∀ c ∈ L, Crit c) →
      List.IsChain (fun c c' => c ≤ c' ∧ (MonotoneOn S (Icc c c') ∨ AntitoneOn S (Icc c c'))) (cur :: L) →
      ∃ back' R', Inv S a ((cur :: L).getLast (by simp)) back' R' (L.foldl (extPush S) st) := by
  intro L
  induction L with
  | nil => intro cur back R st h _ _ _; exact ⟨back, R, h⟩
  | cons c L ih =>
    intro cur back R st h hb hL hch
    rw [List.isChain_cons_cons] at hch
    obtain ⟨back', R', h', hb'⟩ := extStep_inv (t1 := c) (t2 := c) h hch.1.1 ⟨le_rfl, le_rfl⟩ hch.1.2 (hsep back c hb (hL c (by simp)))
    rw [List.foldl_cons]
    have := ih c back' R' _ h' (by
      rcases hb' with e | e
      · rw [e]; exact hb
      · rw [e]; exact hL c (by simp)) (fun q hq => hL q (by simp [hq])) hch.2
    rw [List.getLast_cons_cons]
    exact this

/-! ## Monotonicity between critical points -/

/-- No element of a sorted list lies strictly between adjacent ones. -/
theorem sorted_gaps (l : List ℝ) (h : l.Pairwise (· ≤ ·)) : List.IsChain (fun c c' => c ≤ c' ∧ ∀ z ∈ l, ¬ (c < z ∧ z < c')) l := by
  suffices H : ∀ (l pre : List ℝ), (pre ++ l).Pairwise (· ≤ ·) → List.IsChain (fun c c' => c ≤ c' ∧ ∀ z ∈ pre ++ l, ¬ (c < z ∧ z < c')) l from H l [] h
  intro l
  induction l with
  | nil => intro pre _; exact List.isChain_nil
  | cons c l ih =>
    intro pre hp
    have e : pre ++ c :: l = (pre ++ [c]) ++ l := by simp
    cases l with
    | nil => exact List.isChain_singleton _
    | cons c' l =>
      rw [List.isChain_cons_cons]
      constructor
      · rw [List.pairwise_append] at hp
        obtain ⟨_, h2, h3⟩ := hp
        rw [List.pairwise_cons] at h2
        refine ⟨h2.1 c' (by simp), ?_⟩
        rintro z hz ⟨z1, z2⟩
        rw [List.mem_append, List.mem_cons, List.mem_cons] at hz
        rcases hz with hz | rfl | rfl | hz
        · have := h3 z hz c (by simp); linarith
        · exact lt_irrefl _ z1
        · exact lt_irrefl _ z2
        · have := (List.pairwise_cons.1 h2.2).1 z hz; linarith
      · have := ih (pre ++ [c]) (by rw [← e]; exact hp)
        rw [← e] at this
        exact this

/-- The points where the derivative of a piecewise-polynomial function vanishes: all isolated zeros, and the left ends of segments on which
it vanishes identically. -/
def Stationary (x : ℕ → ℝ) (size : ℕ) (Q : ℕ → Polynomial ℝ) (t : ℝ) : Prop :=
  ∃ i, i + 1 < size ∧ x i ≤ t ∧ t ≤ x (i + 1) ∧ (Q i ≠ 0 ∧ (Q i).eval t = 0 ∨ Q i = 0 ∧ t = x i)

theorem gap_monotone {x : ℕ → ℝ} {size : ℕ} (hg : Grid x size) (hs : 2 ≤ size) {S S' : ℝ → ℝ} {Q : ℕ → Polynomial ℝ}
    (hc : ContinuousOn S (Icc (x 0) (x (size - 1)))) (hd : ∀ t, x 0 < t → t < x (size - 1) → HasDerivAt S (S' t) t)
    (hQ : ∀ i, i + 1 < size → ∀ t, x i ≤ t → t ≤ x (i + 1) → S' t = (Q i).eval t) {c c' : ℝ} (h0 : x 0 ≤ c) (_hcc : c ≤ c') (h1 : c' ≤ x (size - 1))
    (hgap : ∀ t, Stationary x size Q t → ¬ (c < t ∧ t < c')) : MonotoneOn S (Icc c c') ∨ AntitoneOn S (Icc c c') := by
  have hc' : ContinuousOn S (Icc c c') := hc.mono (Icc_subset_Icc h0 h1)
  have hdI : ∀ t ∈ Ioo c c', HasDerivAt S (S' t) t := fun t ht => hd t (lt_of_le_of_lt h0 ht.1) (lt_of_lt_of_le ht.2 h1)
  have hdiff : DifferentiableOn ℝ S (interior (Icc c c')) := by
    rw [interior_Icc]
    exact fun t ht => (hdI t ht).differentiableAt.differentiableWithinAt
  have up : (∀ t ∈ Ioo c c', 0 ≤ S' t) → MonotoneOn S (Icc c c') := by
    intro h
    refine monotoneOn_of_deriv_nonneg (convex_Icc _ _) hc' hdiff ?_
    rw [interior_Icc]
    intro t ht
    rw [(hdI t ht).deriv]; exact h t ht
  have down : (∀ t ∈ Ioo c c', S' t ≤ 0) → AntitoneOn S (Icc c c') := by
    intro h
    refine antitoneOn_of_deriv_nonpos (convex_Icc _ _) hc' hdiff ?_
    rw [interior_Icc]
    intro t ht
    rw [(hdI t ht).deriv]; exact h t ht
  by_cases hz : ∀ t ∈ Ioo c c', S' t ≠ 0
  · rcases hasDerivWithinAt_forall_lt_or_forall_gt_of_forall_ne (convex_Ioo c c') (fun t ht => (hdI t ht).hasDerivWithinAt) hz with h | h
    · right; exact down (fun t ht => (h t ht).le)
    · left; exact up (fun t ht => (h t ht).le)
  · push Not at hz
    obtain ⟨t, ht, hzt⟩ := hz
    -- the segment containing t
    obtain ⟨i, _, hi, t1, t2, _⟩ := bin_inside hg hs (show x 0 ≤ t by linarith [ht.1]) (show t ≤ x (size - 1) by linarith [ht.2])
    have q0 : Q i = 0 := by
      by_contra hne
      exact hgap t ⟨i, hi, t1, t2, Or.inl ⟨hne, by rw [← hQ i hi t t1 t2]; exact hzt⟩⟩ ht
    have z1 : x i ≤ c := by
      by_contra hlt
      push Not at hlt
      exact hgap (x i) ⟨i, hi, le_rfl, (hg i (i + 1) (by omega) hi).le, Or.inr ⟨q0, rfl⟩⟩ ⟨hlt, lt_of_le_of_lt t1 ht.2⟩
    have z2 : c' ≤ x (i + 1) := by
      by_contra hlt
      push Not at hlt
      have hlast : i + 2 < size := by
        by_contra h
        rw [show i + 1 = size - 1 by omega] at hlt
        linarith
      have hzero : S' (x (i + 1)) = 0 := by rw [hQ i hi (x (i + 1)) (hg i (i + 1) (by omega) hi).le le_rfl, q0, Polynomial.eval_zero]
      refine hgap (x (i + 1)) ⟨i + 1, by omega, le_rfl, (hg (i + 1) (i + 1 + 1) (by omega) (by omega)).le, ?_⟩ ⟨lt_of_lt_of_le ht.1 t2, hlt⟩
      by_cases hq : Q (i + 1) = 0
      · exact Or.inr ⟨hq, rfl⟩
      · left
        refine ⟨hq, ?_⟩
        rw [← hQ (i + 1) (by omega) _ le_rfl (hg (i + 1) (i + 1 + 1) (by omega) (by omega)).le]; exact hzero
    left
    apply up
    intro s hs'
    rw [hQ i hi s (z1.trans hs'.1.le) (hs'.2.le.trans z2), q0, Polynomial.eval_zero]

/-- C77: for every continuously differentiable piecewise-polynomial interpolator, every choice of limits whose interval overlaps with the grid, and an
exact solver for the zeros of the derivative on segments, if the stationary points within the interval and its ends are further apart than the
tolerance: the routine succeeds, the first returned point is the lower end of the interval, the points are increasing and within
the interval, the function is monotone between adjacent points and its values at these points strictly alternate (up and down), and the
function is constant from the last point to the upper end of the interval (the last point is the upper end unless the
function is constant near it). -/
theorem C77_extrema (x : ℕ → ℝ) (size : ℕ) (hg : Grid x size) (hs : 2 ≤ size) (S S' : ℝ → ℝ) (Q : ℕ → Polynomial ℝ)
    (hc : ContinuousOn S (Icc (x 0) (x (size - 1)))) (hd : ∀ t, x 0 < t → t < x (size - 1) → HasDerivAt S (S' t) t)
    (hQ : ∀ i, i + 1 < size → ∀ t, x i ≤ t → t ≤ x (i + 1) → S' t = (Q i).eval t) (rootFnc : ℕ → List ℝ) (hr : ExactRoots x size Q 0 rootFnc)
    (x1 x2 : Option ℝ) (a b : ℝ) (ha : a = max (lower x x1 x2) (x 0)) (hb : b = min (upper x size x1 x2) (x (size - 1))) (hl : a < b)
    (hsep : ∀ s t, (s = a ∨ Stationary x size Q s) → (t = b ∨ Stationary x size Q t) → a ≤ s → s < t → t ≤ b → isLarger t s) :
    ∃ R σ, findExtrema x size S rootFnc x1 x2 = some R ∧ R.head? = some a ∧ Alternating S σ R.reverse ∧
      ∃ last, R.getLast? = some last ∧ last ≤ b ∧ ∀ t, last ≤ t → t ≤ b → S t = S last := by
  rw [findExtrema, if_neg (by omega)]
  simp only [clipLimits_eq]
  rw [← ha, ← hb]
  have ha0 : x 0 ≤ a := by rw [ha]; exact le_max_right _ _
  have hb0 : b ≤ x (size - 1) := by rw [hb]; exact min_le_right _ _
  obtain ⟨i1, i2, e1, e2, h12, h2, a1, a2, b1, b2, seg⟩ := segs_spec hg hs ha0 hl hb0
  rw [if_neg hl.ne, e1, e2, if_pos ⟨by omega, by omega, by omega⟩, Int.toNat_natCast, show ((i2 : ℤ) - i1 + 1).toNat = (i2 - i1) + 1 by omega]
  -- the candidates
  set cand : ℕ → List ℝ := fun i => ((rootFnc i).map (fun r => r + x i)).filter (fun r => decide (max a (x i) ≤ r ∧ r ≤ min b (x (i + 1)))) with hcand
  have flat : ∀ (l : List ℕ) (st : List ℝ × ℝ × ℤ), (∀ i ∈ l, i < i2) → l.foldl (fun (st : List ℝ × ℝ × ℤ) (i : ℕ) =>
      (if (i : ℤ) = i2 then (rootFnc i).map (fun r => r + x i) ++ [min b (x (i + 1))] else (rootFnc i).map (fun r => r + x i)).foldl
        (extStep S (max a (x i)) (min b (x (i + 1)))) st) st = (l.flatMap cand).foldl (extPush S) st := by
    intro l
    induction l with
    | nil => intro st _; rfl
    | cons i l ih =>
      intro st hl'
      have := hl' i (by simp)
      rw [List.foldl_cons, ih _ (fun j hj => hl' j (by simp [hj])), if_neg (by omega), extStep_fold, List.flatMap_cons, List.foldl_append]
  have hfin : (List.range' i1 (i2 - i1 + 1)).foldl (fun (st : List ℝ × ℝ × ℤ) (i : ℕ) =>
      (if (i : ℤ) = i2 then (rootFnc i).map (fun r => r + x i) ++ [min b (x (i + 1))] else (rootFnc i).map (fun r => r + x i)).foldl
        (extStep S (max a (x i)) (min b (x (i + 1)))) st) ([a], S a, 0) =
      ((List.range' i1 (i2 - i1 + 1)).flatMap cand ++ [b]).foldl (extPush S) ([a], S a, 0) := by
    rw [List.range'_concat, List.foldl_append, flat (List.range' i1 (i2 - i1)) _ (by intro i hi; rw [List.mem_range'_1] at hi; omega), one_mul]
    rw [show i1 + (i2 - i1) = i2 by omega, List.foldl_cons, List.foldl_nil, if_pos rfl, extStep_fold, List.flatMap_append, List.flatMap_cons, List.flatMap_nil,
      List.append_nil, List.filter_append, List.foldl_append, List.foldl_append, List.foldl_append]
    congr 1
    rw [min_eq_left b2, List.filter_cons_of_pos, List.filter_nil]
    simp only [decide_eq_true_eq]
    exact ⟨max_le hl.le b1, le_rfl⟩
  rw [hfin]
  set L := (List.range' i1 (i2 - i1 + 1)).flatMap cand with hL
  have hsort : L.Pairwise (· ≤ ·) := candidates_sorted hg hr a b i1 _ (by omega)
  have memL : ∀ t ∈ L, a ≤ t ∧ t ≤ b ∧ Stationary x size Q t := by
    intro t ht
    rw [hL, List.mem_flatMap] at ht
    obtain ⟨i, hi, hri⟩ := ht
    rw [List.mem_range'_1] at hi
    obtain ⟨hm, hin⟩ := List.mem_filter.1 hri
    simp only [decide_eq_true_eq] at hin
    obtain ⟨s, hs1, rfl⟩ := List.mem_map.1 hm
    refine ⟨(le_max_left _ _).trans hin.1, hin.2.trans (min_le_left _ _), i, by omega, (le_max_right _ _).trans hin.1, hin.2.trans (min_le_right _ _), ?_⟩
    obtain ⟨g1, g2⟩ := hr i (by omega)
    by_cases hq : Q i = 0
    · right
      rw [g1 (by rw [hq, Polynomial.C_0])] at hs1
      simp at hs1
      exact ⟨hq, by rw [hs1]; ring⟩
    · left
      refine ⟨hq, ?_⟩
      rw [add_comm]; exact ((g2 (by rw [Polynomial.C_0]; exact hq)).2 s).1 hs1
  have inL : ∀ t, a < t → t < b → Stationary x size Q t → t ∈ L := by
    rintro t ta tb ⟨i, hi, h1, h2', h3⟩
    rcases seg t ta.le tb.le i hi h1 h2' with h | ⟨_, h⟩ | ⟨_, h⟩
    · rw [hL, List.mem_flatMap]
      refine ⟨i, by rw [List.mem_range'_1]; omega, ?_⟩
      rw [hcand]
      simp only
      rw [List.mem_filter]
      refine ⟨?_, by simp only [decide_eq_true_eq]; exact ⟨max_le ta.le h1, le_min tb.le h2'⟩⟩
      rw [List.mem_map]
      obtain ⟨g1, g2⟩ := hr i hi
      rcases h3 with ⟨q1, q2⟩ | ⟨q1, q2⟩
      · refine ⟨t - x i, ?_, by ring⟩
        rw [(g2 (by rw [Polynomial.C_0]; exact q1)).2, show x i + (t - x i) = t by ring]; exact q2
      · refine ⟨0, ?_, by rw [q2]; ring⟩
        rw [g1 (by rw [q1, Polynomial.C_0])]; simp
    · linarith
    · linarith
  have hsortall : (a :: (L ++ [b])).Pairwise (· ≤ ·) := by
    rw [List.pairwise_cons, List.pairwise_append]
    refine ⟨?_, hsort, by simp, ?_⟩
    · intro t ht
      rw [List.mem_append, List.mem_singleton] at ht
      rcases ht with ht | rfl
      · exact (memL t ht).1
      · exact hl.le
    · intro s hs' t ht
      rw [List.mem_singleton] at ht
      rw [ht]; exact (memL s hs').2.1
  have hall : ∀ t ∈ a :: (L ++ [b]), a ≤ t ∧ t ≤ b := by
    intro t ht
    rw [List.mem_cons, List.mem_append, List.mem_singleton] at ht
    rcases ht with rfl | ht | rfl
    · exact ⟨le_rfl, hl.le⟩
    · exact ⟨(memL t ht).1, (memL t ht).2.1⟩
    · exact ⟨hl.le, le_rfl⟩
  have hchain : List.IsChain (fun c c' => c ≤ c' ∧ (MonotoneOn S (Icc c c') ∨ AntitoneOn S (Icc c c'))) (a :: (L ++ [b])) := by
    refine (sorted_gaps _ hsortall).imp_of_mem_imp ?_
    intro c c' hcm hcm' hcc
    refine ⟨hcc.1, ?_⟩
    obtain ⟨m1, m2⟩ := hall c hcm
    obtain ⟨m3, m4⟩ := hall c' hcm'
    refine gap_monotone hg hs hc hd hQ (ha0.trans m1) hcc.1 (m4.trans hb0) ?_
    rintro t hst ⟨z1, z2⟩
    refine hcc.2 t ?_ ⟨z1, z2⟩
    rw [List.mem_cons, List.mem_append]
    exact Or.inr (Or.inl (inL t (lt_of_le_of_lt m1 z1) (lt_of_lt_of_le z2 m4) hst))
  have inv0 : Inv S a a a [] ([a], S a, 0) := ⟨rfl, rfl, Alternating.one a, rfl, le_rfl, fun t h1 h2 => by rw [le_antisymm h2 h1]⟩
  obtain ⟨back, R, h⟩ := fold_inv (fun t => a ≤ t ∧ t ≤ b ∧ (t = a ∨ t = b ∨ Stationary x size Q t)) (by
      rintro s t ⟨s1, s2, s3⟩ ⟨t1, t2, t3⟩ hst
      refine hsep s t ?_ ?_ s1 hst t2
      · rcases s3 with h | h | h
        · exact Or.inl h
        · linarith
        · exact Or.inr h
      · rcases t3 with h | h | h
        · linarith
        · exact Or.inl h
        · exact Or.inr h) (L ++ [b]) a a [] _ inv0 ⟨le_rfl, hl.le, Or.inl rfl⟩ (by
    intro t ht
    have := hall t (by rw [List.mem_cons]; exact Or.inr ht)
    refine ⟨this.1, this.2, ?_⟩
    rw [List.mem_append, List.mem_singleton] at ht
    rcases ht with ht | ht
    · exact Or.inr (Or.inr (memL t ht).2.2)
    · exact Or.inr (Or.inl ht)) hchain
  have hlast : (a :: (L ++ [b])).getLast (by simp) = b := by simp
  rw [hlast] at h
  refine ⟨_, ((L ++ [b]).foldl (extPush S) ([a], S a, 0)).2.2, rfl, ?_, ?_, back, ?_, h.le, h.const⟩
  · rw [h.list, List.head?_reverse]; exact h.first
  · rw [h.list, List.reverse_reverse]; exact h.alt
  · rw [h.list]; simp

/-! ## The interpolators -/

/-- Points where the function S' (the derivative) vanishes, except the interior and the right boundary of segments where it vanishes identically. -/
def StationaryPoint (x : ℕ → ℝ) (size : ℕ) (S' : ℝ → ℝ) (t : ℝ) : Prop :=
  S' t = 0 ∧ ∃ i, i + 1 < size ∧ x i ≤ t ∧ t ≤ x (i + 1) ∧ (t = x i ∨ ∃ u, x i ≤ u ∧ u ≤ x (i + 1) ∧ S' u ≠ 0)

/-- What the user relies on: the list R returned for the interval a..b begins with a; between adjacent points the function S
is monotone; at the points it changes the direction; and the last point is b, unless the function is constant from it to b. -/
structure ExtremaOf (S : ℝ → ℝ) (a b : ℝ) (R : List ℝ) : Prop where
  first : R.head? = some a
  alternating : ∃ σ, Alternating S σ R.reverse
  last : ∃ last, R.getLast? = some last ∧ last ≤ b ∧ ∀ t, last ≤ t → t ≤ b → S t = S last

theorem poly_zero_on {p : Polynomial ℝ} {a b : ℝ} (hab : a < b) (h : ∀ u, a ≤ u → u ≤ b → p.eval u = 0) : p = 0 := by
  refine Polynomial.eq_zero_of_infinite_isRoot p ((Icc_infinite hab).mono ?_)
  intro u hu
  exact h u hu.1 hu.2

theorem extremaOf {x : ℕ → ℝ} {size : ℕ} (hg : Grid x size) (hs : 2 ≤ size) {S S' : ℝ → ℝ} {Q : ℕ → Polynomial ℝ}
    (hc : ContinuousOn S (Icc (x 0) (x (size - 1)))) (hd : ∀ t, x 0 < t → t < x (size - 1) → HasDerivAt S (S' t) t)
    (hQ : ∀ i, i + 1 < size → ∀ t, x i ≤ t → t ≤ x (i + 1) → S' t = (Q i).eval t) {rootFnc : ℕ → List ℝ} (hr : ExactRoots x size Q 0 rootFnc)
    {x1 x2 : Option ℝ} {a b : ℝ} (ha : a = max (lower x x1 x2) (x 0)) (hb : b = min (upper x size x1 x2) (x (size - 1))) (hl : a < b)
    (hsep : ∀ s t, (s = a ∨ StationaryPoint x size S' s) → (t = b ∨ StationaryPoint x size S' t) → a ≤ s → s < t → t ≤ b → isLarger t s) :
    ∃ R, findExtrema x size S rootFnc x1 x2 = some R ∧ ExtremaOf S a b R := by
  have st : ∀ t, Stationary x size Q t → StationaryPoint x size S' t := by
    rintro t ⟨i, hi, h1, h2, h3⟩
    refine ⟨?_, i, hi, h1, h2, ?_⟩
    · rw [hQ i hi t h1 h2]
      rcases h3 with h | h
      · exact h.2
      · rw [h.1, Polynomial.eval_zero]
    · rcases h3 with h | h
      · right
        by_contra hne
        push Not at hne
        apply h.1
        refine poly_zero_on (hg i (i + 1) (by omega) hi) ?_
        intro u u1 u2
        rw [← hQ i hi u u1 u2]; exact hne u u1 u2
      · exact Or.inl h.2
  obtain ⟨R, σ, r1, r2, r3, r4⟩ := C77_extrema x size hg hs S S' Q hc hd hQ rootFnc hr x1 x2 a b ha hb hl
    (fun s t h1 h2 => hsep s t (h1.imp id (st s)) (h2.imp id (st t)))
  exact ⟨R, r1, r2, ⟨σ, r3⟩, r4⟩

/-- C77 for CubicSpline::extrema, any values and slopes at the nodes. -/
theorem C77_cubic (x f d : ℕ → ℝ) (size : ℕ) (hg : Grid x size) (hs : 2 ≤ size) (x1 x2 : Option ℝ) (a b : ℝ) (ha : a = max (lower x x1 x2) (x 0))
    (hb : b = min (upper x size x1 x2) (x (size - 1))) (hl : a < b) :
    ∃ S : ℝ → Jet3, (∀ t, CubicSpline.evalDeriv x f d size t = some (S t)) ∧
      ((∀ s t, (s = a ∨ StationaryPoint x size (fun t => (S t).der) s) → (t = b ∨ StationaryPoint x size (fun t => (S t).der) t) → a ≤ s → s < t → t ≤ b → isLarger t s) →
      ∃ R, findExtrema x size (fun t => (S t).val) (rootsCubicDeriv x f d) x1 x2 = some R ∧ ExtremaOf (fun t => (S t).val) a b R) := by
  obtain ⟨S, hS, hI⟩ := C69_cubic x f d size hg (by omega)
  obtain ⟨S', hS', hp⟩ := getS (cubic_piece hg (by omega) f d)
  obtain rfl : S = S' := by
    funext t
    have := hS t
    rw [hS' t] at this
    exact (Option.some.inj this).symm
  have ad : ∀ t, ∀ i < size, t = x i → (cubicPiece x f d size i t).der = (cubicPiece x f d size (i + 1) t).der := by
    rintro t i hi rfl; have := cubic_node hg f d hi; rw [this.2.1, this.2.2.2]
  refine ⟨S, hS, fun hsep => ?_⟩
  set a3 : ℕ → ℝ := fun i => (d i + d (i + 1) - 2 * (f (i + 1) - f i) / (x (i + 1) - x i)) / (x (i + 1) - x i) ^ 2 with ha3
  set b3 : ℕ → ℝ := fun i => (3 * (f (i + 1) - f i) / (x (i + 1) - x i) - 2 * d i - d (i + 1)) / (x (i + 1) - x i) with hb3
  set Q : ℕ → Polynomial ℝ := fun i => C (d i) + C (2 * b3 i) * (Polynomial.X - C (x i)) + C (3 * a3 i) * (Polynomial.X - C (x i)) ^ 2 with hQ
  have qe : ∀ i s, (Q i).eval (x i + s) = 3 * a3 i * s ^ 2 + 2 * b3 i * s + d i := by
    intro i s; rw [hQ]; simp; ring
  refine extremaOf hg hs (S' := fun t => (S t).der) (Q := Q) (fun t _ => (hI.deriv t).continuousAt.continuousWithinAt) (fun t _ _ => hI.deriv t) ?_ ?_ ha hb hl hsep
  · intro i hi t h1 h2
    rw [agree hg hp Jet3.der (ad t) (k := i + 1) ⟨by omega, fun _ => h1, fun _ => h2⟩, cubicPiece, if_neg (by omega), if_neg (by omega), Nat.add_sub_cancel,
      cubic_poly _ _ _ _ _ _ _ (hg i (i + 1) (by omega) hi).ne, show t = x i + (t - x i) by ring, qe]
    simp only [ha3, hb3]
    ring_nf
  · intro i hi
    have rf : rootsCubicDeriv x f d i = Verif.Core.solveQuadratic (3 * a3 i) (2 * b3 i) (d i) := rfl
    rw [rf, Polynomial.C_0]
    constructor
    · intro h
      have e : ∀ s, 3 * a3 i * s ^ 2 + 2 * b3 i * s + d i = 0 := by intro s; rw [← qe, h, Polynomial.eval_zero]
      have e0 := e 0; have e1 := e 1; have e2 := e (-1)
      rw [show 3 * a3 i = 0 by linarith, show 2 * b3 i = 0 by linarith, show d i = 0 by linarith]
      norm_num [Verif.Core.solveQuadratic, Verif.Core.solveLinear]
    · intro h
      have := Verif.Core.C15_quadratic (3 * a3 i) (2 * b3 i) (d i) (by
        by_contra hc
        push Not at hc
        apply h
        rw [hQ]
        simp only
        rw [hc.1, hc.2.1, hc.2.2]; simp)
      refine ⟨this.1, fun s => ?_⟩
      rw [this.2, qe]

/-- C77 for QuinticSpline::extrema, any values and derivatives at the nodes, provided that the equations for the zeros of the derivative on all segments
are among those for which the quartic solver is exact (C78). -/
theorem C77_quintic (eps seps : ℝ) (he : 0 ≤ eps)
    (x f d d2 : ℕ → ℝ) (size : ℕ) (hg : Grid x size) (hs : 2 ≤ size) (x1 x2 : Option ℝ) (a b : ℝ) (ha : a = max (lower x x1 x2) (x 0))
    (hb : b = min (upper x size x1 x2) (x (size - 1))) (hl : a < b)
    (hreg : ∀ i, i + 1 < size →
      let h := x (i + 1) - x i
      let Δ := f (i + 1) - f i
      Verif.Core.SolverRegular eps (5 / 2 * (d2 (i + 1) - d2 i) * h - 15 * (d i + d (i + 1)) + 30 * Δ / h)
        ((6 * d2 i - 4 * d2 (i + 1)) * h ^ 2 + (32 * d i + 28 * d (i + 1)) * h - 60 * Δ)
        ((3 / 2 * d2 (i + 1) - 9 / 2 * d2 i) * h ^ 3 - (18 * d i + 12 * d (i + 1)) * h ^ 2 + 30 * Δ * h) (d2 i * h ^ 4) (d i * h ^ 4)) :
    ∃ S : ℝ → Jet3, (∀ t, QuinticSpline.evalDeriv x f d d2 size t = some (S t)) ∧
      ((∀ s t, (s = a ∨ StationaryPoint x size (fun t => (S t).der) s) → (t = b ∨ StationaryPoint x size (fun t => (S t).der) t) → a ≤ s → s < t → t ≤ b → isLarger t s) →
      ∃ R, findExtrema x size (fun t => (S t).val) (rootsQuinticDeriv eps seps x f d d2) x1 x2 = some R ∧ ExtremaOf (fun t => (S t).val) a b R) := by
  obtain ⟨S, hS, hI, _⟩ := C69_quintic x f d d2 size hg (by omega)
  obtain ⟨S', hS', hp⟩ := getS (quintic_piece hg (by omega) f d d2)
  obtain rfl : S = S' := by
    funext t
    have := hS t
    rw [hS' t] at this
    exact (Option.some.inj this).symm
  have ad : ∀ t, ∀ i < size, t = x i → (quinticPiece x f d d2 size i t).der = (quinticPiece x f d d2 size (i + 1) t).der := by
    rintro t i hi rfl; have := quintic_node hg f d d2 hi; rw [this.1.2.1, this.2.2.1]
  refine ⟨S, hS, fun hsep => ?_⟩
  set H : ℕ → ℝ := fun i => x (i + 1) - x i with hH
  set cA : ℕ → ℝ := fun i => 2.5 * (d2 (i + 1) - d2 i) * H i - 15 * (d (i + 1) + d i) + 30 * (f (i + 1) - f i) / H i with hcA
  set cB : ℕ → ℝ := fun i => ((6 * d2 i - 4 * d2 (i + 1)) * H i + 32 * d i + 28 * d (i + 1)) * H i - 60 * (f (i + 1) - f i) with hcB
  set cC : ℕ → ℝ := fun i => (((1.5 * d2 (i + 1) - 4.5 * d2 i) * H i - 18 * d i - 12 * d (i + 1)) * H i + 30 * (f (i + 1) - f i)) * H i with hcC
  set cD : ℕ → ℝ := fun i => d2 i * (H i ^ 2) ^ 2 with hcD
  set cE : ℕ → ℝ := fun i => d i * (H i ^ 2) ^ 2 with hcE
  set Q : ℕ → Polynomial ℝ := fun i => C ((H i ^ 2) ^ 2)⁻¹ * (C (cE i) + C (cD i) * (Polynomial.X - C (x i)) + C (cC i) * (Polynomial.X - C (x i)) ^ 2 +
    C (cB i) * (Polynomial.X - C (x i)) ^ 3 + C (cA i) * (Polynomial.X - C (x i)) ^ 4) with hQ
  have qe : ∀ i s, (Q i).eval (x i + s) = ((H i ^ 2) ^ 2)⁻¹ * (cA i * s ^ 4 + cB i * s ^ 3 + cC i * s ^ 2 + cD i * s + cE i) := by
    intro i s
    rw [hQ]
    simp only [Polynomial.eval_mul, Polynomial.eval_add, Polynomial.eval_sub, Polynomial.eval_pow, Polynomial.eval_C, Polynomial.eval_X, add_sub_cancel_left]
    congr 1
    ring
  refine extremaOf hg hs (S' := fun t => (S t).der) (Q := Q) (fun t _ => (hI.deriv t).continuousAt.continuousWithinAt) (fun t _ _ => hI.deriv t) ?_ ?_ ha hb hl hsep
  · intro i hi t h1 h2
    have hne : x i ≠ x (i + 1) := (hg i (i + 1) (by omega) hi).ne
    have hh : H i ≠ 0 := sub_ne_zero.2 hne.symm
    rw [agree hg hp Jet3.der (ad t) (k := i + 1) ⟨by omega, fun _ => h1, fun _ => h2⟩, quinticPiece, if_neg (by omega), if_neg (by omega), Nat.add_sub_cancel,
      quintic_poly _ _ _ _ _ _ _ _ _ hne]
    have e : t = x i + (t - x i) := by ring
    conv_rhs => rw [e, qe]
    simp only [hcA, hcB, hcC, hcD, hcE]
    simp only [← show H i = x (i + 1) - x i from rfl]
    generalize H i = h at *
    generalize t - x i = s
    field_simp
    ring
  · intro i hi
    have hne : x i ≠ x (i + 1) := (hg i (i + 1) (by omega) hi).ne
    have hh : H i ≠ 0 := sub_ne_zero.2 hne.symm
    have hh4 : ((H i ^ 2) ^ 2)⁻¹ ≠ 0 := by positivity
    have rf : rootsQuinticDeriv eps seps x f d d2 i = Verif.Core.solveQuartic eps seps (cA i) (cB i) (cC i) (cD i) (cE i) := rfl
    have hreg' : Verif.Core.SolverRegular eps (cA i) (cB i) (cC i) (cD i) (cE i) := by
      have := hreg i hi
      simp only at this
      convert this using 1 <;> simp only [hcA, hcB, hcC, hcD, hcE, hH] <;> ring
    obtain ⟨hsol, hsol0⟩ := Verif.Core.C78_all eps seps (cA i) (cB i) (cC i) (cD i) (cE i) he hreg'
    have qz : ∀ s, (Q i).eval (x i + s) = 0 ↔ cA i * s ^ 4 + cB i * s ^ 3 + cC i * s ^ 2 + cD i * s + cE i = 0 := by
      intro s; rw [qe, mul_eq_zero]; simp [hh4]
    rw [rf, Polynomial.C_0]
    constructor
    · intro h
      have e : ∀ s, cA i * s ^ 4 + cB i * s ^ 3 + cC i * s ^ 2 + cD i * s + cE i = 0 := by intro s; rw [← qz, h, Polynomial.eval_zero]
      have e0 := e 0; have e1 := e 1; have e2 := e (-1); have e3 := e 2; have e4 := e (-2)
      norm_num at e0 e1 e2 e3 e4
      have zA : cA i = 0 := by linarith
      have zB : cB i = 0 := by linarith
      have zC : cC i = 0 := by linarith
      have zD : cD i = 0 := by linarith
      rw [zA, zB, zC, zD, e0, hsol0]
    · intro h
      have := hsol (by
        rintro ⟨z1, z2, z3, z4, z5⟩
        apply h
        rw [hQ]
        simp only
        rw [z1, z2, z3, z4, z5]; simp)
      refine ⟨this.1, fun s => ?_⟩
      rw [this.2, qz]

/-- C77 for B-splines of degree 2 and 3, any amplitudes. -/
theorem C77_bspline (N : ℕ) (hN : N = 2 ∨ N = 3) (eps seps : ℝ) (he : 0 ≤ eps) (x ampl : ℕ → ℝ) (size : ℕ) (hg : Grid x size) (hs : 2 ≤ size) (x1 x2 : Option ℝ) (a b : ℝ)
    (ha : a = max (lower x x1 x2) (x 0)) (hb : b = min (upper x size x1 x2) (x (size - 1))) (hl : a < b) :
    ∃ S : ℕ → ℝ → ℝ, (∀ t d, x 0 ≤ t → t ≤ x (size - 1) → BsplineWrapper.evalDeriv N d x ampl size t = some (S d t)) ∧
      ((∀ s t, (s = a ∨ StationaryPoint x size (S 1) s) → (t = b ∨ StationaryPoint x size (S 1) t) → a ≤ s → s < t → t ≤ b → isLarger t s) →
      ∃ R, findExtrema x size (S 0) (rootsBspline N 1 eps seps x ampl size 0) x1 x2 = some R ∧ ExtremaOf (S 0) a b R) := by
  obtain ⟨_, S, P, hS, _, _, hcont, hder, _⟩ := C76_bspline N x ampl size hg hs
  refine ⟨S, hS, fun hsep => ?_⟩
  have hE := rootsBspline_exact N 1 (by omega) (by omega) eps seps he x ampl size hg 0 (by intro h; omega)
  refine extremaOf hg hs (S' := S 1) (Q := fun i => derivative^[1] (segPoly N x ampl size i)) (fun t _ => (hcont 0 t (by omega)).continuousWithinAt)
    (fun t _ _ => hder 0 t (by omega)) ?_ hE ha hb hl hsep
  intro i hi t h1 h2
  have l1 := Grid.le hg (show 0 ≤ i by omega) (by omega)
  have l2 := Grid.le hg (show i + 1 ≤ size - 1 by omega) (by omega)
  obtain ⟨k, k1, k2, k3, _, k5⟩ := (eval_cases hg hs N 1 (by omega) ampl t).2 (by linarith) (by linarith)
  rw [hS t 1 (by linarith) (by linarith)] at k5
  rw [Option.some.inj k5]
  rcases Nat.lt_trichotomy k i with h | h | h
  · have : x (k + 1) ≤ x i := Grid.le hg (by omega) (by omega)
    have e : t = x i := le_antisymm (by linarith) h1
    have hk : i = k + 1 := by
      by_contra hne
      have := hg (k + 1) i (by omega) (by omega)
      linarith
    have := segPoly_node hg (show k + 2 < size by omega) N 1 (by omega) ampl
    rw [e, hk]; exact this
  · rw [h]
  · have : x (i + 1) ≤ x k := Grid.le hg (by omega) (by omega)
    have e : t = x k := le_antisymm (by linarith) k2
    have hk : k = i + 1 := by
      by_contra hne
      have := hg (i + 1) k (by omega) (by omega)
      linarith
    have := segPoly_node hg (show i + 2 < size by omega) N 1 (by omega) ampl
    rw [e, hk]; exact this.symm

end
end Verif.Spline
