import Verif.Core.Cubic
import Verif.Spline.IntegrateF

/-! C75: points where an interpolator attains a given value (`findRoots<false>`, /repo/src/math_spline.cpp:393-396, 933-1013).
Exact real arithmetic; `none` for a limit stands for NaN, `none` as the result for a failed assertion (assertions are enabled
in the default build). -/
namespace Verif.Spline

open Verif.BSpline (Grid)

noncomputable section

/-! ## Model -/

/-- math_spline.cpp:393-396 with the default tolerance -/
def isLarger (x1 x2 : ℝ) : Prop := x1 ≥ x2 + max |x1| |x2| * (10 * dblEps)

/-- math_spline.cpp:942-944: the limits are swapped if needed and restricted to the grid (fmax and fmin ignore a NaN). -/
def clipLimits (x : ℕ → ℝ) (size : ℕ) (x1 x2 : Option ℝ) : ℝ × ℝ :=
  match x1, x2 with
  | some u, some v => if u > v then (max v (x 0), min u (x (size - 1))) else (max u (x 0), min v (x (size - 1)))
  | some u, none => (max u (x 0), x (size - 1))
  | none, some v => (x 0, min v (x (size - 1)))
  | none, none => (x 0, x (size - 1))

open Classical in
/-- math_spline.cpp:972-989, one root (EXTREMA=false) -/
def rootsStep (t1 t2 : ℝ) (result : List ℝ) (r : ℝ) : List ℝ :=
  if r ≥ t1 ∧ r ≤ t2 ∧ (∀ last, result.getLast? = some last → isLarger r last) then result ++ [r] else result

/-- math_spline.cpp:933-993 (EXTREMA=false) -/
def findRoots (x : ℕ → ℝ) (size : ℕ) (rootFnc : ℕ → List ℝ) (x1 x2 : Option ℝ) : Option (List ℝ) :=
  if size = 0 then some [] else
  let lim := clipLimits x size x1 x2
  if lim.1 = lim.2 then some [] else
  let i1 := bin x size lim.1
  let i2 := bin x size lim.2
  if 0 ≤ i1 ∧ i1 ≤ i2 ∧ i2 ≤ (size : ℤ) - 2 then
    some ((List.range' i1.toNat (i2 - i1 + 1).toNat).foldl (fun result i =>
      let t1 := max lim.1 (x i)
      let t2 := min lim.2 (x (i + 1))
      ((rootFnc i).map (fun r => r + x i)).foldl (rootsStep t1 t2) result) [])
  else none

/-- math_spline.cpp:1010-1025: `RootsCubicSpline<0>` -/
def rootsCubic (eps seps : ℝ) (x f d : ℕ → ℝ) (y : ℝ) (i : ℕ) : List ℝ :=
  let dx := x (i + 1) - x i
  let dy := f (i + 1) - f i
  let dl := d i
  let dh := d (i + 1)
  let a := (dl + dh - 2 * dy / dx) / dx ^ 2
  let b := (3 * dy / dx - 2 * dl - dh) / dx
  let c := dl
  Verif.Core.solveCubic eps seps a b c (f i - y)

/-! ## Removal of repeated roots -/

open Classical in
/-- Append if sufficiently larger than the last. -/
def push (R : List ℝ) (r : ℝ) : List ℝ := if ∀ last, R.getLast? = some last → isLarger r last then R ++ [r] else R

theorem rootsStep_fold (t1 t2 : ℝ) (L R : List ℝ) :
    L.foldl (rootsStep t1 t2) R = (L.filter (fun r => decide (t1 ≤ r ∧ r ≤ t2))).foldl push R := by
  induction L generalizing R with
  | nil => rfl
  | cons a L ih =>
    rw [List.foldl_cons, ih, List.filter_cons]
    by_cases h : t1 ≤ a ∧ a ≤ t2
    · rw [if_pos (by simpa using h), List.foldl_cons]
      congr 1
      rw [rootsStep, push]
      congr 1
      exact propext ⟨fun h' => h'.2.2, fun h' => ⟨h.1, h.2, h'⟩⟩
    · rw [if_neg (by simpa using h), rootsStep, if_neg (fun h' => h ⟨h'.1, h'.2.1⟩)]

theorem eps_pos : 0 < dblEps := by rw [dblEps]; positivity

theorem isLarger_cases {r s : ℝ} (h : isLarger s r) : r < s ∨ (r = 0 ∧ s = 0) := by
  rw [isLarger] at h
  have hm : 0 ≤ max |s| |r| := (abs_nonneg _).trans (le_max_left _ _)
  rcases hm.lt_or_eq with hp | h0
  · left
    have := mul_pos hp (show 0 < 10 * dblEps by linarith [eps_pos])
    linarith
  · right
    have a := le_max_left |s| |r|
    have b := le_max_right |s| |r|
    rw [← h0] at a b
    exact ⟨abs_eq_zero.1 (le_antisymm b (abs_nonneg _)), abs_eq_zero.1 (le_antisymm a (abs_nonneg _))⟩

/-- Increasing, but zero may be repeated. -/
def Increasing0 (R : List ℝ) : Prop := R.Pairwise fun r s => r < s ∨ (r = 0 ∧ s = 0)

theorem push_spec (L : List ℝ) : ∀ R : List ℝ, L.Pairwise (· ≤ ·) → (∀ r ∈ R, ∀ t ∈ L, r ≤ t) → Increasing0 R →
    R <+: L.foldl push R ∧ (∀ q ∈ L.foldl push R, q ∈ R ∨ q ∈ L) ∧ Increasing0 (L.foldl push R) ∧
    ∀ t ∈ L, ∃ r ∈ L.foldl push R, r ≤ t ∧ (r = t ∨ ¬ isLarger t r) := by
  induction L with
  | nil => intro R _ _ h; exact ⟨List.prefix_rfl, fun q hq => Or.inl hq, h, by simp⟩
  | cons a L ih =>
    intro R hL hRL hR
    rw [List.foldl_cons]
    have hLt := (List.pairwise_cons.1 hL).2
    have haL := (List.pairwise_cons.1 hL).1
    by_cases hp : ∀ last, R.getLast? = some last → isLarger a last
    · have e : push R a = R ++ [a] := by rw [push, if_pos hp]
      rw [e]
      have hR' : Increasing0 (R ++ [a]) := by
        rw [Increasing0, List.pairwise_append]
        refine ⟨hR, List.pairwise_singleton _ _, ?_⟩
        intro q hq b hb
        obtain rfl : b = a := by simpa using hb
        obtain ⟨pre, last, rfl⟩ : ∃ pre last, R = pre ++ [last] := by
          refine ⟨R.dropLast, R.getLast (List.ne_nil_of_mem hq), (List.dropLast_append_getLast _).symm⟩
        have hl := hp last (by simp)
        have hql : q = last ∨ (q < last ∨ (q = 0 ∧ last = 0)) := by
          rw [Increasing0, List.pairwise_append] at hR
          rcases List.mem_append.1 hq with h | h
          · exact Or.inr (hR.2.2 q h last (by simp))
          · left; simpa using h
        rcases isLarger_cases hl with h | ⟨h1, h2⟩
        · rcases hql with rfl | h' | ⟨h3, h4⟩
          · exact Or.inl h
          · exact Or.inl (h'.trans h)
          · left; rw [h3]; rw [h4] at h; exact h
        · rcases hql with rfl | h' | ⟨h3, h4⟩
          · exact Or.inr ⟨h1, h2⟩
          · left; rw [h2]; rw [h1] at h'; exact h'
          · exact Or.inr ⟨h3, h2⟩
      obtain ⟨c1, c2, c3, c4⟩ := ih (R ++ [a]) hLt (by
        intro r hr t ht
        rcases List.mem_append.1 hr with h | h
        · exact hRL r h t (List.mem_cons_of_mem _ ht)
        · rw [show r = a by simpa using h]; exact haL t ht) hR'
      refine ⟨(List.prefix_append _ _).trans c1, ?_, c3, ?_⟩
      · intro q hq
        rcases c2 q hq with h | h
        · rcases List.mem_append.1 h with h | h
          · exact Or.inl h
          · right; rw [show q = a by simpa using h]; exact List.mem_cons_self
        · exact Or.inr (List.mem_cons_of_mem _ h)
      · intro t ht
        rcases List.mem_cons.1 ht with rfl | h
        · exact ⟨t, c1.subset (by simp), le_rfl, Or.inl rfl⟩
        · exact c4 t h
    · have e : push R a = R := by rw [push, if_neg hp]
      rw [e]
      obtain ⟨c1, c2, c3, c4⟩ := ih R hLt (fun r hr t ht => hRL r hr t (List.mem_cons_of_mem _ ht)) hR
      refine ⟨c1, fun q hq => (c2 q hq).imp id (List.mem_cons_of_mem _), c3, ?_⟩
      intro t ht
      rcases List.mem_cons.1 ht with rfl | h
      · push Not at hp
        obtain ⟨last, h1, h2⟩ := hp
        have hm := List.mem_of_getLast? h1
        exact ⟨last, c1.subset hm, hRL last hm t List.mem_cons_self, Or.inr h2⟩
      · exact c4 t h

/-! ## The limits and the segments -/

/-- A limit which is not given means the end of the grid. -/
def lower (x : ℕ → ℝ) (x1 x2 : Option ℝ) : ℝ := match x1, x2 with | some u, some v => min u v | some u, none => u | none, some _ => x 0 | none, none => x 0
def upper (x : ℕ → ℝ) (size : ℕ) (x1 x2 : Option ℝ) : ℝ :=
  match x1, x2 with | some u, some v => max u v | some _, none => x (size - 1) | none, some v => v | none, none => x (size - 1)

theorem clipLimits_eq (x : ℕ → ℝ) (size : ℕ) (x1 x2 : Option ℝ) :
    clipLimits x size x1 x2 = (max (lower x x1 x2) (x 0), min (upper x size x1 x2) (x (size - 1))) := by
  cases x1 <;> cases x2 <;> simp only [clipLimits, lower, upper, max_self, min_self]
  rename_i u v
  split_ifs with h
  · rw [min_eq_right h.le, max_eq_left h.le]
  · rw [min_eq_left (not_lt.1 h), max_eq_right (not_lt.1 h)]

theorem bin_inside {x : ℕ → ℝ} {size : ℕ} (hg : Grid x size) (hs : 2 ≤ size) {a : ℝ} (ha : x 0 ≤ a) (hb : a ≤ x (size - 1)) :
    ∃ i : ℕ, bin x size a = i ∧ i + 1 < size ∧ x i ≤ a ∧ a ≤ x (i + 1) ∧ (a = x (i + 1) → i + 2 = size) := by
  rcases bin_cases hg (by omega) a with ⟨h, _⟩ | ⟨h, _⟩ | ⟨h1, h2, _⟩ | ⟨k, hk, h1, h2, h3, hb'⟩
  · linarith
  · linarith
  · omega
  · exact ⟨k, hb', hk, h1, h2, h3⟩

theorem index_mono {x : ℕ → ℝ} {size : ℕ} (hg : Grid x size) {i j : ℕ} (hi : i < size) (_hj : j < size) (h : x i < x j) : i < j := by
  by_contra hc
  have := Grid.le hg (not_lt.1 hc) hi
  linarith

/-- The segments between two points. -/
theorem segs_spec {x : ℕ → ℝ} {size : ℕ} (hg : Grid x size) (hs : 2 ≤ size) {a b : ℝ} (ha : x 0 ≤ a) (hab : a < b) (hb : b ≤ x (size - 1)) :
    ∃ i1 i2 : ℕ, bin x size a = i1 ∧ bin x size b = i2 ∧ i1 ≤ i2 ∧ i2 + 1 < size ∧
      x i1 ≤ a ∧ a ≤ x (i1 + 1) ∧ x i2 ≤ b ∧ b ≤ x (i2 + 1) ∧
      (∀ t, a ≤ t → t ≤ b → ∀ i, i + 1 < size → x i ≤ t → t ≤ x (i + 1) → (i1 ≤ i ∧ i ≤ i2) ∨ (i + 1 = i1 ∧ t = a) ∨ (i = i2 + 1 ∧ t = b)) := by
  obtain ⟨i1, e1, h1, h2, h3, h4⟩ := bin_inside hg hs ha (hab.le.trans hb)
  obtain ⟨i2, e2, g1, g2, g3, g4⟩ := bin_inside hg hs (ha.trans hab.le) hb
  have le12 : i1 ≤ i2 := by
    have : i1 < i2 + 1 := index_mono hg (by omega) (by omega) (by linarith)
    omega
  refine ⟨i1, i2, e1, e2, le12, g1, h2, h3, g2, g3, ?_⟩
  intro t ta tb i hi t1 t2
  by_cases c1 : i < i1
  · right; left
    have : x (i + 1) ≤ x i1 := Grid.le hg (by omega) (by omega)
    have e : t = a := le_antisymm (by linarith) ta
    refine ⟨?_, e⟩
    by_contra hne
    have : x (i + 1) < x i1 := hg _ _ (by omega) (by omega)
    linarith
  · by_cases c2 : i2 < i
    · right; right
      have : x (i2 + 1) ≤ x i := Grid.le hg (by omega) (by omega)
      have e : t = b := le_antisymm tb (by linarith)
      refine ⟨?_, e⟩
      by_contra hne
      have : x (i2 + 1) < x i := hg _ _ (by omega) (by omega)
      linarith
    · left; omega

/-- A list of the roots of polynomial equations on segments, as returned by an exact solver: on each segment where the polynomial differs from
the constant y, all roots in increasing order (inside or outside of the segment, relative to its left boundary); on other segments,
the left boundary (this is what the solvers of this library do for the identity 0=0). -/
def ExactRoots (x : ℕ → ℝ) (size : ℕ) (P : ℕ → Polynomial ℝ) (y : ℝ) (rootFnc : ℕ → List ℝ) : Prop :=
  ∀ i, i + 1 < size → (P i = Polynomial.C y → rootFnc i = [0]) ∧
    (P i ≠ Polynomial.C y → (rootFnc i).Pairwise (· < ·) ∧ ∀ s, s ∈ rootFnc i ↔ (P i).eval (x i + s) = y)

/-- Nested loops over segments and roots. -/
theorem fold_segments (x : ℕ → ℝ) (a b : ℝ) (rootFnc : ℕ → List ℝ) (l : List ℕ) (R : List ℝ) :
    l.foldl (fun result i => ((rootFnc i).map (fun r => r + x i)).foldl (rootsStep (max a (x i)) (min b (x (i + 1)))) result) R =
      (l.flatMap fun i => ((rootFnc i).map (fun r => r + x i)).filter (fun r => decide (max a (x i) ≤ r ∧ r ≤ min b (x (i + 1))))).foldl push R := by
  induction l generalizing R with
  | nil => rfl
  | cons i l ih => rw [List.foldl_cons, ih, rootsStep_fold, List.flatMap_cons, List.foldl_append]

theorem candidates_sorted {x : ℕ → ℝ} {size : ℕ} (hg : Grid x size) {P : ℕ → Polynomial ℝ} {y : ℝ} {rootFnc : ℕ → List ℝ}
    (hr : ExactRoots x size P y rootFnc) (a b : ℝ) (i1 m : ℕ) (hm : i1 + m < size) :
    ((List.range' i1 m).flatMap fun i => ((rootFnc i).map (fun r => r + x i)).filter (fun r => decide (max a (x i) ≤ r ∧ r ≤ min b (x (i + 1))))).Pairwise (· ≤ ·) := by
  rw [List.pairwise_flatMap]
  constructor
  · intro i hi
    rw [List.mem_range'_1] at hi
    apply List.Pairwise.filter
    obtain ⟨h1, h2⟩ := hr i (by omega)
    by_cases hP : P i = Polynomial.C y
    · rw [h1 hP]; simp
    · exact List.Pairwise.map _ (fun u v h => by linarith) (h2 hP).1
  · refine (List.pairwise_lt_range' (s := i1) (n := m) (step := 1)).imp_of_mem ?_
    intro i j hi hj hij u hu v hv
    rw [List.mem_range'_1] at hi hj
    have hu := (List.mem_filter.1 hu).2
    have hv := (List.mem_filter.1 hv).2
    simp only [decide_eq_true_eq] at hu hv
    have h1 : u ≤ x (i + 1) := hu.2.trans (min_le_right _ _)
    have h2 : x j ≤ v := (le_max_right _ _).trans hv.1
    have := Grid.le hg (show i + 1 ≤ j by omega) (by omega)
    linarith

/-- C75: for every piecewise-polynomial interpolator, every value y and every choice of limits (in any order, given or not) whose
interval overlaps with the grid, and with an exact solver for the polynomial equations on segments: the routine succeeds, all returned points lie
within the limits and within the grid, and S has the value y there; they are increasing (except that zero may be repeated); every point t
with S(t)=y within the limits is returned, or is within the tolerance from a returned smaller one (unless S is identically equal to y on
a segment containing t). -/
theorem C75_roots (x : ℕ → ℝ) (size : ℕ) (hg : Grid x size) (hs : 2 ≤ size) (S : ℝ → ℝ) (P : ℕ → Polynomial ℝ)
    (hP : ∀ i, i + 1 < size → ∀ t, x i ≤ t → t ≤ x (i + 1) → S t = (P i).eval t) (y : ℝ) (rootFnc : ℕ → List ℝ) (hr : ExactRoots x size P y rootFnc)
    (x1 x2 : Option ℝ) (hl : max (lower x x1 x2) (x 0) < min (upper x size x1 x2) (x (size - 1))) :
    ∃ R, findRoots x size rootFnc x1 x2 = some R ∧ Increasing0 R ∧
      (∀ r ∈ R, lower x x1 x2 ≤ r ∧ r ≤ upper x size x1 x2 ∧ x 0 ≤ r ∧ r ≤ x (size - 1) ∧ S r = y) ∧
      ∀ t, lower x x1 x2 ≤ t → t ≤ upper x size x1 x2 → x 0 ≤ t → t ≤ x (size - 1) → S t = y →
        (∀ i, i + 1 < size → x i ≤ t → t ≤ x (i + 1) → P i ≠ Polynomial.C y) →
        ∃ r ∈ R, r ≤ t ∧ (r = t ∨ ¬ isLarger t r) := by
  rw [findRoots, if_neg (by omega)]
  simp only [clipLimits_eq]
  set a := max (lower x x1 x2) (x 0) with ha
  set b := min (upper x size x1 x2) (x (size - 1)) with hb
  have ha0 : x 0 ≤ a := le_max_right _ _
  have hb0 : b ≤ x (size - 1) := min_le_right _ _
  obtain ⟨i1, i2, e1, e2, h12, h2, a1, a2, b1, b2, seg⟩ := segs_spec hg hs ha0 hl hb0
  rw [if_neg hl.ne, e1, e2, if_pos ⟨by omega, by omega, by omega⟩, Int.toNat_natCast, show ((i2 : ℤ) - i1 + 1).toNat = i2 + 1 - i1 by omega]
  rw [fold_segments]
  set L := (List.range' i1 (i2 + 1 - i1)).flatMap fun i =>
    ((rootFnc i).map (fun r => r + x i)).filter (fun r => decide (max a (x i) ≤ r ∧ r ≤ min b (x (i + 1)))) with hL
  have hsort : L.Pairwise (· ≤ ·) := candidates_sorted hg hr a b i1 _ (by omega)
  obtain ⟨_, c2, c3, c4⟩ := push_spec L [] hsort (by simp) List.Pairwise.nil
  refine ⟨_, rfl, c3, ?_, ?_⟩
  · intro r hrR
    have hrL := (c2 r hrR).resolve_left (by simp)
    rw [hL, List.mem_flatMap] at hrL
    obtain ⟨i, hi, hri⟩ := hrL
    rw [List.mem_range'_1] at hi
    obtain ⟨hm, hin⟩ := List.mem_filter.1 hri
    simp only [decide_eq_true_eq] at hin
    obtain ⟨s, hs1, rfl⟩ := List.mem_map.1 hm
    have u1 : a ≤ s + x i := (le_max_left _ _).trans hin.1
    have u2 : s + x i ≤ b := hin.2.trans (min_le_left _ _)
    have u3 : x i ≤ s + x i := (le_max_right _ _).trans hin.1
    have u4 : s + x i ≤ x (i + 1) := hin.2.trans (min_le_right _ _)
    obtain ⟨g1, g2⟩ := hr i (by omega)
    refine ⟨(le_max_left _ _).trans u1, u2.trans (min_le_left _ _), ha0.trans u1, u2.trans hb0, ?_⟩
    rw [hP i (by omega) _ u3 u4, add_comm]
    by_cases hPi : P i = Polynomial.C y
    · rw [hPi, Polynomial.eval_C]
    · exact ((g2 hPi).2 s).1 hs1
  · intro t t1 t2 t3 t4 ht hne
    have ta : a ≤ t := max_le t1 t3
    have tb : t ≤ b := le_min t2 t4
    -- the point belongs to one of the segments of the loop
    have hex : ∃ i, i1 ≤ i ∧ i ≤ i2 ∧ x i ≤ t ∧ t ≤ x (i + 1) := by
      obtain ⟨i, _, k1, k2, k3, _⟩ := bin_inside hg hs t3 t4
      rcases seg t ta tb i k1 k2 k3 with h | ⟨h, e⟩ | ⟨h, e⟩
      · exact ⟨i, h.1, h.2, k2, k3⟩
      · exact ⟨i1, le_rfl, h12, by rw [e]; exact a1, by rw [e]; exact a2⟩
      · exact ⟨i2, h12, le_rfl, by rw [e]; exact b1, by rw [e]; exact b2⟩
    obtain ⟨i, k1, k2, k3, k4⟩ := hex
    refine c4 t ?_
    rw [hL, List.mem_flatMap]
    refine ⟨i, by rw [List.mem_range'_1]; omega, ?_⟩
    rw [List.mem_filter]
    refine ⟨?_, by simp only [decide_eq_true_eq]; exact ⟨max_le ta k3, le_min tb k4⟩⟩
    rw [List.mem_map]
    refine ⟨t - x i, ?_, by ring⟩
    rw [((hr i (by omega)).2 (hne i (by omega) k3 k4)).2]
    rw [show x i + (t - x i) = t by ring, ← hP i (by omega) t k3 k4, ht]

/-- C75: the polynomial whose roots are sought by `CubicSpline::roots` on a segment is the spline itself; hence the list of roots is exact (if
the discriminants of these polynomials are zero or larger than the tolerance of `solveCubic`, cf. C44). -/
theorem C75_cubic_exact (eps seps : ℝ) (he : 0 ≤ eps) (x f d : ℕ → ℝ) (size : ℕ) (hg : Grid x size) (y : ℝ) :
    ∃ P : ℕ → Polynomial ℝ, (∀ i, i + 1 < size → ∀ t, (P i).eval t = (evalCubic t (x i) (x (i + 1)) (f i) (f (i + 1)) (d i) (d (i + 1))).val) ∧
      ((∀ i, i + 1 < size →
        let h := x (i + 1) - x i
        let a3 := (d i + d (i + 1) - 2 * (f (i + 1) - f i) / h) / h ^ 2
        let a2 := (3 * (f (i + 1) - f i) / h - 2 * d i - d (i + 1)) / h
        let s := -(1/3) * a2 * (1 / a3)
        let Q := 1/3 * d i * (1 / a3) - s ^ 2
        let R := s ^ 3 - 0.5 * (s * d i + (f i - y)) * (1 / a3)
        a3 ≠ 0 → Q ^ 3 + R ^ 2 = 0 ∨ 2 * eps * R ^ 2 < |Q ^ 3 + R ^ 2|) → ExactRoots x size P y (rootsCubic eps seps x f d y)) := by
  have ex : ∀ i, ∃ p : Polynomial ℝ, i + 1 < size → p = Polynomial.C (f i) + Polynomial.C (d i) * (Polynomial.X - Polynomial.C (x i)) +
      Polynomial.C ((3 * (f (i + 1) - f i) / (x (i + 1) - x i) - 2 * d i - d (i + 1)) / (x (i + 1) - x i)) * (Polynomial.X - Polynomial.C (x i)) ^ 2 +
      Polynomial.C ((d i + d (i + 1) - 2 * (f (i + 1) - f i) / (x (i + 1) - x i)) / (x (i + 1) - x i) ^ 2) * (Polynomial.X - Polynomial.C (x i)) ^ 3 :=
    fun i => ⟨_, fun _ => rfl⟩
  choose P hP using ex
  refine ⟨P, ?_, ?_⟩
  · intro i hi t
    rw [hP i hi, cubic_poly _ _ _ _ _ _ _ (hg _ _ (by omega) hi).ne]
    simp
  · intro hd i hi
    have hdi := hd i hi
    simp only [rootsCubic]
    rw [hP i hi]
    simp only at hdi
    generalize (3 * (f (i + 1) - f i) / (x (i + 1) - x i) - 2 * d i - d (i + 1)) / (x (i + 1) - x i) = a2 at *
    generalize (d i + d (i + 1) - 2 * (f (i + 1) - f i) / (x (i + 1) - x i)) / (x (i + 1) - x i) ^ 2 = a3 at *
    set q : Polynomial ℝ := Polynomial.C (f i) + Polynomial.C (d i) * (Polynomial.X - Polynomial.C (x i)) +
      Polynomial.C a2 * (Polynomial.X - Polynomial.C (x i)) ^ 2 + Polynomial.C a3 * (Polynomial.X - Polynomial.C (x i)) ^ 3 with hq
    have qe : ∀ s, q.eval (x i + s) = a3 * s ^ 3 + a2 * s ^ 2 + d i * s + f i := by
      intro s; rw [hq]; simp; ring
    constructor
    · intro h
      have e : ∀ s, a3 * s ^ 3 + a2 * s ^ 2 + d i * s + f i = y := by intro s; rw [← qe, h, Polynomial.eval_C]
      have e0 := e 0; have e1 := e 1; have e2 := e (-1); have e3 := e 2
      norm_num at e0
      have z2 : a2 = 0 := by linarith
      have z3 : a3 = 0 := by linarith
      have z1 : d i = 0 := by linarith
      rw [z3, z2, z1, e0]
      norm_num [Verif.Core.solveCubic, Verif.Core.solveQuadratic, Verif.Core.solveLinear]
    · intro h
      have conv : ∀ s, q.eval (x i + s) = y ↔ a3 * s ^ 3 + a2 * s ^ 2 + d i * s + (f i - y) = 0 := by
        intro s; rw [qe]; constructor <;> intro h <;> linarith
      simp only [conv]
      by_cases h3 : a3 = 0
      · subst h3
        have := Verif.Core.C44_degenerate eps seps a2 (d i) (f i - y) (by
          by_contra hc
          push Not at hc
          apply h
          rw [hq, hc.1, hc.2.1, show f i = y by linarith [hc.2.2]]; simp)
        refine ⟨this.1, fun s => ?_⟩
        rw [this.2]; constructor <;> intro h <;> linarith
      · exact Verif.Core.C44_cubic eps seps a3 a2 (d i) (f i - y) he h3 (hdi h3)

/-- C75 for CubicSpline: the routine applied to the spline. -/
theorem C75_cubic (eps seps : ℝ) (he : 0 ≤ eps) (x f d : ℕ → ℝ) (size : ℕ) (hg : Grid x size) (hs : 2 ≤ size) (y : ℝ)
    (hd : ∀ i, i + 1 < size →
        let h := x (i + 1) - x i
        let a3 := (d i + d (i + 1) - 2 * (f (i + 1) - f i) / h) / h ^ 2
        let a2 := (3 * (f (i + 1) - f i) / h - 2 * d i - d (i + 1)) / h
        let s := -(1/3) * a2 * (1 / a3)
        let Q := 1/3 * d i * (1 / a3) - s ^ 2
        let R := s ^ 3 - 0.5 * (s * d i + (f i - y)) * (1 / a3)
        a3 ≠ 0 → Q ^ 3 + R ^ 2 = 0 ∨ 2 * eps * R ^ 2 < |Q ^ 3 + R ^ 2|)
    (x1 x2 : Option ℝ) (hl : max (lower x x1 x2) (x 0) < min (upper x size x1 x2) (x (size - 1))) :
    ∃ S : ℝ → Jet3, (∀ t, CubicSpline.evalDeriv x f d size t = some (S t)) ∧
    ∃ R, findRoots x size (rootsCubic eps seps x f d y) x1 x2 = some R ∧ Increasing0 R ∧
      (∀ r ∈ R, lower x x1 x2 ≤ r ∧ r ≤ upper x size x1 x2 ∧ x 0 ≤ r ∧ r ≤ x (size - 1) ∧ (S r).val = y) ∧
      ∀ t, lower x x1 x2 ≤ t → t ≤ upper x size x1 x2 → x 0 ≤ t → t ≤ x (size - 1) → (S t).val = y →
        (∀ i, i + 1 < size → x i ≤ t → t ≤ x (i + 1) → ∃ u, x i ≤ u ∧ u ≤ x (i + 1) ∧ (S u).val ≠ y) →
        ∃ r ∈ R, r ≤ t ∧ (r = t ∨ ¬ isLarger t r) := by
  obtain ⟨S', hS', hp⟩ := getS (cubic_piece hg (by omega) f d)
  have av : ∀ t, ∀ i < size, t = x i → (cubicPiece x f d size i t).val = (cubicPiece x f d size (i + 1) t).val := by
    rintro t i hi rfl; have := cubic_node hg f d hi; rw [this.1, this.2.2.1]
  obtain ⟨P, hP, hE⟩ := C75_cubic_exact eps seps he x f d size hg y
  have hSP : ∀ i, i + 1 < size → ∀ t, x i ≤ t → t ≤ x (i + 1) → (S' t).val = (P i).eval t := by
    intro i hi t h1 h2
    rw [hP i hi, agree hg hp Jet3.val (av t) (k := i + 1) ⟨by omega, fun _ => h1, fun _ => h2⟩]
    rw [cubicPiece, if_neg (by omega), if_neg (by omega)]; simp
  obtain ⟨R, r1, r2, r3, r4⟩ := C75_roots x size hg hs (fun t => (S' t).val) P hSP y _ (hE hd) x1 x2 hl
  refine ⟨S', hS', R, r1, r2, r3, ?_⟩
  intro t t1 t2 t3 t4 ht hne
  refine r4 t t1 t2 t3 t4 ht ?_
  intro i hi h1 h2 hc
  obtain ⟨u, u1, u2, u3⟩ := hne i hi h1 h2
  rw [hSP i hi u u1 u2, hc, Polynomial.eval_C] at u3
  exact u3 rfl

/-- C75 fails if the interval does not overlap with the grid: instead of returning an empty list, an assertion fails. Here the grid is 0, 1, 2 and
the interval 5..6 (or -6..-5), whatever the solver. -/
theorem C75_refuted_disjoint (rootFnc : ℕ → List ℝ) :
    findRoots (fun i => i) 3 rootFnc (some 5) (some 6) = none ∧ findRoots (fun i => i) 3 rootFnc (some (-6)) (some (-5)) = none := by
  have hg : Grid (fun i => (i : ℝ)) 3 := fun i j h _ => Nat.cast_lt.2 h
  constructor
  · rw [findRoots, clipLimits_eq]
    norm_num [lower, upper]
    rcases bin_cases hg (by norm_num) 5 with ⟨h, _⟩ | ⟨h, e⟩ | ⟨h1, h2, _⟩ | ⟨k, hk, h1, h2, _⟩
    · norm_num at h
    · rw [e]
      rcases bin_cases hg (by norm_num) 2 with ⟨h, _⟩ | ⟨h, _⟩ | ⟨h1, h2, _⟩ | ⟨k, hk, h1, h2, h3, e'⟩
      · norm_num at h
      · norm_num at h
      · omega
      · rw [e']; intro _ h; push_cast at h; omega
    · omega
    · have : ((k + 1 : ℕ) : ℝ) < (3 : ℕ) := Nat.cast_lt.2 hk
      push_cast at this h2
      linarith
  · rw [findRoots, clipLimits_eq]
    norm_num [lower, upper]
    rcases bin_cases hg (by norm_num) (-5) with ⟨h, e⟩ | ⟨h, e⟩ | ⟨h1, h2, _⟩ | ⟨k, hk, h1, h2, _⟩
    · rw [e]
      intro h1 h2; omega
    · norm_num at h
    · omega
    · have : (0 : ℝ) ≤ k := Nat.cast_nonneg _
      linarith

end
end Verif.Spline
