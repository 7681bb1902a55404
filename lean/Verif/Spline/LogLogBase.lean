import Verif.Spline.LogLog

/-! Lemmas for C111, C112: construction of the doubly-logarithmic spline, bins, gluing. -/
namespace Verif.Spline.LogLog

open Verif.BSpline (Grid)
open Verif.Spline

noncomputable section

theorem grid_log {x : ℕ → ℝ} {n : ℕ} (hg : Grid x n) (hx : ∀ i < n, 0 < x i) : Grid (fun k => Real.log (x k)) n :=
  fun i j hij hj => Real.log_lt_log (hx i (by omega)) (hg i j hij hj)

theorem grid_section {a : ℕ → ℝ} {n i m : ℕ} (hg : Grid a n) (hi : i ≤ n) (hm : m ≤ i) : Grid (section_ a i m) m := by
  intro p q hpq hq
  exact hg (i + p - m) (i + q - m) (by omega) (by omega)

theorem section_full (a : ℕ → ℝ) (n : ℕ) : section_ a n n = a := by
  funext k; simp [section_]

theorem construct_some {x : ℕ → ℝ} {n : ℕ} (hg : Grid x n) (f : ℕ → ℝ) (dl dr : Option ℝ) :
    ∃ d, constructCubicSpline x f n dl dr = some d := by
  by_cases hn : n < 2
  · rw [constructCubicSpline.eq_def, if_pos hn]; exact ⟨_, rfl⟩
  · obtain ⟨s, e, _⟩ := solve_spec hg (by omega) f dl dr
    rw [constructCubicSpline.eq_def, if_neg hn, e]
    exact ⟨_, rfl⟩

theorem bin_log {x : ℕ → ℝ} {n : ℕ} (hg : Grid x n) (hx : ∀ i < n, 0 < x i) (hn : 0 < n) {t : ℝ} (ht : 0 < t) :
    bin (fun k => Real.log (x k)) n (Real.log t) = bin x n t := by
  have le : ∀ i < n, Real.log (x i) ≤ Real.log t → x i ≤ t := fun i hi h => (Real.log_le_log_iff (hx i hi) ht).1 h
  have ge : ∀ i < n, Real.log t ≤ Real.log (x i) → t ≤ x i := fun i hi h => (Real.log_le_log_iff ht (hx i hi)).1 h
  have lt : ∀ i < n, Real.log (x i) < Real.log t → x i < t := fun i hi h => (Real.log_lt_log_iff (hx i hi) ht).1 h
  have gt : ∀ i < n, Real.log t < Real.log (x i) → t < x i := fun i hi h => (Real.log_lt_log_iff ht (hx i hi)).1 h
  have mono : ∀ i j, i ≤ j → j < n → x i ≤ x j := fun i j h hj => by
    rcases h.eq_or_lt with h | h
    · rw [h]
    · exact (hg i j h hj).le
  rcases bin_cases (grid_log hg hx) hn (Real.log t) with ⟨a1, b1⟩ | ⟨a1, b1⟩ | ⟨a0, a1, b1⟩ | ⟨k, k1, k2, k3, k4, b1⟩ <;>
  rcases bin_cases hg hn t with ⟨a2, b2⟩ | ⟨a2, b2⟩ | ⟨a20, a2, b2⟩ | ⟨l, l1, l2, l3, l4, b2⟩ <;> rw [b1, b2]
  · exfalso; have := gt 0 hn a1; have := mono 0 (n - 1) (by omega) (by omega); linarith
  · exfalso; have := gt 0 hn a1; linarith
  · exfalso; have := gt 0 hn a1; have := mono 0 l (by omega) (by omega); linarith
  · exfalso; have := lt (n - 1) (by omega) a1; have := mono 0 (n - 1) (by omega) (by omega); linarith
  · omega
  · exfalso; have := lt (n - 1) (by omega) a1; have := mono (l + 1) (n - 1) (by omega) (by omega); linarith
  · exfalso; have := ge 0 hn a1.le; have := le 0 hn a1.ge; linarith
  · omega
  · omega
  · exfalso; have := le k (by omega) k2; have := mono 0 k (by omega) (by omega); linarith
  · exfalso; have := ge (k + 1) (by omega) k3; have := mono (k + 1) (n - 1) (by omega) (by omega); linarith
  · omega
  · have e1 := le k (by omega) k2
    have e2 := ge (k + 1) (by omega) k3
    rcases Nat.lt_trichotomy k l with h | h | h
    · have := mono (k + 1) l (by omega) (by omega)
      have e : t = x (k + 1) := by linarith
      have := k4 (by rw [e]); omega
    · rw [h]
    · have := mono (l + 1) k (by omega) (by omega)
      have e : t = x (l + 1) := by linarith
      have := l4 e; omega

/-! ## The loops -/

/-- What the loops maintain: the section ends before i and is positive; only positive points get a slope. -/
def Inv (f : ℕ → ℝ) (i : ℕ) (m : ℕ) (out : ℕ → Option ℝ) : Prop :=
  m ≤ i ∧ (∀ j, i - m ≤ j → j < i → 0 < f j) ∧ ∀ j v, out j = some v → 0 < f j

theorem inv_store {f : ℕ → ℝ} {i m : ℕ} {out : ℕ → Option ℝ} (h : Inv f i m out) (d : ℕ → ℝ) : Inv f (i + 1) 0 (store out d i m) := by
  refine ⟨by omega, fun j h1 h2 => by omega, ?_⟩
  intro j v hv
  rw [store] at hv
  split_ifs at hv with hc
  · exact h.2.1 j hc.1 hc.2
  · exact h.2.2 j v hv

theorem inv_reset {f : ℕ → ℝ} {i m : ℕ} {out : ℕ → Option ℝ} (h : Inv f i m out) : Inv f (i + 1) 0 out :=
  ⟨by omega, fun j h1 h2 => by omega, h.2.2⟩

theorem inv_push {f : ℕ → ℝ} {i m : ℕ} {out : ℕ → Option ℝ} (h : Inv f i m out) (hf : 0 < f i) : Inv f (i + 1) (m + 1) out := by
  refine ⟨by have := h.1; omega, fun j h1 h2 => ?_, h.2.2⟩
  rcases Nat.lt_or_ge j i with hj | hj
  · exact h.2.1 j (by omega) hj
  · have : j = i := by omega
    rw [this]; exact hf

theorem cubic_loop {x : ℕ → ℝ} {n : ℕ} (hg : Grid x n) (hx : ∀ i < n, 0 < x i) (f : ℕ → ℝ) (dl dr : Option ℝ) (k : ℕ) (hk : k ≤ n + 1) :
    ∃ s, (List.range k).foldlM (cubicStep x f n dl dr) (0, fun _ => none) = some s ∧ Inv f k s.1 s.2 := by
  induction k with
  | zero => exact ⟨(0, fun _ => none), rfl, le_rfl, fun j h1 h2 => by omega, fun j v h => by simp at h⟩
  | succ i ih =>
    obtain ⟨s, e, inv⟩ := ih (by omega)
    rw [List.range_succ, List.foldlM_append, e]
    simp only [List.foldlM_cons, List.foldlM_nil, Option.bind_eq_bind, Option.bind_some, cubicStep]
    by_cases h : i = n ∨ ¬ 0 < f i
    · rw [if_pos h]
      by_cases hm : s.1 > 1
      · rw [if_pos hm]
        obtain ⟨d, hd⟩ := construct_some (grid_section (grid_log hg hx) (show i ≤ n by omega) inv.1)
          (section_ (fun k => Real.log (f k)) i s.1) (if i = s.1 then dl.map (fun v => v * x 0 / f 0) else none)
          (if i = n then dr.map (fun v => v * x (n - 1) / f (n - 1)) else none)
        rw [hd]
        exact ⟨_, rfl, inv_store inv _⟩
      · rw [if_neg hm]; exact ⟨_, rfl, inv_reset inv⟩
    · rw [if_neg h]
      push Not at h
      exact ⟨_, rfl, inv_push inv h.2⟩

theorem quintic_some {x : ℕ → ℝ} {n : ℕ} (hg : Grid x n) (f d : ℕ → ℝ) (hn : 2 ≤ n) : ∃ e, constructQuinticSpline x f d n = some e := by
  obtain ⟨e, he, _⟩ := quintic_solve hg hn f d
  exact ⟨e, he⟩

theorem quintic_loop {x : ℕ → ℝ} {n : ℕ} (hg : Grid x n) (hx : ∀ i < n, 0 < x i) (f d : ℕ → ℝ) (k : ℕ) (hk : k ≤ n + 1) :
    ∃ s, (List.range k).foldlM (quinticStepL x f d n) (0, fun _ => none, fun _ => none) = some s ∧ Inv f k s.1 s.2.1 := by
  induction k with
  | zero => exact ⟨(0, fun _ => none, fun _ => none), rfl, le_rfl, fun j h1 h2 => by omega, fun j v h => by simp at h⟩
  | succ i ih =>
    obtain ⟨s, e, inv⟩ := ih (by omega)
    rw [List.range_succ, List.foldlM_append, e]
    simp only [List.foldlM_cons, List.foldlM_nil, Option.bind_eq_bind, Option.bind_some, quinticStepL]
    by_cases h : i = n ∨ excluded x f d n i
    · rw [if_pos h]
      by_cases hm : s.1 > 1
      · rw [if_pos hm]
        obtain ⟨e2, he⟩ := quintic_some (grid_section (grid_log hg hx) (show i ≤ n by omega) inv.1)
          (section_ (fun k => Real.log (f k)) i s.1) (section_ (fun k => x k * d k / f k) i s.1) (by omega)
        rw [he]
        exact ⟨_, rfl, inv_store inv _⟩
      · rw [if_neg hm]; exact ⟨_, rfl, inv_reset inv⟩
    · rw [if_neg h]
      push Not at h
      have : 0 < f i := by
        by_contra hc
        exact h.2 (Or.inl hc)
      exact ⟨_, rfl, inv_push inv this⟩

/-- What both constructors guarantee. -/
structure Built (L : LogLogSpline) (x f : ℕ → ℝ) (n : ℕ) : Prop where
  en : L.n = n
  ex : L.xval = x
  ef : L.fval = f
  pos : ∀ j v, L.logfder j = some v → 0 < f j

theorem create_built {x : ℕ → ℝ} {n : ℕ} (hg : Grid x n) (hx : ∀ i < n, 0 < x i) (f : ℕ → ℝ) (dl dr : Option ℝ) :
    ∃ L, create x f n dl dr = some L ∧ Built L x f n := by
  obtain ⟨d, hd⟩ := construct_some hg f dl dr
  obtain ⟨s, e, inv⟩ := cubic_loop hg hx f dl dr (n + 1) le_rfl
  have hne : ¬ ∃ i < n, x i ≤ 0 := by
    rintro ⟨i, hi, h⟩; have := hx i hi; linarith
  refine ⟨_, by simp only [create, hd, if_neg hne, e, Option.bind_eq_bind, Option.bind_some, Option.pure_def]; rfl, rfl, rfl, rfl, inv.2.2⟩

theorem createQuintic_built {x : ℕ → ℝ} {n : ℕ} (hg : Grid x n) (hx : ∀ i < n, 0 < x i) (f d : ℕ → ℝ) :
    ∃ L, createQuintic x f d n = some L ∧ Built L x f n := by
  obtain ⟨s, e, inv⟩ := quintic_loop hg hx f d (n + 1) le_rfl
  have hne : ¬ ∃ i < n, x i ≤ 0 := by
    rintro ⟨i, hi, h⟩; have := hx i hi; linarith
  refine ⟨_, by simp only [createQuintic, if_neg hne, e, Option.bind_eq_bind, Option.bind_some, Option.pure_def]; rfl, rfl, rfl, rfl, inv.2.2⟩

/-! ## Positive data -/

theorem cubic_positive {x f : ℕ → ℝ} {n : ℕ} (hg : Grid x n) (hx : ∀ i < n, 0 < x i) (hf : ∀ i < n, 0 < f i) (hn : 2 ≤ n)
    (dl dr : Option ℝ) : ∃ L d, create x f n dl dr = some L ∧ L.n = n ∧ L.xval = x ∧ L.fval = f ∧ L.logfder2 = none ∧
      CubicSpline.create (fun k => Real.log (x k)) (fun k => Real.log (f k)) n true (dl.map (fun v => v * x 0 / f 0))
        (dr.map (fun v => v * x (n - 1) / f (n - 1))) = some d ∧ ∀ i < n, L.logfder i = some (d i) := by
  have loop : ∀ k ≤ n, (List.range k).foldlM (cubicStep x f n dl dr) (0, fun _ => none) = some (k, fun _ => none) := by
    intro k hk
    induction k with
    | zero => rfl
    | succ i ih =>
      rw [List.range_succ, List.foldlM_append, ih (by omega)]
      simp only [List.foldlM_cons, List.foldlM_nil, Option.bind_eq_bind, Option.bind_some, cubicStep]
      rw [if_neg (by have := hf i (by omega); push Not; exact ⟨by omega, this⟩)]
      rfl
  obtain ⟨d0, hd0⟩ := construct_some hg f dl dr
  obtain ⟨d, hd⟩ := construct_some (grid_log hg hx) (fun k => Real.log (f k)) (dl.map (fun v => v * x 0 / f 0))
    (dr.map (fun v => v * x (n - 1) / f (n - 1)))
  have hne : ¬ ∃ i < n, x i ≤ 0 := by
    rintro ⟨i, hi, h⟩; have := hx i hi; linarith
  have e : (List.range (n + 1)).foldlM (cubicStep x f n dl dr) (0, fun _ => none) = some (0, store (fun _ => none)
      (regularizeSpline (fun k => Real.log (x k)) (fun k => Real.log (f k)) n d) n n) := by
    rw [List.range_succ, List.foldlM_append, loop n le_rfl]
    simp only [List.foldlM_cons, List.foldlM_nil, Option.bind_eq_bind, Option.bind_some, cubicStep]
    rw [if_pos (Or.inl trivial), if_pos (by omega)]
    simp only [section_full, if_true, hd]
    rfl
  refine ⟨_, regularizeSpline (fun k => Real.log (x k)) (fun k => Real.log (f k)) n d,
    by simp only [create, hd0, if_neg hne, e, Option.bind_eq_bind, Option.bind_some, Option.pure_def]; rfl, rfl, rfl, rfl, rfl, ?_, ?_⟩
  · simp only [CubicSpline.create, hd, Option.bind_eq_bind, Option.bind_some, Option.pure_def, if_true]
  · intro i hi
    simp only [store]
    rw [if_pos ⟨by omega, hi⟩]; simp

theorem fabs_coe (a : ℝ) : fabs (a : EReal) = ((|a| : ℝ) : EReal) := by
  rw [fabs]
  by_cases h : a < 0
  · rw [if_pos (by exact_mod_cast h), abs_of_neg h]; rfl
  · rw [if_neg (by exact_mod_cast h), abs_of_nonneg (not_lt.1 h)]

/-- The logarithmic secant. -/
def secant (x f : ℕ → ℝ) (i : ℕ) : ℝ := (Real.log (f (i + 1)) - Real.log (f i)) / (Real.log (x (i + 1)) - Real.log (x i))

/-- The conditions under which no point is excluded from the logarithmic interpolation: the logarithmic slope at each point is
at most three times the secants on both sides, and has the sign of the secant (or vanishes) at both ends. -/
structure Moderate (x f d : ℕ → ℝ) (n : ℕ) : Prop where
  left : ∀ i, 0 < i → i < n → |x i * d i / f i| ≤ 3 * |secant x f (i - 1)|
  right : ∀ i, i + 1 < n → |x i * d i / f i| ≤ 3 * |secant x f i|
  first : 0 ≤ x 0 * d 0 / f 0 * secant x f 0
  last : 0 ≤ x (n - 1) * d (n - 1) / f (n - 1) * secant x f (n - 2)

theorem not_excluded {x f d : ℕ → ℝ} {n : ℕ} (hf : ∀ i < n, 0 < f i) (hn : 2 ≤ n) (h : Moderate x f d n) {i : ℕ} (hi : i < n) :
    ¬ excluded x f d n i := by
  have sl : ∀ j, j + 1 < n → logSlope x f j = some ((secant x f j : ℝ) : EReal) := by
    intro j hj
    have h1 := hf j (by omega)
    have h2 := hf (j + 1) hj
    rw [logSlope, if_neg (by push Not; exact ⟨h1.le, h2.le⟩), if_neg h1.ne', if_neg h2.ne', secant]
  have big : ∀ a : ℝ, ∀ s : ℝ, |a| ≤ 3 * |s| → ¬ 3 * fabs (s : EReal) < ((|a| : ℝ) : EReal) := by
    intro a s has hc
    rw [fabs_coe, show (3 : EReal) = ((3 : ℝ) : EReal) from rfl, ← EReal.coe_mul, EReal.coe_lt_coe_iff] at hc
    linarith
  have top : fabs ⊤ = ⊤ := by rw [fabs, if_neg (by simp)]
  rw [excluded.eq_def]
  simp only
  rintro (hc | ⟨h0, s, hs, hc⟩ | ⟨h0, s, hs, hc⟩ | ⟨s, hs, hc⟩)
  · exact hc (hf i hi)
  · subst h0
    rw [if_pos (by omega), sl 0 (by omega), Option.some.injEq] at hs
    rw [← hs, ← EReal.coe_mul] at hc
    have : x 0 * d 0 / f 0 * secant x f 0 < 0 := by exact_mod_cast hc
    linarith [h.first]
  · have : i = n - 1 := by omega
    subst this
    rw [if_pos (by omega), sl (n - 1 - 1) (by omega), Option.some.injEq] at hs
    rw [← hs, ← EReal.coe_mul] at hc
    have : x (n - 1) * d (n - 1) / f (n - 1) * secant x f (n - 1 - 1) < 0 := by exact_mod_cast hc
    have := h.last
    rw [show n - 2 = n - 1 - 1 by omega] at this
    linarith
  · by_cases h0 : i > 0
    · rw [if_pos h0, sl (i - 1) (by omega)] at hs
      by_cases h1 : i + 1 < n
      · rw [if_pos h1, sl i h1] at hs
        simp only [Option.map_some, stdMin, Option.some.injEq] at hs
        rw [← hs] at hc
        split_ifs at hc
        · exact big _ _ (h.right i h1) hc
        · exact big _ _ (h.left i h0 hi) hc
      · rw [if_neg h1] at hs
        simp only [Option.map_some, stdMin, Option.some.injEq, top] at hs
        rw [if_neg (by simp)] at hs
        rw [← hs] at hc
        exact big _ _ (h.left i h0 hi) hc
    · have h1 : i + 1 < n := by omega
      rw [if_neg h0, if_pos h1, sl i h1] at hs
      simp only [Option.map_some, stdMin, Option.some.injEq, top] at hs
      rw [if_pos (by rw [fabs_coe]; exact EReal.coe_lt_top _)] at hs
      rw [← hs] at hc
      exact big _ _ (h.right i h1) hc

theorem quintic_positive {x f d : ℕ → ℝ} {n : ℕ} (hg : Grid x n) (hx : ∀ i < n, 0 < x i) (hf : ∀ i < n, 0 < f i) (hn : 2 ≤ n)
    (hm : Moderate x f d n) : ∃ L e e', createQuintic x f d n = some L ∧ L.n = n ∧ L.xval = x ∧ L.fval = f ∧
      L.logfder2 = some e' ∧ (∀ i < n, e' i = e i) ∧
      constructQuinticSpline (fun k => Real.log (x k)) (fun k => Real.log (f k)) (fun k => x k * d k / f k) n = some e ∧
      ∀ i < n, L.logfder i = some (x i * d i / f i) := by
  have loop : ∀ k ≤ n, (List.range k).foldlM (quinticStepL x f d n) (0, fun _ => none, fun _ => none) =
      some (k, fun _ => none, fun _ => none) := by
    intro k hk
    induction k with
    | zero => rfl
    | succ i ih =>
      rw [List.range_succ, List.foldlM_append, ih (by omega)]
      simp only [List.foldlM_cons, List.foldlM_nil, Option.bind_eq_bind, Option.bind_some, quinticStepL]
      rw [if_neg (by have := not_excluded hf hn hm (show i < n by omega); push Not; exact ⟨by omega, this⟩)]
      rfl
  obtain ⟨e0, he⟩ := quintic_some (grid_log hg hx) (fun k => Real.log (f k)) (fun k => x k * d k / f k) hn
  have hne : ¬ ∃ i < n, x i ≤ 0 := by
    rintro ⟨i, hi, h⟩; have := hx i hi; linarith
  have e : (List.range (n + 1)).foldlM (quinticStepL x f d n) (0, fun _ => none, fun _ => none) = some (0, store (fun _ => none)
      (fun k => x k * d k / f k) n n, store (fun _ => none) e0 n n) := by
    rw [List.range_succ, List.foldlM_append, loop n le_rfl]
    simp only [List.foldlM_cons, List.foldlM_nil, Option.bind_eq_bind, Option.bind_some, quinticStepL]
    rw [if_pos (Or.inl rfl), if_pos (by omega)]
    simp only [section_full, he]
    rfl
  refine ⟨_, e0, _, by simp only [createQuintic, if_neg hne, e, Option.bind_eq_bind, Option.bind_some, Option.pure_def]; rfl,
    rfl, rfl, rfl, rfl, ?_, he, ?_⟩
  · intro i hi
    simp only [store]
    rw [if_pos ⟨by omega, hi⟩]; simp
  · intro i hi
    simp only [store]
    rw [if_pos ⟨by omega, hi⟩]; simp

end

end Verif.Spline.LogLog
