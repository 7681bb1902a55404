import Mathlib.Data.EReal.Basic
import Verif.Core.Cubic

/-! Model of `solveQuartic` (/repo/src/math_core.cpp:730-806), exact arithmetic, and C78. -/
namespace Verif.Core

/-- math_core.cpp:621-646, `polishRoot<4>(a, x)`, loop over `k`; `eps` is DBL_EPSILON, `seps` its square root. -/
noncomputable def polishRoot4 (eps seps a0 a1 a2 a3 a4 : ℝ) : Nat → ℝ → ℝ
  | 0, x => x
  | fuel+1, x =>
    let X := |x|
    let e := 0.5 * |a4|
    -- i = 3
    let f3 := x * a4 + a3
    let e3 := X * e + |f3|
    let df3 := x * (a4 * 4) + a3 * 3
    let d2f3 := x * (a4 * 4 * 3) + a3 * 3 * 2
    -- i = 2
    let f2 := x * f3 + a2
    let e2 := X * e3 + |f2|
    let df2 := x * df3 + a2 * 2
    let d2f2 := x * d2f3 + a2 * 2 * 1
    -- i = 1
    let f1 := x * f2 + a1
    let e1 := X * e2 + |f1|
    let df1 := x * df2 + a1 * 1
    -- i = 0
    let f0 := x * f1 + a0
    let e0 := X * e1 + |f0|
    let err := (e0 - 0.5 * |f0|) * eps
    if |f0| ≤ err then x else
    let dx := -f0 * df1 / (df1 * df1 - 0.5 * f0 * d2f2)
    let x := x + dx
    if |dx| < X * seps then x else polishRoot4 eps seps a0 a1 a2 a3 a4 fuel x

/-- math_core.cpp:745-749: the error estimate for a root `r` of the resolvent cubic. Division by zero gives infinity if the numerator is positive,
otherwise NaN, which `fmax` ignores. -/
noncomputable def quarticErr (eps b2 b1 b0 r : ℝ) : EReal :=
  let absw := |r|
  let absc := max (max (max absw |b2| * absw) |b1| * absw) |b0|
  let derc := b1 + r * (b2 * 2 + r * 3)
  if derc = 0 then
    if absc = 0 then ((absw * eps * 2 * max 1 (0.5 * absw) : ℝ) : EReal) else ⊤
  else ((max (absc / |derc|) absw * eps * 2 * max 1 (0.5 * absw) : ℝ) : EReal)

open Classical in
/-- math_core.cpp:744-761: one root of the resolvent; the state is (w,m,z) (`none` for NaN) and minerr. -/
noncomputable def quarticPick (eps c0 c2 c3 b2 b1 b0 : ℝ) (st : Option (ℝ × ℝ × ℝ) × EReal) (r : ℝ) : Option (ℝ × ℝ × ℝ) × EReal :=
  let err := quarticErr eps b2 b1 b0 r
  if err ≤ st.2 then
    let m2 := 0.25 * c3 * c3 - c2 + r
    let z2 := 0.25 * r ^ 2 - c0
    if m2 ≥ 0 ∧ z2 ≥ 0 then (some (r, Real.sqrt m2, Real.sqrt z2), err) else (st.1, err)
  else st

/-- math_core.cpp:775-794: sorting by conditional swaps (`swapped`, `sort3` are defined with `solveCubic`). -/
noncomputable def sortRoots : List ℝ → List ℝ
  | [a, b] => let p := swapped a b; [p.1, p.2]
  | [a, b, c] => sort3 a b c
  | [a, b, c, d] =>
    let p := swapped a b       -- 0,1
    let q := swapped c d       -- 2,3
    let r := swapped p.1 q.1   -- 0,2
    let s := swapped p.2 q.2   -- 1,3
    let t := swapped s.1 r.2   -- 1,2
    [r.1, t.1, t.2, s.2]
  | l => l

/-- math_core.cpp:798-804: removal of repeated roots, loop over `p`. -/
noncomputable def dedupRoots (eps : ℝ) : Nat → Nat → List ℝ → List ℝ
  | 0, _, l => l
  | fuel+1, p, l =>
    if p < l.length then
      if l.getD p 0 - l.getD (p - 1) 0 ≤ 2 * eps * |l.getD p 0| then dedupRoots eps fuel (p + 1) (l.eraseIdx p)
      else dedupRoots eps fuel (p + 1) l
    else l

/-- math_core.cpp:730-806, `solveQuartic` -/
noncomputable def solveQuartic (eps seps a4 a3 a2 a1 a0 : ℝ) : List ℝ :=
  if a4 = 0 then solveCubic eps seps a3 a2 a1 a0 else
  let inva4 := 1 / a4
  let c0 := a0 * inva4
  let c1 := a1 * inva4
  let c2 := a2 * inva4
  let c3 := a3 * inva4
  let b2 := -c2
  let b1 := c1 * c3 - 4 * c0
  let b0 := (4 * c2 - c3 * c3) * c0 - c1 * c1
  let st := (solveCubic eps seps 1 b2 b1 b0).foldl (quarticPick eps c0 c2 c3 b2 b1 b0) (none, ⊤)
  match st.1 with
  | none => []
  | some (w, m, z) =>
    let z := if c3 * w < 2 * c1 then -z else z
    let roots := solveQuadratic 1 (0.5 * c3 - m) (0.5 * w - z) ++ solveQuadratic 1 (0.5 * c3 + m) (0.5 * w + z)
    let roots := sortRoots (roots.map (polishRoot4 eps seps c0 c1 c2 c3 1 5))
    dedupRoots eps 4 1 roots

/-! ## Proofs -/

theorem polish_root4 (eps seps a0 a1 a2 a3 a4 : ℝ) (he : 0 ≤ eps) (fuel : Nat) (x : ℝ)
    (hx : a4 * x ^ 4 + a3 * x ^ 3 + a2 * x ^ 2 + a1 * x + a0 = 0) : polishRoot4 eps seps a0 a1 a2 a3 a4 fuel x = x := by
  cases fuel with
  | zero => rfl
  | succ n =>
    unfold polishRoot4
    simp only
    rw [if_pos]
    have h0 : x * (x * (x * (x * a4 + a3) + a2) + a1) + a0 = 0 := by linear_combination hx
    rw [h0]
    simp only [abs_zero, mul_zero, sub_zero, add_zero]
    positivity

theorem swapped_perm (a b : ℝ) : ([(swapped a b).1, (swapped a b).2] : List ℝ).Perm [a, b] := by
  rw [swapped]; split_ifs
  · exact List.Perm.swap _ _ _
  · exact List.Perm.refl _

theorem swapped_le (a b : ℝ) : (swapped a b).1 = min a b ∧ (swapped a b).2 = max a b := by
  rw [swapped]; split_ifs with h
  · exact ⟨(min_eq_right h.le).symm, (max_eq_left h.le).symm⟩
  · exact ⟨(min_eq_left (not_lt.1 h)).symm, (max_eq_right (not_lt.1 h)).symm⟩

theorem sortRoots_spec (l : List ℝ) (hl : l.length ≤ 4) : (sortRoots l).Pairwise (· ≤ ·) ∧ (sortRoots l).Perm l := by
  match l, hl with
  | [], _ => exact ⟨List.Pairwise.nil, List.Perm.refl _⟩
  | [a], _ => exact ⟨List.pairwise_singleton _ _, List.Perm.refl _⟩
  | [a, b], _ =>
    refine ⟨?_, swapped_perm a b⟩
    show List.Pairwise _ [(swapped a b).1, (swapped a b).2]
    rw [(swapped_le a b).1, (swapped_le a b).2]
    simp
  | [a, b, c], _ => exact C44_sorting a b c
  | [a, b, c, d], _ =>
    constructor
    · show List.Pairwise _ [_, _, _, _]
      unfold swapped
      split_ifs <;> simp only [List.pairwise_cons, List.mem_cons, List.not_mem_nil, or_false, forall_eq_or_imp, forall_eq,
        false_implies, implies_true, List.Pairwise.nil, and_true] <;>
        exact ⟨⟨by linarith, by linarith, by linarith⟩, ⟨by linarith, by linarith⟩, by linarith⟩
    · show List.Perm [_, _, _, _] _
      unfold swapped
      rw [← Multiset.coe_eq_coe]
      simp only [← Multiset.cons_coe]
      split_ifs <;> simp only [Multiset.coe_nil, ← Multiset.singleton_add, add_zero] <;> abel
  | (_ :: _ :: _ :: _ :: _ :: _), h => simp only [List.length_cons] at h; omega

theorem dedup_cases (eps : ℝ) :
    dedupRoots eps 4 1 [] = [] ∧ (∀ a, dedupRoots eps 4 1 [a] = [a]) ∧
    (∀ a b, dedupRoots eps 4 1 [a, b] = if b - a ≤ 2 * eps * |b| then [a] else [a, b]) ∧
    (∀ a b c, dedupRoots eps 4 1 [a, b, c] = if b - a ≤ 2 * eps * |b| then [a, c] else if c - b ≤ 2 * eps * |c| then [a, b] else [a, b, c]) ∧
    (∀ a b c d, dedupRoots eps 4 1 [a, b, c, d] = if b - a ≤ 2 * eps * |b| then (if d - c ≤ 2 * eps * |d| then [a, c] else [a, c, d])
      else if c - b ≤ 2 * eps * |c| then [a, b, d] else if d - c ≤ 2 * eps * |d| then [a, b, c] else [a, b, c, d]) := by
  have step : ∀ n p (l : List ℝ), p < l.length → dedupRoots eps (n + 1) p l =
      if l.getD p 0 - l.getD (p - 1) 0 ≤ 2 * eps * |l.getD p 0| then dedupRoots eps n (p + 1) (l.eraseIdx p) else dedupRoots eps n (p + 1) l := by
    intro n p l h; rw [dedupRoots, if_pos h]
  have stop : ∀ n p (l : List ℝ), ¬ p < l.length → dedupRoots eps n p l = l := by
    intro n p l h
    cases n with
    | zero => rfl
    | succ n => rw [dedupRoots, if_neg h]
  refine ⟨rfl, fun a => rfl, ?_, ?_, ?_⟩
  · intro a b
    rw [step 3 1 _ (by simp), stop _ _ ([a, b].eraseIdx 1) (by simp), stop _ _ [a, b] (by simp)]
    rfl
  · intro a b c
    rw [step 3 1 _ (by simp), stop _ _ ([a, b, c].eraseIdx 1) (by simp), step 2 2 _ (by simp), stop _ _ ([a, b, c].eraseIdx 2) (by simp), stop _ _ [a, b, c] (by simp)]
    rfl
  · intro a b c d
    rw [step 3 1 _ (by simp), show [a, b, c, d].eraseIdx 1 = [a, c, d] from rfl, step 2 2 [a, c, d] (by simp), stop _ _ ([a, c, d].eraseIdx 2) (by simp),
      stop _ _ [a, c, d] (by simp), step 2 2 _ (by simp), show [a, b, c, d].eraseIdx 2 = [a, b, d] from rfl, stop _ _ [a, b, d] (by simp), step 1 3 _ (by simp),
      stop _ _ ([a, b, c, d].eraseIdx 3) (by simp), stop _ _ [a, b, c, d] (by simp)]
    rfl

/-- Removal of repetitions from a sorted list whose distinct elements are well separated and with no element occurring three times. -/
theorem dedup_spec (eps : ℝ) (he : 0 ≤ eps) (l : List ℝ) (hl : l.length ≤ 4) (hs : l.Pairwise (· ≤ ·))
    (hsep : ∀ r ∈ l, ∀ s ∈ l, r < s → 2 * eps * |s| < s - r) (hc : ∀ r, l.count r ≤ 2) :
    (dedupRoots eps 4 1 l).Pairwise (· < ·) ∧ ∀ r, r ∈ dedupRoots eps 4 1 l ↔ r ∈ l := by
  have key : ∀ a b : ℝ, a ∈ l → b ∈ l → a ≤ b → (b - a ≤ 2 * eps * |b| ↔ a = b) := by
    intro a b ha hb hab
    constructor
    · intro h
      by_contra hne
      exact absurd (hsep a ha b hb (lt_of_le_of_ne hab hne)) (not_lt.2 h)
    · rintro rfl
      rw [sub_self]; positivity
  obtain ⟨_, _, d2, d3, d4⟩ := dedup_cases eps
  clear hsep
  match l, hl with
  | [], _ => exact ⟨by simp [dedupRoots], by simp [dedupRoots]⟩
  | [a], _ => exact ⟨by simp [dedupRoots], by simp [dedupRoots]⟩
  | [a, b], _ =>
    simp only [List.pairwise_cons, List.mem_cons, List.not_mem_nil, or_false, forall_eq] at hs
    rw [d2]
    simp only [key a b (by simp) (by simp) hs.1]
    split_ifs with h
    · subst h; simp
    · simp [lt_of_le_of_ne hs.1 h]
  | [a, b, c], _ =>
    simp only [List.pairwise_cons, List.mem_cons, List.not_mem_nil, or_false, forall_eq_or_imp, forall_eq] at hs
    obtain ⟨⟨h1, h2⟩, h3, -⟩ := hs
    rw [d3]
    simp only [key a b (by simp) (by simp) h1, key b c (by simp) (by simp) h3]
    split_ifs with h h'
    · subst h
      have hne : a ≠ c := by
        rintro rfl
        have := hc a; simp at this
      simp [lt_of_le_of_ne h2 hne]
    · subst h'
      simp [lt_of_le_of_ne h1 h]
    · have a1 := lt_of_le_of_ne h1 h
      have a2 := lt_of_le_of_ne h3 h'
      simp [a1, a2, a1.trans a2]
  | [a, b, c, d], _ =>
    simp only [List.pairwise_cons, List.mem_cons, List.not_mem_nil, or_false, forall_eq_or_imp, forall_eq] at hs
    obtain ⟨⟨h1, h2, h3⟩, ⟨h4, h5⟩, h6, -⟩ := hs
    rw [d4]
    simp only [key a b (by simp) (by simp) h1, key b c (by simp) (by simp) h4, key c d (by simp) (by simp) h6]
    have t1 : ¬ (a = b ∧ b = c) := by
      rintro ⟨rfl, rfl⟩
      have := hc a; simp [List.count_cons] at this
    have t2 : ¬ (b = c ∧ c = d) := by
      rintro ⟨rfl, rfl⟩
      have := hc b; simp [List.count_cons] at this; split_ifs at this <;> omega
    split_ifs with g1 g2 g3 g4
    · subst g1; subst g2
      have : a ≠ c := fun h => t1 ⟨rfl, h⟩
      simp [lt_of_le_of_ne h2 this]
    · subst g1
      have : a ≠ c := fun h => t1 ⟨rfl, h⟩
      have a1 := lt_of_le_of_ne h2 this
      have a2 := lt_of_le_of_ne h6 g2
      simp [a1, a2, a1.trans a2]
    · subst g3
      have a1 := lt_of_le_of_ne h1 g1
      have a2 := lt_of_le_of_ne h6 (fun h => t2 ⟨rfl, h⟩)
      simp [a1, a2, a1.trans a2]
    · subst g4
      have a1 := lt_of_le_of_ne h1 g1
      have a2 := lt_of_le_of_ne h4 g3
      simp [a1, a2, a1.trans a2]
    · have a1 := lt_of_le_of_ne h1 g1
      have a2 := lt_of_le_of_ne h4 g3
      have a3 := lt_of_le_of_ne h6 g4
      simp [a1, a2, a3, a1.trans a2, a2.trans a3, (a1.trans a2).trans a3]
  | (_ :: _ :: _ :: _ :: _ :: _), h => simp only [List.length_cons] at h; omega

/-! ### The factorization -/

/-- Ferrari's identity. -/
theorem ferrari (c0 c1 c2 c3 w x : ℝ) (hw : w ^ 3 + -c2 * w ^ 2 + (c1 * c3 - 4 * c0) * w + ((4 * c2 - c3 * c3) * c0 - c1 * c1) = 0) :
    (0.25 * c3 * c3 - c2 + w) * (0.25 * w ^ 2 - c0) = ((c3 * w - 2 * c1) / 4) ^ 2 ∧
    (0.25 * c3 * c3 - c2 + w) * (x ^ 4 + c3 * x ^ 3 + c2 * x ^ 2 + c1 * x + c0) =
      (0.25 * c3 * c3 - c2 + w) * (x ^ 2 + c3 / 2 * x + w / 2) ^ 2 - ((0.25 * c3 * c3 - c2 + w) * x + (c3 * w - 2 * c1) / 4) ^ 2 := by
  constructor
  · linear_combination (1/4) * hw
  · linear_combination (-(1/4)) * hw

/-- A root of the resolvent which gives negative discriminants is a multiple root, if the quartic has a real root; and there is another root. -/
theorem resolvent_invalid (c0 c1 c2 c3 w x : ℝ) (hw : w ^ 3 + -c2 * w ^ 2 + (c1 * c3 - 4 * c0) * w + ((4 * c2 - c3 * c3) * c0 - c1 * c1) = 0)
    (hx : x ^ 4 + c3 * x ^ 3 + c2 * x ^ 2 + c1 * x + c0 = 0) (hinv : ¬ (0.25 * c3 * c3 - c2 + w ≥ 0 ∧ 0.25 * w ^ 2 - c0 ≥ 0)) :
    (c1 * c3 - 4 * c0) + w * (-c2 * 2 + w * 3) = 0 ∧ c2 - 2 * w ≠ w := by
  obtain ⟨f1, f2⟩ := ferrari c0 c1 c2 c3 w x hw
  set m2 := 0.25 * c3 * c3 - c2 + w with hm2
  set z2 := 0.25 * w ^ 2 - c0 with hz2
  set k := (c3 * w - 2 * c1) / 4 with hk
  rw [hx, mul_zero] at f2
  have hneg : m2 < 0 := by
    by_contra h
    push Not at h
    rcases h.lt_or_eq with hp | h0
    · apply hinv
      refine ⟨h, ?_⟩
      by_contra hz
      push Not at hz
      have := mul_neg_of_pos_of_neg hp hz
      nlinarith [sq_nonneg k]
    · have hk0 : k = 0 := by
        have : k ^ 2 = 0 := by rw [← f1, ← h0, zero_mul]
        exact pow_eq_zero_iff (two_ne_zero) |>.1 this
      apply hinv
      refine ⟨h0.le, ?_⟩
      by_contra hz
      push Not at hz
      have e : (x ^ 2 + c3 / 2 * x + w / 2) ^ 2 = z2 := by
        linear_combination hx - x ^ 2 * h0 + 2 * x * hk0 + x ^ 2 * hm2 + 0 * hz2 - 2 * x * hk
      have := sq_nonneg (x ^ 2 + c3 / 2 * x + w / 2)
      linarith
  have e1 : m2 * (x ^ 2 + c3 / 2 * x + w / 2) ^ 2 = 0 := by
    have := mul_nonpos_of_nonpos_of_nonneg hneg.le (sq_nonneg (x ^ 2 + c3 / 2 * x + w / 2))
    nlinarith [sq_nonneg (m2 * x + k)]
  have e2 : x ^ 2 + c3 / 2 * x + w / 2 = 0 := by
    rcases mul_eq_zero.1 e1 with h | h
    · exact absurd h hneg.ne
    · exact pow_eq_zero_iff (two_ne_zero) |>.1 h
  have e3 : m2 * x + k = 0 := by
    have : (m2 * x + k) ^ 2 = 0 := by linarith
    exact pow_eq_zero_iff (two_ne_zero) |>.1 this
  have ew : w = -2 * x ^ 2 - c3 * x := by linarith
  have ek : k = -(m2 * x) := by linarith
  have ez : z2 = m2 * x ^ 2 := by
    have : m2 * z2 = m2 * (m2 * x ^ 2) := by rw [f1, ek]; ring
    exact mul_left_cancel₀ hneg.ne this
  have ec1 : c1 = c3 * w / 2 + 2 * m2 * x := by linarith
  have ec0 : c0 = 0.25 * w ^ 2 - m2 * x ^ 2 := by linarith
  have ec2 : c2 = 0.25 * c3 * c3 + w - m2 := by linarith
  constructor
  · have : (c1 * c3 - 4 * c0) + w * (-c2 * 2 + w * 3) = 2 * m2 * (w + c3 * x + 2 * x ^ 2) := by
      rw [ec1, ec0, ec2]; ring
    rw [this, ew]; ring
  · intro h
    have : m2 = (c3 / 2 + 2 * x) ^ 2 := by
      have : c2 = 3 * w := by linarith
      rw [hm2, this, ew]; ring
    have := sq_nonneg (c3 / 2 + 2 * x)
    linarith

/-- The quartic as a product of two quadratics. -/
theorem quartic_factor (c0 c1 c2 c3 w x : ℝ) (hw : w ^ 3 + -c2 * w ^ 2 + (c1 * c3 - 4 * c0) * w + ((4 * c2 - c3 * c3) * c0 - c1 * c1) = 0)
    (hm : 0.25 * c3 * c3 - c2 + w ≥ 0) (hz : 0.25 * w ^ 2 - c0 ≥ 0) :
    let m := Real.sqrt (0.25 * c3 * c3 - c2 + w)
    let z := Real.sqrt (0.25 * w ^ 2 - c0)
    let z := if c3 * w < 2 * c1 then -z else z
    x ^ 4 + c3 * x ^ 3 + c2 * x ^ 2 + c1 * x + c0 =
      (1 * x ^ 2 + (0.5 * c3 - m) * x + (0.5 * w - z)) * (1 * x ^ 2 + (0.5 * c3 + m) * x + (0.5 * w + z)) := by
  obtain ⟨f1, -⟩ := ferrari c0 c1 c2 c3 w x hw
  intro m z0 z
  have m2 : m ^ 2 = 0.25 * c3 * c3 - c2 + w := Real.sq_sqrt hm
  have z02 : z0 ^ 2 = 0.25 * w ^ 2 - c0 := Real.sq_sqrt hz
  have hz2 : z ^ 2 = 0.25 * w ^ 2 - c0 := by
    simp only [z]; split_ifs
    · rw [neg_sq, z02]
    · exact z02
  have hm0 : 0 ≤ m := Real.sqrt_nonneg _
  have hz0 : 0 ≤ z0 := Real.sqrt_nonneg _
  have hmz : m * z = (c3 * w - 2 * c1) / 4 := by
    have sq : (m * z0) ^ 2 = ((c3 * w - 2 * c1) / 4) ^ 2 := by rw [mul_pow, m2, z02, f1]
    have ab := (sq_eq_sq_iff_abs_eq_abs _ _).1 sq
    rw [abs_of_nonneg (mul_nonneg hm0 hz0)] at ab
    simp only [z]; split_ifs with h
    · rw [abs_of_nonpos (by linarith)] at ab; linarith
    · rw [abs_of_nonneg (by linarith)] at ab; linarith
  linear_combination x ^ 2 * m2 + hz2 + 2 * x * hmz

theorem pick_sound (eps c0 c2 c3 b2 b1 b0 : ℝ) (L : List ℝ) : ∀ (st : Option (ℝ × ℝ × ℝ) × EReal) (P : ℝ → Prop), (∀ r ∈ L, P r) →
    (∀ w m z, st.1 = some (w, m, z) → P w ∧ (0.25 * c3 * c3 - c2 + w ≥ 0 ∧ 0.25 * w ^ 2 - c0 ≥ 0) ∧
      m = Real.sqrt (0.25 * c3 * c3 - c2 + w) ∧ z = Real.sqrt (0.25 * w ^ 2 - c0)) →
    ∀ w m z, (L.foldl (quarticPick eps c0 c2 c3 b2 b1 b0) st).1 = some (w, m, z) → P w ∧ (0.25 * c3 * c3 - c2 + w ≥ 0 ∧ 0.25 * w ^ 2 - c0 ≥ 0) ∧
      m = Real.sqrt (0.25 * c3 * c3 - c2 + w) ∧ z = Real.sqrt (0.25 * w ^ 2 - c0) := by
  induction L with
  | nil => intro st P _ h; exact h
  | cons r L ih =>
    intro st P hP h
    rw [List.foldl_cons]
    refine ih _ P (fun q hq => hP q (by simp [hq])) ?_
    intro w m z hw
    rw [quarticPick] at hw
    simp only at hw
    split_ifs at hw with h1 h2
    · simp only [Option.some.injEq, Prod.mk.injEq] at hw
      obtain ⟨rfl, rfl, rfl⟩ := hw
      exact ⟨hP _ (by simp), h2, rfl, rfl⟩
    · exact h w m z hw
    · exact h w m z hw

theorem pick_keeps (eps c0 c2 c3 b2 b1 b0 : ℝ) (L : List ℝ) : ∀ st : Option (ℝ × ℝ × ℝ) × EReal, st.1 ≠ none →
    (L.foldl (quarticPick eps c0 c2 c3 b2 b1 b0) st).1 ≠ none := by
  induction L with
  | nil => intro st h; exact h
  | cons r L ih =>
    intro st h
    rw [List.foldl_cons]
    apply ih
    rw [quarticPick]
    simp only
    split_ifs
    · simp
    · exact h
    · exact h

theorem pick_complete (eps c0 c2 c3 b2 b1 b0 : ℝ) (L : List ℝ)
    (hinv : ∀ r ∈ L, ¬ (0.25 * c3 * c3 - c2 + r ≥ 0 ∧ 0.25 * r ^ 2 - c0 ≥ 0) → quarticErr eps b2 b1 b0 r = ⊤)
    (hex : ∃ r ∈ L, 0.25 * c3 * c3 - c2 + r ≥ 0 ∧ 0.25 * r ^ 2 - c0 ≥ 0) :
    (L.foldl (quarticPick eps c0 c2 c3 b2 b1 b0) (none, ⊤)).1 ≠ none := by
  induction L with
  | nil => obtain ⟨r, hr, _⟩ := hex; simp at hr
  | cons r L ih =>
    rw [List.foldl_cons]
    by_cases hv : 0.25 * c3 * c3 - c2 + r ≥ 0 ∧ 0.25 * r ^ 2 - c0 ≥ 0
    · apply pick_keeps
      rw [quarticPick]
      simp only
      rw [if_pos le_top, if_pos hv]
      simp
    · have : quarticPick eps c0 c2 c3 b2 b1 b0 (none, ⊤) r = (none, ⊤) := by
        rw [quarticPick]
        simp only
        rw [if_pos le_top, if_neg hv, hinv r (by simp) hv]
      rw [this]
      refine ih (fun q hq => hinv q (by simp [hq])) ?_
      obtain ⟨q, hq, hqv⟩ := hex
      rw [List.mem_cons] at hq
      rcases hq with rfl | hq
      · exact absurd hqv hv
      · exact ⟨q, hq, hqv⟩

theorem solveQuadratic_length (a2 a1 a0 : ℝ) : (solveQuadratic a2 a1 a0).length ≤ 2 := by
  unfold solveQuadratic solveLinear
  simp only
  split_ifs <;> simp

theorem cubic_has_root (p q s : ℝ) : ∃ w : ℝ, w ^ 3 + p * w ^ 2 + q * w + s = 0 := by
  have hcont : Continuous (fun w : ℝ => w ^ 3 + p * w ^ 2 + q * w + s) := by fun_prop
  have p1 := neg_abs_le p
  have p2 := le_abs_self p
  have q1 := neg_abs_le q
  have q2 := le_abs_self q
  have s1 := neg_abs_le s
  have s2 := le_abs_self s
  have hp := abs_nonneg p
  have hq := abs_nonneg q
  have hs := abs_nonneg s
  obtain ⟨K, hK⟩ : ∃ K, K = 1 + |p| + |q| + |s| := ⟨_, rfl⟩
  have hK1 : 1 ≤ K := by linarith
  have hK2 : K ≤ K ^ 2 := by nlinarith
  have hK0 : 0 ≤ K ^ 2 := sq_nonneg K
  have e3 : K ^ 3 = K ^ 2 + |p| * K ^ 2 + |q| * K ^ 2 + |s| * K ^ 2 := by
    linear_combination K ^ 2 * hK
  have u1 : |p * K ^ 2| = |p| * K ^ 2 := by rw [abs_mul, abs_of_nonneg hK0]
  have u2 : |q * K| ≤ |q| * K ^ 2 := by
    rw [abs_mul, abs_of_nonneg (by linarith : (0:ℝ) ≤ K)]
    exact mul_le_mul_of_nonneg_left hK2 hq
  have u3 : |s| ≤ |s| * K ^ 2 := le_mul_of_one_le_right hs (by linarith)
  have v1 := abs_le.1 u1.le
  have v2 := abs_le.1 u2
  have v3 := abs_le.1 u3
  have pos : 0 ≤ K ^ 3 + p * K ^ 2 + q * K + s := by linarith [v1.1, v2.1, v3.1]
  have neg : (-K) ^ 3 + p * (-K) ^ 2 + q * (-K) + s ≤ 0 := by
    have : (-K) ^ 3 + p * (-K) ^ 2 + q * (-K) + s = -K ^ 3 + p * K ^ 2 - q * K + s := by ring
    rw [this]
    linarith [v1.2, v2.1, v3.2]
  obtain ⟨r, -, hr⟩ := intermediate_value_Icc (show -K ≤ K by linarith) hcont.continuousOn (show (0:ℝ) ∈ Set.Icc _ _ from ⟨neg, pos⟩)
  exact ⟨r, hr⟩

/-- The conditions under which the quartic solver is exact (see C78). -/
structure QuarticRegular (eps a4 a3 a2 a1 a0 : ℝ) : Prop where
  /-- the discriminant of the resolvent cubic is zero or larger than the tolerance of `solveCubic` -/
  resolvent : let c0 := a0 / a4; let c1 := a1 / a4; let c2 := a2 / a4; let c3 := a3 / a4
    let s := c2 / 3
    let Q := (c1 * c3 - 4 * c0) / 3 - s ^ 2
    let R := s ^ 3 - (s * (c1 * c3 - 4 * c0) + ((4 * c2 - c3 * c3) * c0 - c1 * c1)) / 2
    Q ^ 3 + R ^ 2 = 0 ∨ 2 * eps * R ^ 2 < |Q ^ 3 + R ^ 2|
  /-- zero is not a multiple root of the resolvent cubic -/
  simple : ¬ (a1 * a3 = 4 * a0 * a4 ∧ (4 * a2 * a4 - a3 ^ 2) * a0 = a1 ^ 2 * a4)
  /-- different roots are sufficiently far apart -/
  separated : ∀ r s, a4 * r ^ 4 + a3 * r ^ 3 + a2 * r ^ 2 + a1 * r + a0 = 0 → a4 * s ^ 4 + a3 * s ^ 3 + a2 * s ^ 2 + a1 * s + a0 = 0 → r < s → 2 * eps * |s| < s - r

/-- C78. In exact arithmetic `solveQuartic` returns exactly the distinct real roots in increasing order, for every quartic equation
satisfying the three conditions. -/
theorem C78_quartic (eps seps a4 a3 a2 a1 a0 : ℝ) (he : 0 ≤ eps) (h4 : a4 ≠ 0) (h : QuarticRegular eps a4 a3 a2 a1 a0) :
    (solveQuartic eps seps a4 a3 a2 a1 a0).Pairwise (· < ·) ∧
    ∀ x, x ∈ solveQuartic eps seps a4 a3 a2 a1 a0 ↔ a4 * x ^ 4 + a3 * x ^ 3 + a2 * x ^ 2 + a1 * x + a0 = 0 := by
  rw [solveQuartic, if_neg h4]
  simp only
  obtain ⟨hres, hsim, hsep⟩ := h
  have e0 : a0 * (1 / a4) = a0 / a4 := by ring
  have e1 : a1 * (1 / a4) = a1 / a4 := by ring
  have e2 : a2 * (1 / a4) = a2 / a4 := by ring
  have e3 : a3 * (1 / a4) = a3 / a4 := by ring
  rw [e0, e1, e2, e3]
  have hq : ∀ x, a4 * x ^ 4 + a3 * x ^ 3 + a2 * x ^ 2 + a1 * x + a0 = 0 ↔ x ^ 4 + a3 / a4 * x ^ 3 + a2 / a4 * x ^ 2 + a1 / a4 * x + a0 / a4 = 0 := by
    intro x
    rw [show a4 * x ^ 4 + a3 * x ^ 3 + a2 * x ^ 2 + a1 * x + a0 = a4 * (x ^ 4 + a3 / a4 * x ^ 3 + a2 / a4 * x ^ 2 + a1 / a4 * x + a0 / a4) by field_simp]
    rw [mul_eq_zero]; simp [h4]
  have hsim' : ¬ (a1 / a4 * (a3 / a4) - 4 * (a0 / a4) = 0 ∧ (4 * (a2 / a4) - a3 / a4 * (a3 / a4)) * (a0 / a4) - a1 / a4 * (a1 / a4) = 0) := by
    rintro ⟨q1, q2⟩
    apply hsim
    constructor
    · field_simp at q1; linarith
    · field_simp at q2; linarith
  simp only [hq] at hsep ⊢
  simp only at hres
  generalize a0 / a4 = c0 at *
  generalize a1 / a4 = c1 at *
  generalize a2 / a4 = c2 at *
  generalize a3 / a4 = c3 at *
  set b1 := c1 * c3 - 4 * c0 with hb1
  set b0 := (4 * c2 - c3 * c3) * c0 - c1 * c1 with hb0
  have hcub := C44_cubic eps seps 1 (-c2) b1 b0 he one_ne_zero (by
    simp only
    rw [show -(1/3) * -c2 * (1 / 1) = c2 / 3 by ring, show 1/3 * b1 * (1/1) - (c2 / 3) ^ 2 = b1 / 3 - (c2 / 3) ^ 2 by ring,
      show (c2 / 3) ^ 3 - 0.5 * (c2 / 3 * b1 + b0) * (1 / 1) = (c2 / 3) ^ 3 - (c2 / 3 * b1 + b0) / 2 by ring]
    exact hres)
  have hmem : ∀ w, w ∈ solveCubic eps seps 1 (-c2) b1 b0 ↔ w ^ 3 + -c2 * w ^ 2 + b1 * w + b0 = 0 := by
    intro w; rw [hcub.2]; ring_nf
  generalize solveCubic eps seps 1 (-c2) b1 b0 = L at *
  -- the selection succeeds if there are real roots
  have hsel : ∀ x, x ^ 4 + c3 * x ^ 3 + c2 * x ^ 2 + c1 * x + c0 = 0 → (L.foldl (quarticPick eps c0 c2 c3 (-c2) b1 b0) (none, ⊤)).1 ≠ none := by
    intro x hx
    have inv : ∀ r ∈ L, ¬ (0.25 * c3 * c3 - c2 + r ≥ 0 ∧ 0.25 * r ^ 2 - c0 ≥ 0) → b1 + r * (-c2 * 2 + r * 3) = 0 ∧ c2 - 2 * r ≠ r :=
      fun r hr hv => resolvent_invalid c0 c1 c2 c3 r x ((hmem r).1 hr) hx hv
    apply pick_complete
    · intro r hr hv
      have hd := (inv r hr hv).1
      rw [quarticErr, if_pos hd, if_neg]
      intro hz
      have hb0' : b0 = 0 := by
        have : |b0| ≤ 0 := by rw [← hz]; exact le_max_right _ _
        exact abs_eq_zero.1 (le_antisymm this (abs_nonneg _))
      have hr0 : r = 0 := by
        have h1 : max (max |r| |(-c2)| * |r|) |b1| * |r| ≤ 0 := by rw [← hz]; exact le_max_left _ _
        have h2 : |r| * |r| * |r| ≤ 0 := by
          refine le_trans ?_ h1
          refine mul_le_mul_of_nonneg_right ?_ (abs_nonneg _)
          exact le_trans (mul_le_mul_of_nonneg_right (le_max_left _ _) (abs_nonneg _)) (le_max_left _ _)
        by_contra hne
        have := abs_pos.2 hne
        have : 0 < |r| * |r| * |r| := by positivity
        linarith
      rw [hr0] at hd
      exact hsim' ⟨by linarith, hb0'⟩
    · by_contra hno
      push Not at hno
      have hno' : ∀ r ∈ L, ¬ (0.25 * c3 * c3 - c2 + r ≥ 0 ∧ 0.25 * r ^ 2 - c0 ≥ 0) := fun r hr q => absurd (hno r hr q.1) (not_lt.2 q.2)
      -- the cubic has a root
      obtain ⟨r, hr⟩ : ∃ r, r ∈ L := by
        obtain ⟨r, hr⟩ := cubic_has_root (-c2) b1 b0
        exact ⟨r, (hmem r).2 hr⟩
      obtain ⟨d1, d2⟩ := inv r hr (hno' r hr)
      have hr3 := (hmem r).1 hr
      have hr' : c2 - 2 * r ∈ L := by
        rw [hmem]
        linear_combination hr3 + (c2 - 3 * r) * d1
      obtain ⟨d3, -⟩ := inv _ hr' (hno' _ hr')
      apply d2
      have : (c2 - 3 * r) ^ 2 = 0 := by linear_combination d3 - d1
      have := pow_eq_zero_iff (two_ne_zero) |>.1 this
      linarith
  have hsound := pick_sound eps c0 c2 c3 (-c2) b1 b0 L (none, ⊤) (fun w => w ^ 3 + -c2 * w ^ 2 + b1 * w + b0 = 0) (fun r hr => (hmem r).1 hr) (by simp)
  cases hst : (L.foldl (quarticPick eps c0 c2 c3 (-c2) b1 b0) (none, ⊤)).1 with
  | none =>
    simp only
    refine ⟨List.Pairwise.nil, fun x => ?_⟩
    constructor
    · intro hx; simp at hx
    · intro hx; exact absurd hst (hsel x hx)
  | some t =>
    obtain ⟨w, m, z⟩ := t
    obtain ⟨hw, ⟨hm, hz⟩, rfl, rfl⟩ := hsound w m z hst
    simp only
    have hf := fun x => quartic_factor c0 c1 c2 c3 w x hw hm hz
    simp only at hf
    set m := Real.sqrt (0.25 * c3 * c3 - c2 + w)
    set z := if c3 * w < 2 * c1 then -Real.sqrt (0.25 * w ^ 2 - c0) else Real.sqrt (0.25 * w ^ 2 - c0)
    obtain ⟨p1, q1⟩ := C15_quadratic 1 (0.5 * c3 - m) (0.5 * w - z) (Or.inl one_ne_zero)
    obtain ⟨p2, q2⟩ := C15_quadratic 1 (0.5 * c3 + m) (0.5 * w + z) (Or.inl one_ne_zero)
    have l1 := solveQuadratic_length 1 (0.5 * c3 - m) (0.5 * w - z)
    have l2 := solveQuadratic_length 1 (0.5 * c3 + m) (0.5 * w + z)
    generalize solveQuadratic 1 (0.5 * c3 - m) (0.5 * w - z) = A at *
    generalize solveQuadratic 1 (0.5 * c3 + m) (0.5 * w + z) = B at *
    have hAB : ∀ x, x ∈ A ++ B ↔ x ^ 4 + c3 * x ^ 3 + c2 * x ^ 2 + c1 * x + c0 = 0 := by
      intro x; rw [List.mem_append, q1, q2, hf x, mul_eq_zero]
    have hpol : (A ++ B).map (polishRoot4 eps seps c0 c1 c2 c3 1 5) = A ++ B := by
      conv_rhs => rw [← List.map_id (A ++ B)]
      refine List.map_congr_left ?_
      intro x hx
      exact polish_root4 eps seps c0 c1 c2 c3 1 he 5 x (by rw [one_mul]; exact (hAB x).1 hx)
    rw [hpol]
    have hlen : (A ++ B).length ≤ 4 := by rw [List.length_append]; omega
    obtain ⟨s1, s2⟩ := sortRoots_spec (A ++ B) hlen
    have hmem' : ∀ x, x ∈ sortRoots (A ++ B) ↔ x ^ 4 + c3 * x ^ 3 + c2 * x ^ 2 + c1 * x + c0 = 0 := fun x => (s2.mem_iff).trans (hAB x)
    obtain ⟨d1, d2⟩ := dedup_spec eps he (sortRoots (A ++ B)) (by rw [s2.length_eq]; exact hlen) s1
      (fun r hr s hs hrs => hsep r s ((hmem' r).1 hr) ((hmem' s).1 hs) hrs) (by
        intro r
        rw [s2.count_eq, List.count_append]
        have n1 : A.Nodup := p1.imp (fun h => h.ne)
        have n2 : B.Nodup := p2.imp (fun h => h.ne)
        have := List.nodup_iff_count_le_one.1 n1 r
        have := List.nodup_iff_count_le_one.1 n2 r
        omega)
    exact ⟨d1, fun x => (d2 x).trans (hmem' x)⟩


/-- Conditions for an equation of degree up to four. -/
def SolverRegular (eps a4 a3 a2 a1 a0 : ℝ) : Prop :=
  (a4 ≠ 0 → QuarticRegular eps a4 a3 a2 a1 a0) ∧
  (a4 = 0 → a3 ≠ 0 → let s := -(1/3) * a2 * (1 / a3)
      let Q := 1/3 * a1 * (1 / a3) - s ^ 2
      let R := s ^ 3 - 0.5 * (s * a1 + a0) * (1 / a3)
      Q ^ 3 + R ^ 2 = 0 ∨ 2 * eps * R ^ 2 < |Q ^ 3 + R ^ 2|)

/-- C78 including the cases when the leading coefficients vanish. For the identity 0=0 a single root 0 is returned. -/
theorem C78_all (eps seps a4 a3 a2 a1 a0 : ℝ) (he : 0 ≤ eps) (h : SolverRegular eps a4 a3 a2 a1 a0) :
    (¬ (a4 = 0 ∧ a3 = 0 ∧ a2 = 0 ∧ a1 = 0 ∧ a0 = 0) → (solveQuartic eps seps a4 a3 a2 a1 a0).Pairwise (· < ·) ∧
      ∀ x, x ∈ solveQuartic eps seps a4 a3 a2 a1 a0 ↔ a4 * x ^ 4 + a3 * x ^ 3 + a2 * x ^ 2 + a1 * x + a0 = 0) ∧
    solveQuartic eps seps 0 0 0 0 0 = [0] := by
  constructor
  · intro hne
    by_cases h4 : a4 = 0
    · subst h4
      have e : solveQuartic eps seps 0 a3 a2 a1 a0 = solveCubic eps seps a3 a2 a1 a0 := by rw [solveQuartic, if_pos rfl]
      rw [e]
      by_cases h3 : a3 = 0
      · subst h3
        obtain ⟨p, q⟩ := C44_degenerate eps seps a2 a1 a0 (by
          by_contra hc
          push Not at hc
          exact hne ⟨rfl, rfl, hc.1, hc.2.1, hc.2.2⟩)
        refine ⟨p, fun x => ?_⟩
        rw [q]; constructor <;> intro h <;> linarith
      · obtain ⟨p, q⟩ := C44_cubic eps seps a3 a2 a1 a0 he h3 (h.2 rfl h3)
        refine ⟨p, fun x => ?_⟩
        rw [q]; constructor <;> intro h <;> linarith
    · exact C78_quartic eps seps a4 a3 a2 a1 a0 he h4 (h.1 h4)
  · norm_num [solveQuartic, solveCubic, solveQuadratic, solveLinear]

/-- C78 applies: x⁴ - 5x² + 4 = (x²-1)(x²-4) with four real roots (resolvent w³ + 5w² - 16w - 80 with roots -5, -4, 4). -/
example : ∀ x, x ∈ solveQuartic (1/2^52) (1/2^26) 1 0 (-5) 0 4 ↔ (x = -2 ∨ x = -1 ∨ x = 1 ∨ x = 2) := by
  have hr : ∀ x : ℝ, 1 * x ^ 4 + 0 * x ^ 3 + (-5) * x ^ 2 + 0 * x + 4 = 0 ↔ (x = -2 ∨ x = -1 ∨ x = 1 ∨ x = 2) := by
    intro x
    rw [show 1 * x ^ 4 + 0 * x ^ 3 + (-5) * x ^ 2 + 0 * x + 4 = (x + 2) * (x + 1) * (x - 1) * (x - 2) by ring]
    rw [mul_eq_zero, mul_eq_zero, mul_eq_zero, or_assoc, or_assoc]
    constructor
    · rintro (h | h | h | h)
      · left; linarith
      · right; left; linarith
      · right; right; left; linarith
      · right; right; right; linarith
    · rintro (h | h | h | h) <;> simp [h]
  intro x
  rw [(C78_quartic (1/2^52) (1/2^26) 1 0 (-5) 0 4 (by norm_num) one_ne_zero ⟨?_, ?_, ?_⟩).2 x, hr]
  · right; norm_num [abs_of_neg]
  · norm_num
  · intro r s h1 h2 hrs
    rw [hr] at h1 h2
    rcases h1 with rfl | rfl | rfl | rfl <;> rcases h2 with rfl | rfl | rfl | rfl <;> first | (exfalso; norm_num at hrs; done) | norm_num

/-- C78 fails when zero is a multiple root of the resolvent cubic: the equation x⁴ + x² = 0 has the root x = 0, but none is returned. The resolvent
w³ - w² has a double root 0, for which the error estimate is zero but the discriminant is negative; the other root w = 1 with a larger error
estimate is then skipped, although it is the only one leading to real factors. -/
theorem C78_refuted (eps seps : ℝ) (he : 0 < eps) : solveQuartic eps seps 1 0 1 0 0 = [] ∧ (1:ℝ) * 0 ^ 4 + 0 * 0 ^ 3 + 1 * 0 ^ 2 + 0 * 0 + 0 = 0 := by
  refine ⟨?_, by norm_num⟩
  rw [solveQuartic, if_neg one_ne_zero]
  have hcub := C44_cubic eps seps 1 (-1) 0 0 he.le one_ne_zero (by left; norm_num)
  have hL : solveCubic eps seps 1 (-1) 0 0 = [0, 1] := by
    have hmem : ∀ w, w ∈ solveCubic eps seps 1 (-1) 0 0 ↔ w = 0 ∨ w = 1 := by
      intro w
      rw [hcub.2, show 1 * w ^ 3 + -1 * w ^ 2 + 0 * w + 0 = w ^ 2 * (w - 1) by ring, mul_eq_zero, sub_eq_zero]
      simp
    refine List.Perm.eq_of_pairwise ?_ hcub.1 (by simp) ?_
    · intro a b _ _ h1 h2; exact absurd h1 (lt_asymm h2)
    · rw [List.perm_ext_iff_of_nodup (hcub.1.imp (fun h => h.ne)) (by simp)]
      intro w; rw [hmem]; simp
  norm_num
  rw [hL]
  have h0 : quarticPick eps 0 1 0 (-1) 0 0 (none, ⊤) 0 = (none, 0) := by
    rw [quarticPick, quarticErr]
    norm_num
  have h1 : quarticPick eps 0 1 0 (-1) 0 0 (none, 0) 1 = (none, 0) := by
    rw [quarticPick, quarticErr]
    norm_num
    intro h
    exfalso
    have : (0:EReal) < ((eps * 2 : ℝ) : EReal) := by exact_mod_cast (by linarith)
    norm_num at h this
    exact absurd h (not_le.2 this)
  rw [List.foldl_cons, h0, List.foldl_cons, h1, List.foldl_nil]

end Verif.Core
