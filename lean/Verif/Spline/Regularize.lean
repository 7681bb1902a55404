import Mathlib.Analysis.Calculus.Deriv.MeanValue
import Verif.Spline.ConstructProps

/-! C71: the slope limiter of cubic splines (/repo/src/math_spline.cpp:1121-1144, 1304-1307). Exact real arithmetic. -/
namespace Verif.Spline

open Verif.BSpline (Grid)

noncomputable section

/-! ## Model -/

/-- math_core.h:29. -/
def clip (x low upp : ℝ) : ℝ := if x > upp then upp else if x > low then x else low

/-- math_core.h:21. -/
def sgn (x : ℝ) : ℝ := if x > 0 then 1 else if x < 0 then -1 else 0

/-- math_spline.cpp:1126. -/
def THREE : ℝ := 3 - 3e-15

/-- math_spline.cpp:1123-1144: each iteration of the loop reads and writes only fder[i]. -/
def regularizeSpline (x f : ℕ → ℝ) (n : ℕ) (d : ℕ → ℝ) : ℕ → ℝ := fun i =>
  if n < 2 then d i else
  if i = 0 ∨ i = n - 1 then
    let k := if i = 0 then i else n - 2
    let sec := (f (k + 1) - f k) / (x (k + 1) - x k)
    if sec ≥ 0 then clip (d i) 0 (THREE * sec) else clip (d i) (THREE * sec) 0
  else
    let secL := (f i - f (i - 1)) / (x i - x (i - 1))
    let secR := (f (i + 1) - f i) / (x (i + 1) - x i)
    min |d i| (THREE * min |secL| |secR|) * (if secL * secR ≥ 0 then sgn secL else sgn (d i))

/-- math_spline.cpp:1269-1308, construction from function values. -/
def CubicSpline.create (x f : ℕ → ℝ) (n : ℕ) (regularize : Bool) (dl dr : Option ℝ) : Option (ℕ → ℝ) := do
  let d ← constructCubicSpline x f n dl dr
  return if regularize then regularizeSpline x f n d else d

/-! ## Monotonicity -/

theorem three_pos : 0 < THREE ∧ THREE < 3 := by unfold THREE; norm_num

theorem clip_bounds (x : ℝ) {low upp : ℝ} (h : low ≤ upp) : low ≤ clip x low upp ∧ clip x low upp ≤ upp := by
  rw [clip]; split_ifs with h1 h2
  · exact ⟨h, le_rfl⟩
  · exact ⟨h2.le, not_lt.1 h1⟩
  · exact ⟨le_rfl, h⟩

/-- A limited slope relative to a rising secant. -/
def Limited (d sec : ℝ) : Prop := 0 ≤ d ∧ d ≤ THREE * sec

theorem cubic_der_nonneg {xl xh fl fh dl dh : ℝ} (h : xl < xh)
    (hl : Limited dl ((fh - fl) / (xh - xl))) (hr : Limited dh ((fh - fl) / (xh - xl))) {t : ℝ} (t0 : xl ≤ t) (t1 : t ≤ xh) :
    0 ≤ (evalCubic t xl xh fl fh dl dh).der ∧
    (fl < fh → xl < t → t < xh → 0 < (evalCubic t xl xh fl fh dl dh).der) := by
  have hh : 0 < xh - xl := sub_pos.2 h
  set s := (fh - fl) / (xh - xl) with hs
  set u := (t - xl) / (xh - xl) with hu
  have u0 : 0 ≤ u := div_nonneg (by linarith) hh.le
  have u1 : u ≤ 1 := (div_le_one hh).2 (by linarith)
  have e : (evalCubic t xl xh fl fh dl dh).der = dl * (1 - u) + dh * u - (3 * (dl + dh) - 6 * s) * (u * (1 - u)) := by
    simp only [evalCubic]
    rw [hs, hu]; ring
  have hT := three_pos
  have s0 : 0 ≤ s := by
    by_contra hc
    push Not at hc
    have := hl.1.trans hl.2
    nlinarith
  rw [e]
  rcases s0.lt_or_eq with s0 | s0
  · obtain ⟨a, ha⟩ : ∃ a, a = dl / s := ⟨_, rfl⟩
    obtain ⟨b, hb⟩ : ∃ b, b = dh / s := ⟨_, rfl⟩
    have ea : dl = a * s := by rw [ha]; field_simp
    have eb : dh = b * s := by rw [hb]; field_simp
    have a0 : 0 ≤ a := by rw [ha]; exact div_nonneg hl.1 s0.le
    have b0 : 0 ≤ b := by rw [hb]; exact div_nonneg hr.1 s0.le
    have a3 : a < 3 := by
      rw [ha, div_lt_iff₀ s0]; exact lt_of_le_of_lt hl.2 (by nlinarith)
    have b3 : b < 3 := by
      rw [hb, div_lt_iff₀ s0]; exact lt_of_le_of_lt hr.2 (by nlinarith)
    have key : dl * (1 - u) + dh * u - (3 * (dl + dh) - 6 * s) * (u * (1 - u)) =
        s * ((1 - a / 3) * (1 - b / 3) * (6 * (u * (1 - u))) + (a / 3) * (1 - b / 3) * (3 * (1 - u) ^ 2) +
          (1 - a / 3) * (b / 3) * (3 * u ^ 2) + (a / 3) * (b / 3) * (3 * (1 - 2 * u) ^ 2)) := by
      rw [ea, eb]; ring
    rw [key]
    have p1 : 0 ≤ u * (1 - u) := mul_nonneg u0 (by linarith)
    have q1 : 0 < 1 - a / 3 := by linarith
    have q2 : 0 < 1 - b / 3 := by linarith
    constructor
    · have : 0 ≤ a / 3 := by positivity
      have : 0 ≤ b / 3 := by positivity
      positivity
    · intro _ h1 h2
      have v0 : 0 < u := div_pos (by linarith) hh
      have v1 : 0 < 1 - u := by
        have : u < 1 := (div_lt_one hh).2 (by linarith)
        linarith
      positivity
  · have d0 : dl = 0 := le_antisymm (by rw [← s0] at hl; simpa using hl.2) hl.1
    have d1 : dh = 0 := le_antisymm (by rw [← s0] at hr; simpa using hr.2) hr.1
    rw [← s0, d0, d1]
    refine ⟨by simp, fun hf _ _ => ?_⟩
    have : 0 < s := div_pos (sub_pos.2 hf) hh
    linarith

/-- The limiter at both ends of a rising segment whose neighbours do not fall. -/
theorem limited_ends {x f : ℕ → ℝ} {n : ℕ} (hg : Grid x n) (d : ℕ → ℝ) {i : ℕ} (hi : i + 1 < n)
    (hm : f i ≤ f (i + 1)) :
    ((i = 0 ∨ f (i - 1) ≤ f i) → Limited (regularizeSpline x f n d i) ((f (i + 1) - f i) / (x (i + 1) - x i))) ∧
    ((i + 2 = n ∨ f (i + 1) ≤ f (i + 2)) → Limited (regularizeSpline x f n d (i + 1)) ((f (i + 1) - f i) / (x (i + 1) - x i))) := by
  have hT := three_pos
  have hs : ∀ j, j + 1 < n → f j ≤ f (j + 1) → 0 ≤ (f (j + 1) - f j) / (x (j + 1) - x j) := fun j hj h =>
    div_nonneg (sub_nonneg.2 h) (sub_nonneg.2 (hg j (j + 1) (by omega) hj).le)
  have inner : ∀ j, j + 2 < n → f j ≤ f (j + 1) → f (j + 1) ≤ f (j + 2) →
      Limited (regularizeSpline x f n d (j + 1)) ((f (j + 1) - f j) / (x (j + 1) - x j)) ∧
      Limited (regularizeSpline x f n d (j + 1)) ((f (j + 2) - f (j + 1)) / (x (j + 2) - x (j + 1))) := by
    intro j hj h1 h2
    have s1 := hs j (by omega) h1
    have s2 := hs (j + 1) (by omega) h2
    rw [regularizeSpline, if_neg (by omega), if_neg (by omega)]
    simp only [Nat.add_sub_cancel]
    set a := (f (j + 1) - f j) / (x (j + 1) - x j)
    set b := (f (j + 1 + 1) - f (j + 1)) / (x (j + 1 + 1) - x (j + 1))
    rw [if_pos (mul_nonneg s1 s2), abs_of_nonneg s1, abs_of_nonneg s2]
    have m0 : 0 ≤ min |d (j + 1)| (THREE * min a b) := le_min (abs_nonneg _) (mul_nonneg hT.1.le (le_min s1 s2))
    have m1 : min |d (j + 1)| (THREE * min a b) ≤ THREE * a :=
      (min_le_right _ _).trans (mul_le_mul_of_nonneg_left (min_le_left _ _) hT.1.le)
    have m2 : min |d (j + 1)| (THREE * min a b) ≤ THREE * b :=
      (min_le_right _ _).trans (mul_le_mul_of_nonneg_left (min_le_right _ _) hT.1.le)
    have g : 0 ≤ sgn a ∧ sgn a ≤ 1 := by
      rw [sgn]; split_ifs <;> constructor <;> linarith
    generalize min |d (j + 1)| (THREE * min a b) = m at *
    refine ⟨⟨mul_nonneg m0 g.1, ?_⟩, ⟨mul_nonneg m0 g.1, ?_⟩⟩
    · nlinarith
    · show _ ≤ THREE * b
      nlinarith
  have s0 := hs i hi hm
  constructor
  · intro hL
    by_cases i0 : i = 0
    · subst i0
      rw [regularizeSpline, if_neg (by omega), if_pos (Or.inl rfl)]
      simp only [if_true]
      rw [if_pos s0]
      exact clip_bounds _ (mul_nonneg hT.1.le s0)
    · have hL' : f (i - 1) ≤ f i := by tauto
      have := (inner (i - 1) (by omega) (by rwa [show i - 1 + 1 = i by omega])
        (by rwa [show i - 1 + 1 = i by omega, show i - 1 + 2 = i + 1 by omega])).2
      rwa [show i - 1 + 1 = i by omega, show i - 1 + 2 = i + 1 by omega] at this
  · intro hR
    by_cases i1 : i + 2 = n
    · rw [regularizeSpline, if_neg (by omega), if_pos (Or.inr (by omega))]
      simp only [if_neg (show ¬ i + 1 = 0 by omega), show n - 2 = i by omega]
      rw [if_pos s0]
      exact clip_bounds _ (mul_nonneg hT.1.le s0)
    · exact (inner i (by omega) hm (by tauto)).1

/-- The limiter commutes with reversing the sign of the function. -/
theorem regularize_neg (x f : ℕ → ℝ) (n : ℕ) (d : ℕ → ℝ) (i : ℕ) :
    regularizeSpline x (fun j => -f j) n (fun j => -d j) i = -regularizeSpline x f n d i := by
  have hT := three_pos
  by_cases hn : n < 2
  · simp only [regularizeSpline, if_pos hn]
  rw [regularizeSpline, regularizeSpline, if_neg hn, if_neg hn]
  have neg : ∀ a b c : ℝ, (-a - -b) / c = -((a - b) / c) := fun a b c => by ring
  simp only [neg]
  by_cases hb : i = 0 ∨ i = n - 1
  · simp only [if_pos hb]
    generalize (f ((if i = 0 then i else n - 2) + 1) - f (if i = 0 then i else n - 2)) /
      (x ((if i = 0 then i else n - 2) + 1) - x (if i = 0 then i else n - 2)) = s
    rcases lt_trichotomy s 0 with h | h | h
    · have p : 0 < THREE * -s := mul_pos hT.1 (by linarith)
      rw [if_pos (by linarith), if_neg (by linarith), clip, clip]
      split_ifs <;> linarith
    · subst h
      simp only [neg_zero, mul_zero, ge_iff_le, le_refl, if_true, clip]
      split_ifs <;> linarith
    · have p : 0 < THREE * s := mul_pos hT.1 h
      rw [if_neg (by linarith), if_pos h.le, clip, clip]
      split_ifs <;> linarith
  · simp only [if_neg hb]
    generalize (f i - f (i - 1)) / (x i - x (i - 1)) = a
    generalize (f (i + 1) - f i) / (x (i + 1) - x i) = b
    have sneg : ∀ y, sgn (-y) = -sgn y := by
      intro y; rw [sgn, sgn]
      rcases lt_trichotomy y 0 with h | h | h
      · rw [if_pos (by linarith), if_neg (by linarith), if_pos h]; ring
      · subst h; simp
      · rw [if_neg (by linarith), if_pos (by linarith), if_pos h]
    rw [abs_neg, abs_neg, abs_neg, neg_mul_neg, sneg, sneg]
    split_ifs <;> ring

/-! ## C71 -/

/-- The reported derivative on a segment. -/
theorem segment_der {x f d : ℕ → ℝ} {n : ℕ} (hg : Grid x n) {i : ℕ} (hi : i + 1 < n) {S : ℝ → Jet3}
    (hS : ∀ t, CubicSpline.evalDeriv x f d n t = some (S t)) {t : ℝ} (t0 : x i ≤ t) (t1 : t ≤ x (i + 1)) :
    (S t).der = (evalCubic t (x i) (x (i + 1)) (f i) (f (i + 1)) (d i) (d (i + 1))).der := by
  obtain ⟨S', hS', hp⟩ := getS (cubic_piece hg (by omega) f d)
  obtain rfl : S' = S := by funext t; exact Option.some.inj ((hS' t).symm.trans (hS t))
  have ad : ∀ t, ∀ i < n, t = x i → (cubicPiece x f d n i t).der = (cubicPiece x f d n (i + 1) t).der := by
    rintro t i hi rfl; have := cubic_node hg f d hi; rw [this.2.1, this.2.2.2]
  rw [agree hg hp Jet3.der (ad t) (k := i + 1) ⟨by omega, fun _ => t0, fun _ => t1⟩]
  rw [cubicPiece, if_neg (by omega), if_neg (by omega)]; simp

/-- C71 (rising): whatever the slopes before the limiter, on every segment which rises (weakly) and whose two neighbours (if
they exist) rise (weakly), the regularized spline is non-decreasing and stays between the two node values; if the segment
rises strictly then so does the spline. -/
theorem C71_rising (x f d : ℕ → ℝ) (n : ℕ) (hg : Grid x n) (i : ℕ) (hi : i + 1 < n) (hm : f i ≤ f (i + 1))
    (hL : i = 0 ∨ f (i - 1) ≤ f i) (hR : i + 2 = n ∨ f (i + 1) ≤ f (i + 2)) :
    ∃ S : ℝ → Jet3, (∀ t, CubicSpline.evalDeriv x f (regularizeSpline x f n d) n t = some (S t)) ∧
      MonotoneOn (fun t => (S t).val) (Set.Icc (x i) (x (i + 1))) ∧
      (f i < f (i + 1) → StrictMonoOn (fun t => (S t).val) (Set.Icc (x i) (x (i + 1)))) ∧
      ∀ t ∈ Set.Icc (x i) (x (i + 1)), f i ≤ (S t).val ∧ (S t).val ≤ f (i + 1) := by
  obtain ⟨S, hS, hI⟩ := C69_cubic x f (regularizeSpline x f n d) n hg (by omega)
  have hx := hg i (i + 1) (by omega) hi
  have lim := limited_ends hg d hi hm
  have der := fun t t0 t1 => cubic_der_nonneg hx (lim.1 hL) (lim.2 hR) (t := t) t0 t1
  have cont : ContinuousOn (fun t => (S t).val) (Set.Icc (x i) (x (i + 1))) :=
    fun t _ => (hI.deriv t).continuousAt.continuousWithinAt
  have mono : MonotoneOn (fun t => (S t).val) (Set.Icc (x i) (x (i + 1))) := by
    apply monotoneOn_of_deriv_nonneg (convex_Icc _ _) cont
    · intro t _; exact (hI.deriv t).differentiableAt.differentiableWithinAt
    · intro t ht
      rw [interior_Icc] at ht
      rw [(hI.deriv t).deriv, segment_der hg hi hS ht.1.le ht.2.le]
      exact (der t ht.1.le ht.2.le).1
  refine ⟨S, hS, mono, ?_, ?_⟩
  · intro hlt
    apply strictMonoOn_of_deriv_pos (convex_Icc _ _) cont
    intro t ht
    rw [interior_Icc] at ht
    rw [(hI.deriv t).deriv, segment_der hg hi hS ht.1.le ht.2.le]
    exact (der t ht.1.le ht.2.le).2 hlt ht.1 ht.2
  · intro t ht
    have a := mono (Set.left_mem_Icc.2 hx.le) ht ht.1
    have b := mono ht (Set.right_mem_Icc.2 hx.le) ht.2
    simp only at a b
    rw [(hI.nodes i (by omega)).1] at a
    rw [(hI.nodes (i + 1) (by omega)).1] at b
    exact ⟨a, b⟩

/-- C71 (falling): the same for falling segments. -/
theorem C71_falling (x f d : ℕ → ℝ) (n : ℕ) (hg : Grid x n) (i : ℕ) (hi : i + 1 < n) (hm : f (i + 1) ≤ f i)
    (hL : i = 0 ∨ f i ≤ f (i - 1)) (hR : i + 2 = n ∨ f (i + 2) ≤ f (i + 1)) :
    ∃ S : ℝ → Jet3, (∀ t, CubicSpline.evalDeriv x f (regularizeSpline x f n d) n t = some (S t)) ∧
      AntitoneOn (fun t => (S t).val) (Set.Icc (x i) (x (i + 1))) ∧
      (f (i + 1) < f i → StrictAntiOn (fun t => (S t).val) (Set.Icc (x i) (x (i + 1)))) ∧
      ∀ t ∈ Set.Icc (x i) (x (i + 1)), f (i + 1) ≤ (S t).val ∧ (S t).val ≤ f i := by
  obtain ⟨S, hS, hI⟩ := C69_cubic x f (regularizeSpline x f n d) n hg (by omega)
  have hx := hg i (i + 1) (by omega) hi
  have lim := limited_ends (f := fun j => -f j) hg (fun j => -d j) hi (neg_le_neg hm)
  rw [regularize_neg x f n d i, regularize_neg x f n d (i + 1)] at lim
  have hL' : i = 0 ∨ -f (i - 1) ≤ -f i := hL.imp id neg_le_neg
  have hR' : i + 2 = n ∨ -f (i + 1) ≤ -f (i + 2) := hR.imp id neg_le_neg
  have der := fun t t0 t1 => cubic_der_nonneg hx (lim.1 hL') (lim.2 hR') (t := t) t0 t1
  have negder : ∀ t, (evalCubic t (x i) (x (i + 1)) (-f i) (-f (i + 1)) (-regularizeSpline x f n d i) (-regularizeSpline x f n d (i + 1))).der =
      -(evalCubic t (x i) (x (i + 1)) (f i) (f (i + 1)) (regularizeSpline x f n d i) (regularizeSpline x f n d (i + 1))).der := by
    intro t; simp only [evalCubic]; ring
  simp only [negder] at der
  have cont : ContinuousOn (fun t => (S t).val) (Set.Icc (x i) (x (i + 1))) :=
    fun t _ => (hI.deriv t).continuousAt.continuousWithinAt
  have mono : AntitoneOn (fun t => (S t).val) (Set.Icc (x i) (x (i + 1))) := by
    apply antitoneOn_of_deriv_nonpos (convex_Icc _ _) cont
    · intro t _; exact (hI.deriv t).differentiableAt.differentiableWithinAt
    · intro t ht
      rw [interior_Icc] at ht
      rw [(hI.deriv t).deriv, segment_der hg hi hS ht.1.le ht.2.le]
      linarith [(der t ht.1.le ht.2.le).1]
  refine ⟨S, hS, mono, ?_, ?_⟩
  · intro hlt
    apply strictAntiOn_of_deriv_neg (convex_Icc _ _) cont
    intro t ht
    rw [interior_Icc] at ht
    rw [(hI.deriv t).deriv, segment_der hg hi hS ht.1.le ht.2.le]
    linarith [(der t ht.1.le ht.2.le).2 (neg_lt_neg hlt) ht.1 ht.2]
  · intro t ht
    have a := mono (Set.left_mem_Icc.2 hx.le) ht ht.1
    have b := mono ht (Set.right_mem_Icc.2 hx.le) ht.2
    simp only at a b
    rw [(hI.nodes i (by omega)).1] at a
    rw [(hI.nodes (i + 1) (by omega)).1] at b
    exact ⟨b, a⟩

/-- C71: with non-decreasing values, the regularized spline is non-decreasing on the whole line (including the
extrapolation); with non-increasing values, non-increasing. -/
theorem C71_monotone (x f : ℕ → ℝ) (n : ℕ) (hg : Grid x n) (hn : 2 ≤ n) (dl dr : Option ℝ) :
    ∃ d, CubicSpline.create x f n true dl dr = some d ∧ ∃ S : ℝ → Jet3, (∀ t, CubicSpline.evalDeriv x f d n t = some (S t)) ∧
      ((∀ i, i + 1 < n → f i ≤ f (i + 1)) → Monotone (fun t => (S t).val)) ∧
      ((∀ i, i + 1 < n → f (i + 1) ≤ f i) → Antitone (fun t => (S t).val)) := by
  have hc : ∃ d0, constructCubicSpline x f n dl dr = some d0 := by
    obtain ⟨s, e, _⟩ := solve_spec hg hn f dl dr
    rw [constructCubicSpline.eq_def, if_neg (by omega), e]
    exact ⟨_, rfl⟩
  obtain ⟨d, hd⟩ := hc
  refine ⟨regularizeSpline x f n d, by simp [CubicSpline.create, hd], ?_⟩
  obtain ⟨S, hS, hI⟩ := C69_cubic x f (regularizeSpline x f n d) n hg (by omega)
  obtain ⟨S', hS', hp⟩ := getS (cubic_piece hg (by omega) f (regularizeSpline x f n d))
  obtain rfl : S' = S := by funext t; exact Option.some.inj ((hS' t).symm.trans (hS t))
  have diff : Differentiable ℝ (fun t => (S' t).val) := fun t => (hI.deriv t).differentiableAt
  refine ⟨S', hS, ?_, ?_⟩
  · intro hm
    apply monotone_of_deriv_nonneg diff
    intro t
    rw [(hI.deriv t).deriv]
    have l0 := (limited_ends hg d (show 0 + 1 < n by omega) (hm 0 (by omega))).1 (Or.inl rfl)
    have l1 := (limited_ends hg d (show n - 2 + 1 < n by omega) (hm (n - 2) (by omega))).2 (Or.inl (by omega))
    obtain ⟨k, hk, e⟩ := hp t
    rw [e, cubicPiece]
    split_ifs with h1 h2
    · exact l0.1
    · rw [show n - 2 + 1 = n - 1 by omega] at l1; exact l1.1
    · have hkn := hk.1
      have a := hk.2.1 (by omega)
      have b := hk.2.2 (by omega)
      obtain ⟨j, rfl⟩ : ∃ j, k = j + 1 := ⟨k - 1, by omega⟩
      rw [Nat.add_sub_cancel] at a ⊢
      have lim := limited_ends hg d (show j + 1 < n by omega) (hm j (by omega))
      refine (cubic_der_nonneg (hg j (j + 1) (by omega) (by omega)) (lim.1 ?_) (lim.2 ?_) a b).1
      · by_cases j0 : j = 0
        · exact Or.inl j0
        · right; have := hm (j - 1) (by omega); rwa [show j - 1 + 1 = j by omega] at this
      · by_cases j0 : j + 2 = n
        · exact Or.inl j0
        · right; exact hm (j + 1) (by omega)
  · intro hm
    apply antitone_of_deriv_nonpos diff
    intro t
    rw [(hI.deriv t).deriv]
    have lim : ∀ j, j + 1 < n → _ := fun j hj =>
      limited_ends (f := fun j => -f j) hg (fun j => -d j) hj (neg_le_neg (hm j hj))
    have rn := regularize_neg x f n d
    have l0 := (lim 0 (by omega)).1 (Or.inl rfl)
    have l1 := (lim (n - 2) (by omega)).2 (Or.inl (by omega))
    obtain ⟨k, hk, e⟩ := hp t
    rw [e, cubicPiece]
    split_ifs with h1 h2
    · rw [rn 0] at l0
      have := l0.1
      show regularizeSpline x f n d 0 ≤ 0
      linarith
    · rw [show n - 2 + 1 = n - 1 by omega, rn (n - 1)] at l1
      have := l1.1
      show regularizeSpline x f n d (n - 1) ≤ 0
      linarith
    · have hkn := hk.1
      have a := hk.2.1 (by omega)
      have b := hk.2.2 (by omega)
      obtain ⟨j, rfl⟩ : ∃ j, k = j + 1 := ⟨k - 1, by omega⟩
      rw [Nat.add_sub_cancel] at a ⊢
      have lim := lim j (by omega)
      rw [rn j, rn (j + 1)] at lim
      have := (cubic_der_nonneg (hg j (j + 1) (by omega) (by omega)) (lim.1 ?_) (lim.2 ?_) a b).1
      · have e : (evalCubic t (x j) (x (j + 1)) (-f j) (-f (j + 1)) (-regularizeSpline x f n d j) (-regularizeSpline x f n d (j + 1))).der =
            -(evalCubic t (x j) (x (j + 1)) (f j) (f (j + 1)) (regularizeSpline x f n d j) (regularizeSpline x f n d (j + 1))).der := by
          simp only [evalCubic]; ring
        rw [e] at this
        linarith
      · by_cases j0 : j = 0
        · exact Or.inl j0
        · right; have := hm (j - 1) (by omega); rw [show j - 1 + 1 = j by omega] at this; exact neg_le_neg this
      · by_cases j0 : j + 2 = n
        · exact Or.inl j0
        · right; exact neg_le_neg (hm (j + 1) (by omega))

/-- C71: slopes that already respect the limits are not changed. -/
theorem C71_untouched (x f d : ℕ → ℝ) (n : ℕ) (i : ℕ) (hn : 2 ≤ n) (hi : i < n)
    (hL : 0 < i → Limited (d i) ((f i - f (i - 1)) / (x i - x (i - 1))))
    (hR : i + 1 < n → Limited (d i) ((f (i + 1) - f i) / (x (i + 1) - x i))) : regularizeSpline x f n d i = d i := by
  have hT := three_pos
  have nn : ∀ {a b : ℝ}, Limited a b → 0 ≤ b := by
    intro a b h
    by_contra hc
    push Not at hc
    have := h.1.trans h.2
    nlinarith
  rw [regularizeSpline, if_neg (by omega)]
  by_cases hb : i = 0 ∨ i = n - 1
  · rw [if_pos hb]
    have h : Limited (d i) ((f ((if i = 0 then i else n - 2) + 1) - f (if i = 0 then i else n - 2)) /
        (x ((if i = 0 then i else n - 2) + 1) - x (if i = 0 then i else n - 2))) := by
      by_cases h0 : i = 0
      · subst h0; simpa using hR (by omega)
      · simp only [if_neg h0]
        have e : i = n - 2 + 1 := by omega
        have := hL (by omega)
        rwa [show i - 1 = n - 2 by omega, show f i = f (n - 2 + 1) by rw [← e], show x i = x (n - 2 + 1) by rw [← e]] at this
    simp only
    rw [if_pos (nn h), clip, if_neg (not_lt.2 h.2)]
    split_ifs with h2
    · rfl
    · exact le_antisymm h.1 (not_lt.1 h2)
  · rw [if_neg hb]
    have h1 := hL (by omega)
    have h2 := hR (by omega)
    simp only
    generalize (f i - f (i - 1)) / (x i - x (i - 1)) = a at *
    generalize (f (i + 1) - f i) / (x (i + 1) - x i) = b at *
    have a0 := nn h1
    have b0 := nn h2
    rw [if_pos (mul_nonneg a0 b0), abs_of_nonneg a0, abs_of_nonneg b0, abs_of_nonneg h1.1]
    have : d i ≤ THREE * min a b := by
      rcases min_choice a b with h | h <;> rw [h]
      · exact h1.2
      · exact h2.2
    rw [min_eq_left this, sgn]
    rcases a0.lt_or_eq with h | h
    · rw [if_pos h, mul_one]
    · have : d i = 0 := le_antisymm (by have := h1.2; rw [← h] at this; simpa using this) h1.1
      rw [this]; ring

/-- C71 is not vacuous: a monotone table with a step, for which the unregularized natural spline overshoots. -/
example : ∃ d, CubicSpline.create (fun i => (i : ℝ)) (fun i => if i < 2 then 0 else 1) 4 true none none = some d ∧
    ∃ S : ℝ → Jet3, (∀ t, CubicSpline.evalDeriv (fun i => (i : ℝ)) (fun i => if i < 2 then 0 else 1) d 4 t = some (S t)) ∧
      Monotone (fun t => (S t).val) := by
  obtain ⟨d, hd, S, hS, h, _⟩ := C71_monotone (fun i => (i : ℝ)) (fun i => if i < 2 then 0 else 1) 4
    (fun i j hij _ => by simpa using hij) (by omega) none none
  refine ⟨d, hd, S, hS, h ?_⟩
  intro i hi
  have : i = 0 ∨ i = 1 ∨ i = 2 := by omega
  rcases this with rfl | rfl | rfl <;> norm_num

end
end Verif.Spline
