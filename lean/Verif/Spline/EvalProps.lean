import Verif.Spline.Eval

/-! C69: evaluation of the one-dimensional interpolators: interpolation, smoothness, exact derivatives, extrapolation.
Exact real arithmetic. -/
namespace Verif.Spline

open Verif.BSpline (Grid)

noncomputable section

/-! ## Derivatives on a segment -/

theorem poly_deriv (xl c0 c1 c2 c3 c4 c5 x : ℝ) :
    HasDerivAt (fun x => c0 + c1 * (x - xl) + c2 * (x - xl) ^ 2 + c3 * (x - xl) ^ 3 + c4 * (x - xl) ^ 4 + c5 * (x - xl) ^ 5)
      (c1 + 2 * c2 * (x - xl) + 3 * c3 * (x - xl) ^ 2 + 4 * c4 * (x - xl) ^ 3 + 5 * c5 * (x - xl) ^ 4) x := by
  have h := (hasDerivAt_id x).sub_const xl
  have := (((((hasDerivAt_const x c0).add (h.const_mul c1)).add ((h.pow 2).const_mul c2)).add
    ((h.pow 3).const_mul c3)).add ((h.pow 4).const_mul c4)).add ((h.pow 5).const_mul c5)
  refine this.congr_deriv ?_
  simp only [id]
  push_cast
  ring

theorem cubic_hasDeriv (xl xh fl fh dl dh : ℝ) (h : xl ≠ xh) (x : ℝ) :
    HasDerivAt (fun x => (evalCubic x xl xh fl fh dl dh).val) (evalCubic x xl xh fl fh dl dh).der x ∧
    HasDerivAt (fun x => (evalCubic x xl xh fl fh dl dh).der) (evalCubic x xl xh fl fh dl dh).der2 x ∧
    HasDerivAt (fun x => (evalCubic x xl xh fl fh dl dh).der2) (evalCubic x xl xh fl fh dl dh).der3 x := by
  have e := fun x => cubic_poly x xl xh fl fh dl dh h
  simp only at e
  simp only [e]
  set a := (dl + dh - 2 * (fh - fl) / (xh - xl)) / (xh - xl) ^ 2
  set b := (3 * (fh - fl) / (xh - xl) - 2 * dl - dh) / (xh - xl)
  refine ⟨?_, ?_, ?_⟩
  · have := poly_deriv xl fl dl b a 0 0 x
    refine (this.congr_deriv (by ring)).congr_of_eventuallyEq (Filter.Eventually.of_forall fun s => ?_)
    simp only; ring
  · have := poly_deriv xl dl (2 * b) (3 * a) 0 0 0 x
    refine (this.congr_deriv (by ring)).congr_of_eventuallyEq (Filter.Eventually.of_forall fun s => ?_)
    simp only; ring
  · have := poly_deriv xl (2 * b) (6 * a) 0 0 0 0 x
    refine (this.congr_deriv (by ring)).congr_of_eventuallyEq (Filter.Eventually.of_forall fun s => ?_)
    simp only; ring

theorem cubic_ends (xl xh fl fh dl dh : ℝ) (h : xl ≠ xh) :
    (evalCubic xl xl xh fl fh dl dh).val = fl ∧ (evalCubic xl xl xh fl fh dl dh).der = dl ∧
    (evalCubic xh xl xh fl fh dl dh).val = fh ∧ (evalCubic xh xl xh fl fh dl dh).der = dh := by
  have hh : xh - xl ≠ 0 := sub_ne_zero.2 h.symm
  simp [evalCubic, div_self hh]

theorem quintic_hasDeriv (xl xh fl fh f1l f1h f2l f2h : ℝ) (h : xl ≠ xh) (x : ℝ) :
    HasDerivAt (fun x => (evalQuintic x xl xh fl fh f1l f1h f2l f2h).val) (evalQuintic x xl xh fl fh f1l f1h f2l f2h).der x ∧
    HasDerivAt (fun x => (evalQuintic x xl xh fl fh f1l f1h f2l f2h).der) (evalQuintic x xl xh fl fh f1l f1h f2l f2h).der2 x ∧
    HasDerivAt (fun x => (evalQuintic x xl xh fl fh f1l f1h f2l f2h).der2) (evalQuintic x xl xh fl fh f1l f1h f2l f2h).der3 x := by
  have hh : xh - xl ≠ 0 := sub_ne_zero.2 h.symm
  have e := fun x => quintic_poly x xl xh fl fh f1l f1h f2l f2h h
  simp only at e
  simp only [e]
  set H := xh - xl
  set a := fh - fl - H * f1l - H ^ 2 / 2 * f2l
  set b := H * (f1h - f1l - H * f2l)
  set c := H ^ 2 * (f2h - f2l)
  set A := 10 * a - 4 * b + c / 2
  set B := -15 * a + 7 * b - c
  set C := 6 * a - 3 * b + c / 2
  refine ⟨?_, ?_, ?_⟩
  · have := poly_deriv xl fl f1l (f2l / 2) (A / H ^ 3) (B / H ^ 4) (C / H ^ 5) x
    refine (this.congr_deriv (by field_simp)).congr_of_eventuallyEq (Filter.Eventually.of_forall fun s => ?_)
    simp only; field_simp
  · have := poly_deriv xl f1l f2l (3 * A / H ^ 3) (4 * B / H ^ 4) (5 * C / H ^ 5) 0 x
    refine (this.congr_deriv (by field_simp; ring)).congr_of_eventuallyEq (Filter.Eventually.of_forall fun s => ?_)
    simp only; field_simp; ring
  · have := poly_deriv xl f2l (6 * A / H ^ 3) (12 * B / H ^ 4) (20 * C / H ^ 5) 0 0 x
    refine (this.congr_deriv (by field_simp; ring)).congr_of_eventuallyEq (Filter.Eventually.of_forall fun s => ?_)
    simp only; field_simp; ring

theorem quintic_ends (xl xh fl fh f1l f1h f2l f2h : ℝ) (h : xl ≠ xh) :
    (evalQuintic xl xl xh fl fh f1l f1h f2l f2h).val = fl ∧ (evalQuintic xl xl xh fl fh f1l f1h f2l f2h).der = f1l ∧
    (evalQuintic xl xl xh fl fh f1l f1h f2l f2h).der2 = f2l ∧
    (evalQuintic xh xl xh fl fh f1l f1h f2l f2h).val = fh ∧ (evalQuintic xh xl xh fl fh f1l f1h f2l f2h).der = f1h ∧
    (evalQuintic xh xl xh fl fh f1l f1h f2l f2h).der2 = f2h := by
  simp [evalQuintic, h]

/-! ## The pieces -/

/-- Linear extrapolation. -/
def linPiece (x0 f0 d0 t : ℝ) : Jet3 := ⟨f0 + d0 * (t - x0), d0, 0, 0⟩

def cubicPiece (x f d : ℕ → ℝ) (n k : ℕ) (t : ℝ) : Jet3 :=
  if k = 0 then linPiece (x 0) (f 0) (d 0) t
  else if k = n then linPiece (x (n - 1)) (f (n - 1)) (d (n - 1)) t
  else evalCubic t (x (k - 1)) (x k) (f (k - 1)) (f k) (d (k - 1)) (d k)

def quinticPiece (x f d d2 : ℕ → ℝ) (n k : ℕ) (t : ℝ) : Jet3 :=
  if k = 0 then linPiece (x 0) (f 0) (d 0) t
  else if k = n then linPiece (x (n - 1)) (f (n - 1)) (d (n - 1)) t
  else evalQuintic t (x (k - 1)) (x k) (f (k - 1)) (f k) (d (k - 1)) (d k) (d2 (k - 1)) (d2 k)

theorem lin_if (f0 d0 s : ℝ) : f0 + (if d0 = 0 then 0 else d0 * s) = f0 + d0 * s := by
  split_ifs with h
  · rw [h]; ring
  · rfl

theorem cubic_piece {x : ℕ → ℝ} {n : ℕ} (hg : Grid x n) (hn : 0 < n) (f d : ℕ → ℝ) (t : ℝ) :
    ∃ k, InPiece x n k t ∧ CubicSpline.evalDeriv x f d n t = some (cubicPiece x f d n k t) := by
  rw [CubicSpline.evalDeriv, if_neg (by omega)]
  simp only [lin_if]
  rcases bin_cases hg hn t with ⟨h, hb⟩ | ⟨h, hb⟩ | ⟨h1, h2, hb⟩ | ⟨k, hk, h1, h2, _, hb⟩
  · refine ⟨0, ⟨by omega, fun h' => absurd h' (lt_irrefl _), fun _ => h.le⟩, ?_⟩
    rw [hb]; simp [cubicPiece, linPiece]
  · refine ⟨n, ⟨le_rfl, fun _ => h.le, fun h' => absurd h' (lt_irrefl _)⟩, ?_⟩
    rw [hb, if_neg (by omega), if_pos (by omega), cubicPiece, if_neg (by omega), if_pos rfl, linPiece]
  · refine ⟨n, ⟨le_rfl, fun _ => by rw [h1]; exact h2.ge, fun h' => absurd h' (lt_irrefl _)⟩, ?_⟩
    rw [hb, if_neg (by omega), if_pos (by omega), cubicPiece, if_neg (by omega), if_pos rfl, linPiece]
  · refine ⟨k + 1, ⟨by omega, fun _ => h1, fun _ => h2⟩, ?_⟩
    rw [hb, if_neg (by omega), if_neg (by omega), cubicPiece, if_neg (by omega), if_neg (by omega)]
    simp

theorem quintic_piece {x : ℕ → ℝ} {n : ℕ} (hg : Grid x n) (hn : 0 < n) (f d d2 : ℕ → ℝ) (t : ℝ) :
    ∃ k, InPiece x n k t ∧ QuinticSpline.evalDeriv x f d d2 n t = some (quinticPiece x f d d2 n k t) := by
  rw [QuinticSpline.evalDeriv, if_neg (by omega)]
  simp only [lin_if]
  rcases bin_cases hg hn t with ⟨h, hb⟩ | ⟨h, hb⟩ | ⟨h1, h2, hb⟩ | ⟨k, hk, h1, h2, _, hb⟩
  · refine ⟨0, ⟨by omega, fun h' => absurd h' (lt_irrefl _), fun _ => h.le⟩, ?_⟩
    rw [hb]; simp [quinticPiece, linPiece]
  · refine ⟨n, ⟨le_rfl, fun _ => h.le, fun h' => absurd h' (lt_irrefl _)⟩, ?_⟩
    rw [hb, if_neg (by omega), if_pos (by omega), quinticPiece, if_neg (by omega), if_pos rfl, linPiece]
  · refine ⟨n, ⟨le_rfl, fun _ => by rw [h1]; exact h2.ge, fun h' => absurd h' (lt_irrefl _)⟩, ?_⟩
    rw [hb, if_neg (by omega), if_pos (by omega), quinticPiece, if_neg (by omega), if_pos rfl, linPiece]
  · refine ⟨k + 1, ⟨by omega, fun _ => h1, fun _ => h2⟩, ?_⟩
    rw [hb, if_neg (by omega), if_neg (by omega), quinticPiece, if_neg (by omega), if_neg (by omega)]
    simp

theorem seg_ne {x : ℕ → ℝ} {n k : ℕ} (hg : Grid x n) (h0 : k ≠ 0) (hk : k < n) : x (k - 1) ≠ x k :=
  (hg _ _ (by omega) hk).ne

/-- Value and derivative of the two pieces at a node. -/
theorem cubic_node {x : ℕ → ℝ} {n : ℕ} (hg : Grid x n) (f d : ℕ → ℝ) {i : ℕ} (hi : i < n) :
    (cubicPiece x f d n i (x i)).val = f i ∧ (cubicPiece x f d n i (x i)).der = d i ∧
    (cubicPiece x f d n (i + 1) (x i)).val = f i ∧ (cubicPiece x f d n (i + 1) (x i)).der = d i := by
  refine ⟨?_, ?_, ?_, ?_⟩
  all_goals rw [cubicPiece]
  · split_ifs with h h'
    · subst h; simp [linPiece]
    · omega
    · exact (cubic_ends _ _ _ _ _ _ (seg_ne hg h hi)).2.2.1
  · split_ifs with h h'
    · subst h; simp [linPiece]
    · omega
    · exact (cubic_ends _ _ _ _ _ _ (seg_ne hg h hi)).2.2.2
  · rw [if_neg (by omega)]
    split_ifs with h
    · subst h; simp [linPiece]
    · exact (cubic_ends _ _ _ _ _ _ (seg_ne hg (Nat.succ_ne_zero i) (by omega))).1
  · rw [if_neg (by omega)]
    split_ifs with h
    · subst h; simp [linPiece]
    · exact (cubic_ends _ _ _ _ _ _ (seg_ne hg (Nat.succ_ne_zero i) (by omega))).2.1

theorem quintic_node {x : ℕ → ℝ} {n : ℕ} (hg : Grid x n) (f d d2 : ℕ → ℝ) {i : ℕ} (hi : i < n) :
    ((quinticPiece x f d d2 n i (x i)).val = f i ∧ (quinticPiece x f d d2 n i (x i)).der = d i ∧
      (0 < i → (quinticPiece x f d d2 n i (x i)).der2 = d2 i)) ∧
    (quinticPiece x f d d2 n (i + 1) (x i)).val = f i ∧ (quinticPiece x f d d2 n (i + 1) (x i)).der = d i ∧
      (i + 1 < n → (quinticPiece x f d d2 n (i + 1) (x i)).der2 = d2 i) := by
  constructor
  · rw [quinticPiece]
    split_ifs with h h'
    · subst h; simp [linPiece]
    · omega
    · have := quintic_ends _ _ (f (i - 1)) (f i) (d (i - 1)) (d i) (d2 (i - 1)) (d2 i) (seg_ne hg h hi)
      exact ⟨this.2.2.2.1, this.2.2.2.2.1, fun _ => this.2.2.2.2.2⟩
  · rw [quinticPiece, if_neg (by omega)]
    split_ifs with h
    · refine ⟨?_, ?_, fun h' => by omega⟩ <;> (subst h; simp [linPiece])
    · have := quintic_ends _ _ (f i) (f (i + 1)) (d i) (d (i + 1)) (d2 i) (d2 (i + 1)) (seg_ne hg (Nat.succ_ne_zero i) (show i + 1 < n by omega))
      exact ⟨this.1, this.2.1, fun _ => this.2.2.1⟩

theorem lin_hasDeriv (x0 f0 d0 t : ℝ) : HasDerivAt (fun t => (linPiece x0 f0 d0 t).val) (linPiece x0 f0 d0 t).der t ∧
    HasDerivAt (fun t => (linPiece x0 f0 d0 t).der) (linPiece x0 f0 d0 t).der2 t ∧
    HasDerivAt (fun t => (linPiece x0 f0 d0 t).der2) (linPiece x0 f0 d0 t).der3 t := by
  simp only [linPiece]
  refine ⟨?_, hasDerivAt_const _ _, hasDerivAt_const _ _⟩
  have := poly_deriv x0 f0 d0 0 0 0 0 t
  refine (this.congr_deriv (by ring)).congr_of_eventuallyEq (Filter.Eventually.of_forall fun s => ?_)
  simp only; ring

theorem cubicPiece_hasDeriv {x : ℕ → ℝ} {n : ℕ} (hg : Grid x n) (f d : ℕ → ℝ) (k : ℕ) (hk : k ≤ n) (t : ℝ) :
    HasDerivAt (fun t => (cubicPiece x f d n k t).val) (cubicPiece x f d n k t).der t ∧
    HasDerivAt (fun t => (cubicPiece x f d n k t).der) (cubicPiece x f d n k t).der2 t ∧
    HasDerivAt (fun t => (cubicPiece x f d n k t).der2) (cubicPiece x f d n k t).der3 t := by
  simp only [cubicPiece]
  by_cases h : k = 0
  · simp only [if_pos h]; exact lin_hasDeriv _ _ _ _
  · by_cases h' : k = n
    · simp only [if_neg h, if_pos h']; exact lin_hasDeriv _ _ _ _
    · simp only [if_neg h, if_neg h']
      exact cubic_hasDeriv _ _ _ _ _ _ (seg_ne hg h (by omega)) t

theorem quinticPiece_hasDeriv {x : ℕ → ℝ} {n : ℕ} (hg : Grid x n) (f d d2 : ℕ → ℝ) (k : ℕ) (hk : k ≤ n) (t : ℝ) :
    HasDerivAt (fun t => (quinticPiece x f d d2 n k t).val) (quinticPiece x f d d2 n k t).der t ∧
    HasDerivAt (fun t => (quinticPiece x f d d2 n k t).der) (quinticPiece x f d d2 n k t).der2 t ∧
    HasDerivAt (fun t => (quinticPiece x f d d2 n k t).der2) (quinticPiece x f d d2 n k t).der3 t := by
  simp only [quinticPiece]
  by_cases h : k = 0
  · simp only [if_pos h]; exact lin_hasDeriv _ _ _ _
  · by_cases h' : k = n
    · simp only [if_neg h, if_pos h']; exact lin_hasDeriv _ _ _ _
    · simp only [if_neg h, if_neg h']
      exact quintic_hasDeriv _ _ _ _ _ _ _ _ (seg_ne hg h (by omega)) t

/-! ## C69 -/

/-- What a user of an interpolator with continuous first derivative relies on: S is a function with the given values and
slopes at the nodes; the reported first derivative is the derivative of the reported value everywhere (inside the grid, at
the nodes and outside); between the nodes and outside of the grid the second and third derivatives are the derivatives of
the lower ones; outside of the grid the function is the tangent line at the nearest end. -/
structure Interpolates (x f d : ℕ → ℝ) (n deg : ℕ) (S : ℝ → Jet3) : Prop where
  nodes : ∀ i < n, (S (x i)).val = f i ∧ (S (x i)).der = d i
  deriv : ∀ t, HasDerivAt (fun t => (S t).val) (S t).der t
  deriv2 : ∀ t, (∀ i < n, t ≠ x i) → HasDerivAt (fun t => (S t).der) (S t).der2 t ∧ HasDerivAt (fun t => (S t).der2) (S t).der3 t
  left : ∀ t ≤ x 0, (S t).val = f 0 + d 0 * (t - x 0)
  right : ∀ t, x (n - 1) ≤ t → (S t).val = f (n - 1) + d (n - 1) * (t - x (n - 1))
  poly : ∀ i, i + 1 < n → ∃ p : Polynomial ℝ, p.natDegree ≤ deg ∧ ∀ t, x i ≤ t → t ≤ x (i + 1) → (S t).val = p.eval t

theorem getS {x : ℕ → ℝ} {n : ℕ} {ev : ℝ → Option Jet3} {pieces : ℕ → ℝ → Jet3}
    (h : ∀ t, ∃ k, InPiece x n k t ∧ ev t = some (pieces k t)) :
    ∃ S : ℝ → Jet3, (∀ t, ev t = some (S t)) ∧ ∀ t, ∃ k, InPiece x n k t ∧ S t = pieces k t := by
  choose k hk he using h
  exact ⟨fun t => pieces (k t) t, he, fun t => ⟨k t, hk t, rfl⟩⟩

open Polynomial in
theorem cubic_isPoly (xl xh fl fh dl dh : ℝ) (h : xl ≠ xh) :
    ∃ p : ℝ[X], p.natDegree ≤ 3 ∧ ∀ t, (evalCubic t xl xh fl fh dl dh).val = p.eval t := by
  set a := (dl + dh - 2 * (fh - fl) / (xh - xl)) / (xh - xl) ^ 2
  set b := (3 * (fh - fl) / (xh - xl) - 2 * dl - dh) / (xh - xl)
  refine ⟨C fl + C dl * (X - C xl) + C b * (X - C xl) ^ 2 + C a * (X - C xl) ^ 3, ?_, ?_⟩
  · compute_degree
  · intro t
    have := cubic_poly t xl xh fl fh dl dh h
    simp only at this
    rw [this]; simp [a, b]

open Polynomial in
theorem quintic_isPoly (xl xh fl fh f1l f1h f2l f2h : ℝ) (h : xl ≠ xh) :
    ∃ p : ℝ[X], p.natDegree ≤ 5 ∧ ∀ t, (evalQuintic t xl xh fl fh f1l f1h f2l f2h).val = p.eval t := by
  have hh : xh - xl ≠ 0 := sub_ne_zero.2 h.symm
  have e := fun x => quintic_poly x xl xh fl fh f1l f1h f2l f2h h
  simp only at e
  simp only [e]
  set H := xh - xl
  set a := fh - fl - H * f1l - H ^ 2 / 2 * f2l
  set b := H * (f1h - f1l - H * f2l)
  set c := H ^ 2 * (f2h - f2l)
  set A := 10 * a - 4 * b + c / 2
  set B := -15 * a + 7 * b - c
  set C' := 6 * a - 3 * b + c / 2
  refine ⟨C fl + C f1l * (X - C xl) + C (f2l / 2) * (X - C xl) ^ 2 + C (A / H ^ 3) * (X - C xl) ^ 3 +
    C (B / H ^ 4) * (X - C xl) ^ 4 + C (C' / H ^ 5) * (X - C xl) ^ 5, ?_, ?_⟩
  · compute_degree
  · intro t
    simp
    field_simp

/-- C69 for CubicSpline, whatever the values and derivatives at the nodes (hence for every constructor). -/
theorem C69_cubic (x f d : ℕ → ℝ) (n : ℕ) (hg : Grid x n) (hn : 0 < n) :
    ∃ S : ℝ → Jet3, (∀ t, CubicSpline.evalDeriv x f d n t = some (S t)) ∧ Interpolates x f d n 3 S := by
  obtain ⟨S, hS, hp⟩ := getS (cubic_piece hg hn f d)
  have av : ∀ t, ∀ i < n, t = x i → (cubicPiece x f d n i t).val = (cubicPiece x f d n (i + 1) t).val := by
    rintro t i hi rfl; have := cubic_node hg f d hi; rw [this.1, this.2.2.1]
  have ad : ∀ t, ∀ i < n, t = x i → (cubicPiece x f d n i t).der = (cubicPiece x f d n (i + 1) t).der := by
    rintro t i hi rfl; have := cubic_node hg f d hi; rw [this.2.1, this.2.2.2]
  refine ⟨S, hS, ?_⟩
  constructor
  · intro i hi
    have := cubic_node hg f d hi
    rw [agree hg hp Jet3.val (av _) (inPiece_left hg hi), agree hg hp Jet3.der (ad _) (inPiece_left hg hi)]
    exact ⟨this.1, this.2.1⟩
  · intro t
    refine glue hg hn hp Jet3.val (av t) ?_
    intro k hk
    rw [agree hg hp Jet3.der (ad t) hk]
    exact (cubicPiece_hasDeriv hg f d k hk.1 t).1
  · intro t ht
    obtain ⟨k0, hk0, e0⟩ := hp t
    have uniq : ∀ k, InPiece x n k t → k = k0 := by
      intro k hk
      rcases Nat.lt_trichotomy k k0 with h | h | h
      · exact absurd (inPiece_two hg hk hk0 h).2 (ht k (by have := hk0.1; omega))
      · exact h
      · exact absurd (inPiece_two hg hk0 hk h).2 (ht k0 (by have := hk.1; omega))
    constructor
    · refine glue hg hn hp Jet3.der (ad t) ?_
      intro k hk
      rw [uniq k hk, e0]
      exact (cubicPiece_hasDeriv hg f d k0 hk0.1 t).2.1
    · refine glue hg hn hp Jet3.der2 (fun i hi h => absurd h (ht i hi)) ?_
      intro k hk
      rw [uniq k hk, e0]
      exact (cubicPiece_hasDeriv hg f d k0 hk0.1 t).2.2
  · intro t ht
    rw [agree hg hp Jet3.val (av t) (k := 0) ⟨by omega, fun h => by omega, fun _ => ht⟩]
    simp [cubicPiece, linPiece]
  · intro t ht
    rw [agree hg hp Jet3.val (av t) (k := n) ⟨le_rfl, fun _ => ht, fun h => by omega⟩]
    rw [cubicPiece, if_neg (by omega), if_pos rfl, linPiece]
  · intro i hi
    obtain ⟨p, h1, h2⟩ := cubic_isPoly (x i) (x (i + 1)) (f i) (f (i + 1)) (d i) (d (i + 1)) (hg _ _ (by omega) hi).ne
    refine ⟨p, h1, fun t ht1 ht2 => ?_⟩
    rw [← h2, agree hg hp Jet3.val (av t) (k := i + 1) ⟨by omega, fun _ => ht1, fun _ => ht2⟩]
    rw [cubicPiece, if_neg (by omega), if_neg (by omega)]; simp

/-- C69 for QuinticSpline; in addition, strictly inside the grid (also at the nodes) the reported second derivative is the
derivative of the first one, and has the given values at the nodes. -/
theorem C69_quintic (x f d d2 : ℕ → ℝ) (n : ℕ) (hg : Grid x n) (hn : 0 < n) :
    ∃ S : ℝ → Jet3, (∀ t, QuinticSpline.evalDeriv x f d d2 n t = some (S t)) ∧ Interpolates x f d n 5 S ∧
      (∀ t, x 0 < t → t < x (n - 1) → HasDerivAt (fun t => (S t).der) (S t).der2 t ∧ ContinuousAt (fun t => (S t).der2) t) ∧
      ∀ i, 0 < i → i + 1 < n → (S (x i)).der2 = d2 i := by
  obtain ⟨S, hS, hp⟩ := getS (quintic_piece hg hn f d d2)
  have av : ∀ t, ∀ i < n, t = x i → (quinticPiece x f d d2 n i t).val = (quinticPiece x f d d2 n (i + 1) t).val := by
    rintro t i hi rfl; have := quintic_node hg f d d2 hi; rw [this.1.1, this.2.1]
  have ad : ∀ t, ∀ i < n, t = x i → (quinticPiece x f d d2 n i t).der = (quinticPiece x f d d2 n (i + 1) t).der := by
    rintro t i hi rfl; have := quintic_node hg f d d2 hi; rw [this.1.2.1, this.2.2.1]
  have ad2 : ∀ t, x 0 < t → t < x (n - 1) → ∀ i < n, t = x i →
      (quinticPiece x f d d2 n i t).der2 = (quinticPiece x f d d2 n (i + 1) t).der2 := by
    rintro t h0 h1 i hi rfl
    have := quintic_node hg f d d2 hi
    have i0 : 0 < i := by
      rcases Nat.eq_zero_or_pos i with h | h
      · rw [h] at h0; exact absurd h0 (lt_irrefl _)
      · exact h
    have i1 : i + 1 < n := by
      by_contra hc
      rw [show i = n - 1 by omega] at h1; exact lt_irrefl _ h1
    rw [this.1.2.2 i0, this.2.2.2 i1]
  refine ⟨S, hS, ?_, ?_, ?_⟩
  · constructor
    · intro i hi
      have := quintic_node hg f d d2 hi
      rw [agree hg hp Jet3.val (av _) (inPiece_left hg hi), agree hg hp Jet3.der (ad _) (inPiece_left hg hi)]
      exact ⟨this.1.1, this.1.2.1⟩
    · intro t
      refine glue hg hn hp Jet3.val (av t) ?_
      intro k hk
      rw [agree hg hp Jet3.der (ad t) hk]
      exact (quinticPiece_hasDeriv hg f d d2 k hk.1 t).1
    · intro t ht
      obtain ⟨k0, hk0, e0⟩ := hp t
      have uniq : ∀ k, InPiece x n k t → k = k0 := by
        intro k hk
        rcases Nat.lt_trichotomy k k0 with h | h | h
        · exact absurd (inPiece_two hg hk hk0 h).2 (ht k (by have := hk0.1; omega))
        · exact h
        · exact absurd (inPiece_two hg hk0 hk h).2 (ht k0 (by have := hk.1; omega))
      constructor
      · refine glue hg hn hp Jet3.der (ad t) ?_
        intro k hk
        rw [uniq k hk, e0]
        exact (quinticPiece_hasDeriv hg f d d2 k0 hk0.1 t).2.1
      · refine glue hg hn hp Jet3.der2 (fun i hi h => absurd h (ht i hi)) ?_
        intro k hk
        rw [uniq k hk, e0]
        exact (quinticPiece_hasDeriv hg f d d2 k0 hk0.1 t).2.2
    · intro t ht
      rw [agree hg hp Jet3.val (av t) (k := 0) ⟨by omega, fun h => by omega, fun _ => ht⟩]
      simp [quinticPiece, linPiece]
    · intro t ht
      rw [agree hg hp Jet3.val (av t) (k := n) ⟨le_rfl, fun _ => ht, fun h => by omega⟩]
      rw [quinticPiece, if_neg (by omega), if_pos rfl, linPiece]
    · intro i hi
      obtain ⟨p, h1, h2⟩ := quintic_isPoly (x i) (x (i + 1)) (f i) (f (i + 1)) (d i) (d (i + 1)) (d2 i) (d2 (i + 1))
        (hg _ _ (by omega) hi).ne
      refine ⟨p, h1, fun t ht1 ht2 => ?_⟩
      rw [← h2, agree hg hp Jet3.val (av t) (k := i + 1) ⟨by omega, fun _ => ht1, fun _ => ht2⟩]
      rw [quinticPiece, if_neg (by omega), if_neg (by omega)]; simp
  · intro t h0 h1
    constructor
    · refine glue hg hn hp Jet3.der (ad t) ?_
      intro k hk
      rw [agree hg hp Jet3.der2 (ad2 t h0 h1) hk]
      exact (quinticPiece_hasDeriv hg f d d2 k hk.1 t).2.1
    · refine glue_continuous hg hn hp Jet3.der2 (ad2 t h0 h1) ?_
      intro k hk
      exact (quinticPiece_hasDeriv hg f d d2 k hk.1 t).2.2.continuousAt
  · intro i i0 i1
    have hi : i < n := by omega
    rw [agree hg hp Jet3.der2 (ad2 (x i) (hg _ _ i0 hi) (hg _ _ (by omega) (by omega))) (inPiece_left hg hi)]
    exact (quintic_node hg f d d2 hi).1.2.2 i0

/-- The polynomial with coefficients c and its first three derivatives. -/
def polyJet (c : ℕ → ℝ) (deg : ℕ) (t : ℝ) : Jet3 where
  val := ∑ k ∈ Finset.range (deg + 1), c k * t ^ k
  der := ∑ k ∈ Finset.range (deg + 1), c k * (k * t ^ (k - 1))
  der2 := ∑ k ∈ Finset.range (deg + 1), c k * (k * ((k - 1 : ℕ) * t ^ (k - 2)))
  der3 := ∑ k ∈ Finset.range (deg + 1), c k * (k * ((k - 1 : ℕ) * ((k - 2 : ℕ) * t ^ (k - 3))))

/-- C69: a cubic spline whose node values and derivatives are those of a cubic polynomial reproduces this polynomial and
all of its derivatives throughout the grid. -/
theorem C69_cubic_exact (x : ℕ → ℝ) (n : ℕ) (hg : Grid x n) (hn : 2 ≤ n) (c : ℕ → ℝ) (t : ℝ) (h0 : x 0 ≤ t) (h1 : t ≤ x (n - 1)) :
    CubicSpline.evalDeriv x (fun i => (polyJet c 3 (x i)).val) (fun i => (polyJet c 3 (x i)).der) n t = some (polyJet c 3 t) := by
  rw [CubicSpline.evalDeriv, if_neg (by omega)]
  rcases bin_cases hg (by omega) t with ⟨h, hb⟩ | ⟨h, hb⟩ | ⟨h1, h2, hb⟩ | ⟨k, hk, h1, h2, _, hb⟩
  · linarith
  · linarith
  · omega
  · rw [hb]
    simp only
    rw [if_neg (by omega), if_neg (by omega)]
    simp only [Int.toNat_natCast]
    have hne : x (k + 1) - x k ≠ 0 := sub_ne_zero.2 (hg k (k + 1) (by omega) hk).ne'
    congr 1
    rw [evalCubic, polyJet]
    simp only [polyJet, Finset.sum_range_succ, Finset.sum_range_zero]
    generalize x k = a at *
    have hb : x (k + 1) = a + (x (k + 1) - a) := by ring
    generalize x (k + 1) - a = u at *
    rw [hb]
    ext
    · simp only; push_cast; field_simp; ring
    · simp only; push_cast; field_simp; ring
    · simp only; push_cast; field_simp; ring
    · simp only; push_cast; field_simp; ring

/-- C69: the same for a quintic spline and polynomials of degree 5. -/
theorem C69_quintic_exact (x : ℕ → ℝ) (n : ℕ) (hg : Grid x n) (hn : 2 ≤ n) (c : ℕ → ℝ) (t : ℝ) (h0 : x 0 ≤ t) (h1 : t ≤ x (n - 1)) :
    QuinticSpline.evalDeriv x (fun i => (polyJet c 5 (x i)).val) (fun i => (polyJet c 5 (x i)).der)
      (fun i => (polyJet c 5 (x i)).der2) n t = some (polyJet c 5 t) := by
  rw [QuinticSpline.evalDeriv, if_neg (by omega)]
  rcases bin_cases hg (by omega) t with ⟨h, hb⟩ | ⟨h, hb⟩ | ⟨h1, h2, hb⟩ | ⟨k, hk, h1, h2, _, hb⟩
  · linarith
  · linarith
  · omega
  · rw [hb]
    simp only
    rw [if_neg (by omega), if_neg (by omega)]
    simp only [Int.toNat_natCast]
    have hne : x (k + 1) - x k ≠ 0 := sub_ne_zero.2 (hg k (k + 1) (by omega) hk).ne'
    congr 1
    have := quintic_poly t (x k) (x (k + 1)) (polyJet c 5 (x k)).val (polyJet c 5 (x (k + 1))).val (polyJet c 5 (x k)).der
      (polyJet c 5 (x (k + 1))).der (polyJet c 5 (x k)).der2 (polyJet c 5 (x (k + 1))).der2 (hg k (k + 1) (by omega) hk).ne
    simp only at this
    rw [this]
    simp only [polyJet, Finset.sum_range_succ, Finset.sum_range_zero]
    generalize x k = a at *
    have hb : x (k + 1) = a + (x (k + 1) - a) := by ring
    generalize x (k + 1) - a = u at *
    rw [hb]
    have ht : t = a + u * ((t - a) / u) := by field_simp; ring
    generalize (t - a) / u = v at *
    rw [ht]
    ext
    · simp only; push_cast; ring
    · simp only; push_cast; field_simp; ring
    · simp only; push_cast; field_simp; ring
    · simp only; push_cast; field_simp; ring

/-- The pieces of the linear interpolator: the outer ones continue the first and the last segment. -/
def linearPiece (x f : ℕ → ℝ) (n k : ℕ) (t : ℝ) : Jet3 :=
  let i := if k = 0 then 0 else if k = n then n - 2 else k - 1
  ⟨f i + (f (i + 1) - f i) / (x (i + 1) - x i) * (t - x i), (f (i + 1) - f i) / (x (i + 1) - x i), 0, 0⟩

/-- C69 for LinearInterpolator: passes through all points; linear on each segment, and the first and last segments are
continued outside of the grid; continuous; the derivative is exact between the nodes. -/
theorem C69_linear (x f : ℕ → ℝ) (n : ℕ) (hg : Grid x n) (hn : 2 ≤ n) :
    ∃ S : ℝ → Jet3, (∀ t, LinearInterpolator.evalDeriv x f n t = some (S t)) ∧ (∀ i < n, (S (x i)).val = f i) ∧
      (Continuous fun t => (S t).val) ∧
      (∀ i, i + 1 < n → ∀ t, (x i ≤ t ∨ i = 0) → (t ≤ x (i + 1) ∨ i + 2 = n) →
        (S t).val = f i + (f (i + 1) - f i) / (x (i + 1) - x i) * (t - x i)) ∧
      ∀ t, (∀ i < n, t ≠ x i) → HasDerivAt (fun t => (S t).val) (S t).der t ∧ (S t).der2 = 0 ∧ (S t).der3 = 0 := by
  have hpc : ∀ t, ∃ k, InPiece x n k t ∧ LinearInterpolator.evalDeriv x f n t = some (linearPiece x f n k t) := by
    intro t
    have seg : ∀ i, i + 1 < n → Verif.Core.linearInterp t (x i) (x (i + 1)) (f i) (f (i + 1)) =
        f i + (f (i + 1) - f i) / (x (i + 1) - x i) * (t - x i) := by
      intro i hi
      have : x (i + 1) - x i ≠ 0 := sub_ne_zero.2 (hg _ _ (by omega) hi).ne'
      rw [Verif.Core.linearInterp]; field_simp; ring
    rw [LinearInterpolator.evalDeriv, if_neg (by omega)]
    simp only [if_pos (show n > 1 by omega)]
    rcases bin_cases hg (by omega) t with ⟨h, hb⟩ | ⟨h, hb⟩ | ⟨h1, h2, hb⟩ | ⟨k, hk, h1, h2, _, hb⟩
    · refine ⟨0, ⟨by omega, fun h' => absurd h' (lt_irrefl _), fun _ => h.le⟩, ?_⟩
      rw [hb, show (max 0 (min ((n : ℤ) - 2) (-1))).toNat = 0 by omega, seg 0 (by omega)]
      simp [linearPiece]
    · refine ⟨n, ⟨le_rfl, fun _ => h.le, fun h' => absurd h' (lt_irrefl _)⟩, ?_⟩
      rw [hb, show (max 0 (min ((n : ℤ) - 2) ((n : ℤ) - 1))).toNat = n - 2 by omega, seg (n - 2) (by omega)]
      rw [linearPiece, if_neg (by omega), if_pos rfl]
    · omega
    · refine ⟨k + 1, ⟨by omega, fun _ => h1, fun _ => h2⟩, ?_⟩
      rw [hb, show (max 0 (min ((n : ℤ) - 2) (k : ℤ))).toNat = k by omega, seg k (by omega)]
      rw [linearPiece, if_neg (by omega), if_neg (by omega)]; simp
  obtain ⟨S, hS, hp⟩ := getS hpc
  have hnode : ∀ i < n, (linearPiece x f n i (x i)).val = f i ∧ (linearPiece x f n (i + 1) (x i)).val = f i := by
    intro i hi
    constructor
    · rw [linearPiece]
      simp only
      split_ifs with h h'
      · subst h; simp
      · omega
      · have : x i - x (i - 1) ≠ 0 := sub_ne_zero.2 (hg _ _ (by omega) hi).ne'
        rw [show i - 1 + 1 = i by omega]; field_simp; ring
    · rw [linearPiece, if_neg (by omega)]
      simp only
      split_ifs with h
      · have : x (n - 1) - x (n - 2) ≠ 0 := sub_ne_zero.2 (hg _ _ (by omega) (by omega)).ne'
        rw [show i = n - 1 by omega, show n - 2 + 1 = n - 1 by omega]; field_simp; ring
      · simp
  have av : ∀ t, ∀ i < n, t = x i → (linearPiece x f n i t).val = (linearPiece x f n (i + 1) t).val := by
    rintro t i hi rfl; rw [(hnode i hi).1, (hnode i hi).2]
  have hder : ∀ k t, HasDerivAt (fun t => (linearPiece x f n k t).val) (linearPiece x f n k t).der t := by
    intro k t
    simp only [linearPiece]
    generalize (if k = 0 then 0 else if k = n then n - 2 else k - 1) = i
    have := poly_deriv (x i) (f i) ((f (i + 1) - f i) / (x (i + 1) - x i)) 0 0 0 0 t
    refine (this.congr_deriv (by ring)).congr_of_eventuallyEq (Filter.Eventually.of_forall fun s => ?_)
    simp only; ring
  refine ⟨S, hS, ?_, ?_, ?_, ?_⟩
  · intro i hi
    rw [agree hg hp Jet3.val (av _) (inPiece_left hg hi)]
    exact (hnode i hi).1
  · rw [continuous_iff_continuousAt]
    intro t
    exact glue_continuous hg (by omega) hp Jet3.val (av t) (fun k _ => (hder k t).continuousAt)
  · intro i hi t h1 h2
    by_cases c1 : i = 0 ∧ t ≤ x 0
    · rw [agree hg hp Jet3.val (av t) (k := 0) ⟨by omega, fun h => by omega, fun _ => c1.2⟩]
      obtain ⟨rfl, _⟩ := c1
      simp [linearPiece]
    · have h1' : x i ≤ t := by
        rcases h1 with h1 | h1
        · exact h1
        · subst h1; by_contra hc; exact c1 ⟨rfl, (not_le.1 hc).le⟩
      rcases le_total t (x (i + 1)) with h3 | h3
      · rw [agree hg hp Jet3.val (av t) (k := i + 1) ⟨by omega, fun _ => h1', fun _ => h3⟩]
        rw [linearPiece, if_neg (by omega), if_neg (by omega)]; simp
      · rcases h2 with h2 | h2
        · rw [agree hg hp Jet3.val (av t) (k := i + 1) ⟨by omega, fun _ => h1', fun _ => h2⟩]
          rw [linearPiece, if_neg (by omega), if_neg (by omega)]; simp
        · rw [agree hg hp Jet3.val (av t) (k := n) ⟨le_rfl, fun _ => by rw [← h2]; exact h3, fun h => by omega⟩]
          rw [linearPiece, if_neg (by omega), if_pos rfl, show n - 2 = i by omega]
  · intro t ht
    obtain ⟨k0, hk0, e0⟩ := hp t
    refine ⟨?_, by rw [e0]; rfl, by rw [e0]; rfl⟩
    refine glue hg (by omega) hp Jet3.val (av t) ?_
    intro k hk
    have : k = k0 := by
      rcases Nat.lt_trichotomy k k0 with h | h | h
      · exact absurd (inPiece_two hg hk hk0 h).2 (ht k (by have := hk0.1; omega))
      · exact h
      · exact absurd (inPiece_two hg hk0 hk h).2 (ht k0 (by have := hk.1; omega))
    rw [this, e0]; exact hder k0 t

/-- Non-vacuity: the nodes 0, 1, 2, ... form a grid of any size, and the interpolator of the points (0,0), (1,1), (2,0) with
zero slopes really bends. -/
example : Grid (fun i => (i : ℝ)) 3 ∧ (evalCubic 0.5 0 1 0 1 0 0).val = 0.5 ∧ (evalCubic 0.25 0 1 0 1 0 0).val = 5 / 32 ∧
    (evalQuintic 0.25 0 1 0 1 0 0 0 0).val = 53 / 512 := by
  refine ⟨fun i j h _ => by simpa using h, ?_, ?_, ?_⟩ <;> norm_num [evalCubic, evalQuintic]

end
end Verif.Spline
