import Mathlib.Analysis.Convex.Hull
import Mathlib.Tactic.LinearCombination
import Verif.Core.Hermite

/-! Polygons (/repo/src/math_geometry.cpp:109-171, 230-262): clipping by a rectangle, area, test whether a point is inside; C79.
Exact real arithmetic; polygons are lists of points. -/
namespace Verif.Geom

open Verif.Core (linearInterp)

noncomputable section

/-! ## Model -/

/-- math_geometry.h:12-20 -/
@[ext] structure Point2d where
  x : ℝ
  y : ℝ

/-- math_geometry.h:22-29 -/
structure Rectangle where
  lower : Point2d
  upper : Point2d

/-- math_geometry.h:32 -/
abbrev Polygon := List Point2d

open Classical in
/-- math_geometry.cpp:110-118 -/
def isInside (point : Point2d) (rect : Rectangle) (dir : ℕ) : Bool :=
  match dir with
  | 0 => decide (point.y ≥ rect.lower.y)
  | 1 => decide (point.x ≤ rect.upper.x)
  | 2 => decide (point.y ≤ rect.upper.y)
  | _ => decide (point.x ≥ rect.lower.x)

/-- math_geometry.cpp:149-166: the new vertex at the intersection with the line -/
def cutPoint (rect : Rectangle) (dir : ℕ) (prev curr : Point2d) : Point2d :=
  match dir with
  | 0 => ⟨linearInterp rect.lower.y prev.y curr.y prev.x curr.x, rect.lower.y⟩
  | 1 => ⟨rect.upper.x, linearInterp rect.upper.x prev.x curr.x prev.y curr.y⟩
  | 2 => ⟨linearInterp rect.upper.y prev.y curr.y prev.x curr.x, rect.upper.y⟩
  | _ => ⟨rect.lower.x, linearInterp rect.lower.x prev.x curr.x prev.y curr.y⟩

/-- math_geometry.cpp:143-171: the loop over vertices; the result is what is appended to `dest`. -/
def clipLoop (rect : Rectangle) (dir : ℕ) (prev : Point2d) (prevInside : Bool) : Polygon → Polygon
  | [] => []
  | curr :: rest =>
    let currInside := isInside curr rect dir
    (if xor prevInside currInside then [cutPoint rect dir prev curr] else []) ++
      (if currInside then [curr] else []) ++ clipLoop rect dir curr currInside rest

/-- math_geometry.cpp:134-172: the body of the loop over directions: `dest` as a function of `src`. -/
def clipDir (rect : Rectangle) (src : Polygon) (dir : ℕ) : Polygon :=
  match src.getLast? with
  | none => []
  | some back => clipLoop rect dir back (isInside back rect dir) src

/-- math_geometry.cpp:122-175. The two temporary objects are used alternately: the destination of each direction is the source of the next one. -/
def clipPolygonByRectangle (polygon : Polygon) (rect : Rectangle) : Polygon :=
  [0, 1, 2, 3].foldl (clipDir rect) polygon

/-- math_geometry.cpp:230-237: the loop with i (current) and j (previous vertex), before the multiplication by 0.5. -/
def areaLoop (prev : Point2d) : Polygon → ℝ → ℝ
  | [], result => result
  | curr :: rest, result => areaLoop curr rest (result + (curr.x + prev.x) * (curr.y - prev.y))

/-- math_geometry.cpp:230-237 -/
def polygonArea (polygon : Polygon) : ℝ :=
  match polygon.getLast? with
  | none => 0 * 0.5
  | some back => areaLoop back polygon 0 * 0.5

open Classical in
/-- math_geometry.cpp:246-256: body of the loop: the change of the winding number for the edge v-w. -/
def windStep (x y : ℝ) (v w : Point2d) : ℤ :=
  let dx := w.x - v.x
  let dy := w.y - v.y
  let sign := dx * (y - v.y) - dy * (x - v.x)
  if v.y ≤ y then (if w.y > y ∧ sign > 0 then 1 else 0)
  else (if w.y ≤ y ∧ sign < 0 then -1 else 0)

/-- math_geometry.cpp:245-257: the loop over i with `w = i<numVertices-1 ? polygon[i+1] : polygon[0]` -/
def windLoop (x y : ℝ) (first : Point2d) : Polygon → ℤ → ℤ
  | [], wind => wind
  | [v], wind => wind + windStep x y v first
  | v :: w :: rest, wind => windLoop x y first (w :: rest) (wind + windStep x y v w)

/-- math_geometry.cpp:243-257: the counter -/
def windingNumber (x y : ℝ) (polygon : Polygon) : ℤ :=
  match polygon with
  | [] => 0
  | v :: rest => windLoop x y v (v :: rest) 0

/-- math_geometry.cpp:239-260 -/
def isPointInsidePolygon (x y : ℝ) (polygon : Polygon) : Bool :=
  if polygon.isEmpty then false else windingNumber x y polygon ≠ 0

/-! ## Sums over edges -/

/-- Sum of a function of edges along a path. -/
def path {A : Type*} [AddCommGroup A] (φ : Point2d → Point2d → A) (prev : Point2d) : Polygon → A
  | [] => 0
  | curr :: rest => φ prev curr + path φ curr rest

/-- Sum of a function of edges over a closed polygon. -/
def cyc {A : Type*} [AddCommGroup A] (φ : Point2d → Point2d → A) (P : Polygon) : A :=
  match P.getLast? with
  | none => 0
  | some back => path φ back P

variable {A : Type*} [AddCommGroup A]

/-- The last point of a path. -/
def lastOf (p : Point2d) : Polygon → Point2d
  | [] => p
  | a :: t => lastOf a t

theorem getLast?_cons (a : Point2d) (t : Polygon) : (a :: t).getLast? = some (lastOf a t) := by
  induction t generalizing a with
  | nil => rfl
  | cons b r ih => rw [List.getLast?_cons_cons, ih]; rfl

theorem lastOf_mem (a : Point2d) (t : Polygon) : lastOf a t ∈ a :: t := by
  induction t generalizing a with
  | nil => simp [lastOf]
  | cons b r ih => rw [lastOf]; exact List.mem_cons_of_mem _ (ih b)

theorem path_append (φ : Point2d → Point2d → A) (p : Point2d) (l m : Polygon) :
    path φ p (l ++ m) = path φ p l + path φ (lastOf p l) m := by
  induction l generalizing p with
  | nil => simp [path, lastOf]
  | cons a t ih => rw [List.cons_append, path, path, ih, add_assoc, lastOf]

theorem cyc_nil (φ : Point2d → Point2d → A) : cyc φ [] = 0 := rfl

theorem cyc_cons (φ : Point2d → Point2d → A) (a : Point2d) (t : Polygon) :
    cyc φ (a :: t) = path φ (lastOf a t) (a :: t) := by
  rw [cyc, getLast?_cons]

/-- The other order of summation: each vertex with the next one. -/
theorem cyc_next (φ : Point2d → Point2d → A) (a : Point2d) (t : Polygon) :
    cyc φ (a :: t) = path φ a (t ++ [a]) := by
  rw [cyc_cons, path_append, path]
  simp only [path, add_zero]; exact add_comm _ _

theorem windLoop_eq (x y : ℝ) (first v : Point2d) (t : Polygon) (n : ℤ) :
    windLoop x y first (v :: t) n = n + path (windStep x y) v (t ++ [first]) := by
  induction t generalizing v n with
  | nil => simp [windLoop, path]
  | cons w r ih => rw [windLoop, ih, List.cons_append, path, add_assoc]

theorem windingNumber_eq (x y : ℝ) (P : Polygon) : windingNumber x y P = cyc (windStep x y) P := by
  cases P with
  | nil => rfl
  | cons v t => rw [windingNumber, windLoop_eq, zero_add, cyc_next]

theorem areaLoop_eq (p : Point2d) (P : Polygon) (r : ℝ) :
    areaLoop p P r = r + path (fun v w => (w.x + v.x) * (w.y - v.y)) p P := by
  induction P generalizing p r with
  | nil => simp [areaLoop, path]
  | cons a t ih => rw [areaLoop, ih, path, add_assoc]

/-- The area form. -/
def areaForm (v w : Point2d) : ℝ := 1 / 2 * (w.x + v.x) * (w.y - v.y)

theorem path_mul (c : ℝ) (φ ψ : Point2d → Point2d → ℝ) (h : ∀ v w, ψ v w = φ v w * c) (p : Point2d) (l : Polygon) :
    path ψ p l = path φ p l * c := by
  induction l generalizing p with
  | nil => simp [path]
  | cons a t ih => rw [path, path, ih, h]; ring

theorem polygonArea_eq (P : Polygon) : polygonArea P = cyc areaForm P := by
  rw [polygonArea, cyc]
  cases P.getLast? with
  | none => simp
  | some b => dsimp only; rw [areaLoop_eq, zero_add, ← path_mul]; intro v w; rw [areaForm]; ring

theorem path_sub (φ ψ : Point2d → Point2d → A) (p : Point2d) (l : Polygon) :
    path (fun v w => φ v w - ψ v w) p l = path φ p l - path ψ p l := by
  induction l generalizing p with
  | nil => simp [path]
  | cons a t ih => rw [path, path, path, ih]; abel

theorem path_exact (g : Point2d → A) (p : Point2d) (l : Polygon) :
    path (fun v w => g w - g v) p l = g (lastOf p l) - g p := by
  induction l generalizing p with
  | nil => simp [path, lastOf]
  | cons a t ih => rw [path, ih, lastOf]; abel

theorem cyc_exact (g : Point2d → A) (P : Polygon) : cyc (fun v w => g w - g v) P = 0 := by
  cases P with
  | nil => rfl
  | cons a t => rw [cyc_cons, path_exact, lastOf, sub_self]

theorem cyc_sub (φ ψ : Point2d → Point2d → A) (P : Polygon) :
    cyc (fun v w => φ v w - ψ v w) P = cyc φ P - cyc ψ P := by
  cases P with
  | nil => simp [cyc]
  | cons a t => rw [cyc_cons, cyc_cons, cyc_cons, path_sub]

theorem path_congr {φ ψ : Point2d → Point2d → A} (S : Point2d → Prop) (h : ∀ v w, S v → S w → φ v w = ψ v w) (p : Point2d) (hp : S p)
    (l : Polygon) (hl : ∀ q ∈ l, S q) : path φ p l = path ψ p l := by
  induction l generalizing p with
  | nil => rfl
  | cons a t ih =>
    rw [path, path, h _ _ hp (hl a (by simp)), ih a (hl a (by simp)) (fun q hq => hl q (by simp [hq]))]

theorem cyc_congr {φ ψ : Point2d → Point2d → A} (S : Point2d → Prop) (h : ∀ v w, S v → S w → φ v w = ψ v w) (P : Polygon) (hP : ∀ q ∈ P, S q) :
    cyc φ P = cyc ψ P := by
  cases P with
  | nil => rfl
  | cons a t => rw [cyc_cons, cyc_cons]; exact path_congr S h _ (hP _ (lastOf_mem _ _)) _ hP

/-! ## Clipping by one line -/

/-- The line and the outer side. -/
def Outer (rect : Rectangle) (dir : ℕ) (p : Point2d) : Prop :=
  match dir with
  | 0 => p.y ≤ rect.lower.y
  | 1 => p.x ≥ rect.upper.x
  | 2 => p.y ≥ rect.upper.y
  | _ => p.x ≤ rect.lower.x

/-- The line and the inner side. -/
def Inner (rect : Rectangle) (dir : ℕ) (p : Point2d) : Prop :=
  match dir with
  | 0 => p.y ≥ rect.lower.y
  | 1 => p.x ≤ rect.upper.x
  | 2 => p.y ≤ rect.upper.y
  | _ => p.x ≥ rect.lower.x

/-- The point at the fraction t of the segment. -/
def between (v w : Point2d) (t : ℝ) : Point2d := ⟨v.x + t * (w.x - v.x), v.y + t * (w.y - v.y)⟩

theorem isInside_iff (rect : Rectangle) (dir : ℕ) (p : Point2d) : isInside p rect dir = true ↔ Inner rect dir p := by
  rw [isInside.eq_def, Inner.eq_def]; split <;> simp

theorem outer_of_not (rect : Rectangle) (dir : ℕ) (p : Point2d) (h : isInside p rect dir = false) : Outer rect dir p := by
  have h' : ¬ Inner rect dir p := by rw [← isInside_iff, h]; simp
  rw [Inner.eq_def] at h'; rw [Outer.eq_def]
  split <;> simp at h' <;> exact h'.le

theorem interp_frac {c a b : ℝ} (h : (a ≥ c ∧ b < c) ∨ (a < c ∧ b ≥ c)) :
    0 ≤ (c - a) / (b - a) ∧ (c - a) / (b - a) ≤ 1 ∧ a + (c - a) / (b - a) * (b - a) = c ∧
    ∀ u v, linearInterp c a b u v = u + (c - a) / (b - a) * (v - u) := by
  rcases h with ⟨h1, h2⟩ | ⟨h1, h2⟩
  · have hd : b - a < 0 := by linarith
    refine ⟨div_nonneg_of_nonpos (by linarith) hd.le, (div_le_one_of_neg hd).2 (by linarith), ?_, ?_⟩
    · rw [div_mul_cancel₀ _ hd.ne]; ring
    · intro u v; rw [linearInterp]; field_simp [hd.ne]; ring
  · have hd : 0 < b - a := by linarith
    refine ⟨div_nonneg (by linarith) hd.le, (div_le_one hd).2 (by linarith), ?_, ?_⟩
    · rw [div_mul_cancel₀ _ hd.ne']; ring
    · intro u v; rw [linearInterp]; field_simp [hd.ne']; ring

/-- The new vertex lies on the edge and on the line. -/
theorem cutPoint_spec (rect : Rectangle) (dir : ℕ) (v w : Point2d) (h : isInside v rect dir ≠ isInside w rect dir) :
    (∃ t, 0 ≤ t ∧ t ≤ 1 ∧ cutPoint rect dir v w = between v w t) ∧ Outer rect dir (cutPoint rect dir v w) ∧ Inner rect dir (cutPoint rect dir v w) := by
  have hh : (Inner rect dir v ∧ ¬ Inner rect dir w) ∨ (¬ Inner rect dir v ∧ Inner rect dir w) := by
    rw [← isInside_iff, ← isInside_iff]
    cases hv : isInside v rect dir <;> cases hw : isInside w rect dir <;> simp [hv, hw] at h ⊢
  clear h
  obtain rfl | rfl | rfl | ⟨n, rfl⟩ : dir = 0 ∨ dir = 1 ∨ dir = 2 ∨ ∃ n, dir = n + 3 := by
    rcases dir with _ | _ | _ | n <;> simp
  all_goals simp only [Inner, ge_iff_le, not_le] at hh
  all_goals simp only [cutPoint, Outer, Inner]
  all_goals refine ⟨?_, le_rfl, le_rfl⟩
  · obtain ⟨a, b, c, d⟩ := interp_frac (c := rect.lower.y) (a := v.y) (b := w.y) (by tauto)
    exact ⟨_, a, b, by rw [between, d, c]⟩
  · obtain ⟨a, b, c, d⟩ := interp_frac (c := -rect.upper.x) (a := -v.x) (b := -w.x) (by
      rcases hh with ⟨h1, h2⟩ | ⟨h1, h2⟩
      · left; constructor <;> linarith
      · right; constructor <;> linarith)
    have e : (-rect.upper.x - -v.x) / (-w.x - -v.x) = (rect.upper.x - v.x) / (w.x - v.x) := by
      rw [← neg_div_neg_eq]; ring
    refine ⟨(rect.upper.x - v.x) / (w.x - v.x), e ▸ a, e ▸ b, ?_⟩
    rw [e] at c
    have hne : w.x - v.x ≠ 0 := by rcases hh with ⟨h1, h2⟩ | ⟨h1, h2⟩ <;> intro h0 <;> linarith
    ext
    · simp only [between]; rw [div_mul_cancel₀ _ hne]; ring
    · simp only [between, linearInterp]; field_simp; ring
  · obtain ⟨a, b, c, d⟩ := interp_frac (c := -rect.upper.y) (a := -v.y) (b := -w.y) (by
      rcases hh with ⟨h1, h2⟩ | ⟨h1, h2⟩
      · left; constructor <;> linarith
      · right; constructor <;> linarith)
    have e : (-rect.upper.y - -v.y) / (-w.y - -v.y) = (rect.upper.y - v.y) / (w.y - v.y) := by
      rw [← neg_div_neg_eq]; ring
    refine ⟨(rect.upper.y - v.y) / (w.y - v.y), e ▸ a, e ▸ b, ?_⟩
    have hne : w.y - v.y ≠ 0 := by rcases hh with ⟨h1, h2⟩ | ⟨h1, h2⟩ <;> intro h0 <;> linarith
    ext
    · simp only [between, linearInterp]; field_simp; ring
    · simp only [between]; rw [div_mul_cancel₀ _ hne]; ring
  · obtain ⟨a, b, c, d⟩ := interp_frac (c := rect.lower.x) (a := v.x) (b := w.x) (by tauto)
    exact ⟨_, a, b, by rw [between, d, c]⟩

/-- The relation between the last emitted point and the last processed one. -/
def Follows (rect : Rectangle) (dir : ℕ) (q p : Point2d) : Prop :=
  (isInside p rect dir = true → q = p) ∧ (isInside p rect dir = false → Outer rect dir q)

/-- A quantity attached to edges which is additive for a division of an edge and vanishes on the outer side does not change after clipping. -/
theorem loop_sum (rect : Rectangle) (dir : ℕ) (φ : Point2d → Point2d → A)
    (hadd : ∀ v w t, 0 ≤ t → t ≤ 1 → φ v w = φ v (between v w t) + φ (between v w t) w)
    (hout : ∀ v w, Outer rect dir v → Outer rect dir w → φ v w = 0)
    (src : Polygon) (prev q : Point2d) (hq : Follows rect dir q prev) :
    path φ q (clipLoop rect dir prev (isInside prev rect dir) src) = path φ prev src ∧
    Follows rect dir (lastOf q (clipLoop rect dir prev (isInside prev rect dir) src)) (lastOf prev src) := by
  induction src generalizing prev q with
  | nil => exact ⟨by simp [clipLoop, path], by simpa [clipLoop, lastOf] using hq⟩
  | cons curr rest ih =>
    have split : isInside prev rect dir ≠ isInside curr rect dir →
        φ prev curr = φ prev (cutPoint rect dir prev curr) + φ (cutPoint rect dir prev curr) curr := by
      intro h
      obtain ⟨⟨t, t0, t1, e⟩, _⟩ := cutPoint_spec rect dir prev curr h
      rw [e]; exact hadd _ _ _ t0 t1
    cases hp : isInside prev rect dir <;> cases hc : isInside curr rect dir
    · -- both outside
      have hq := hq.2 hp
      have := ih curr q ⟨by rw [hc]; simp, fun _ => hq⟩
      rw [hc] at this
      simp only [clipLoop, hc, Bool.xor_self, Bool.false_eq_true, if_false, List.nil_append, path, lastOf]
      rw [hout _ _ (outer_of_not _ _ _ hp) (outer_of_not _ _ _ hc), zero_add]
      exact this
    · have hq := hq.2 hp
      have hne : isInside prev rect dir ≠ isInside curr rect dir := by rw [hp, hc]; simp
      obtain ⟨_, ho, _⟩ := cutPoint_spec rect dir prev curr hne
      have := ih curr curr ⟨fun _ => rfl, by rw [hc]; simp⟩
      rw [hc] at this
      simp only [clipLoop, hc, Bool.false_xor, if_true, List.cons_append, List.nil_append, path, lastOf]
      rw [split hne, hout _ _ hq ho, hout _ _ (outer_of_not _ _ _ hp) ho, this.1]
      exact ⟨by abel, this.2⟩
    · have hq := hq.1 hp
      have hne : isInside prev rect dir ≠ isInside curr rect dir := by rw [hp, hc]; simp
      obtain ⟨_, ho, _⟩ := cutPoint_spec rect dir prev curr hne
      have := ih curr (cutPoint rect dir prev curr) ⟨by rw [hc]; simp, fun _ => ho⟩
      rw [hc] at this
      simp only [clipLoop, hc, Bool.true_xor, Bool.not_false, if_true, Bool.false_eq_true, if_false, List.append_nil, List.singleton_append, path, lastOf]
      rw [split hne, hout _ _ ho (outer_of_not _ _ _ hc), this.1, hq]
      exact ⟨by abel, this.2⟩
    · have hq := hq.1 hp
      have := ih curr curr ⟨fun _ => rfl, by rw [hc]; simp⟩
      rw [hc] at this
      simp only [clipLoop, hc, Bool.xor_self, Bool.false_eq_true, if_false, if_true, List.nil_append, List.singleton_append, path, lastOf]
      rw [this.1, hq]
      exact ⟨rfl, this.2⟩

theorem clipDir_sum (rect : Rectangle) (dir : ℕ) (φ : Point2d → Point2d → A)
    (hadd : ∀ v w t, 0 ≤ t → t ≤ 1 → φ v w = φ v (between v w t) + φ (between v w t) w)
    (g : Point2d → A) (hout : ∀ v w, Outer rect dir v → Outer rect dir w → φ v w = g w - g v) (P : Polygon) :
    cyc φ (clipDir rect P dir) = cyc φ P := by
  set ψ : Point2d → Point2d → A := fun v w => φ v w - (g w - g v) with hψ
  have e : ∀ Q, cyc φ Q = cyc ψ Q := fun Q => by rw [hψ, cyc_sub, cyc_exact, sub_zero]
  have ha : ∀ v w t, 0 ≤ t → t ≤ 1 → ψ v w = ψ v (between v w t) + ψ (between v w t) w := by
    intro v w t h0 h1; simp only [hψ]; rw [hadd v w t h0 h1]; abel
  have ho : ∀ v w, Outer rect dir v → Outer rect dir w → ψ v w = 0 := by
    intro v w h0 h1; simp only [hψ]; rw [hout v w h0 h1]; abel
  rw [e, e]
  cases P with
  | nil => rfl
  | cons a t =>
    rw [clipDir, getLast?_cons]
    dsimp only
    rw [cyc_cons]
    generalize hb : lastOf a t = b
    -- a starting point that follows b
    have hf : ∃ q, Follows rect dir q b := ⟨b, fun _ => rfl, fun h => outer_of_not _ _ _ h⟩
    obtain ⟨q, hq⟩ := hf
    have h1 := loop_sum rect dir ψ ha ho (a :: t) b q hq
    rw [lastOf, hb] at h1
    generalize hQ : clipLoop rect dir b (isInside b rect dir) (a :: t) = Q at h1 ⊢
    cases Q with
    | nil => exact h1.1
    | cons c s =>
      have h2 := loop_sum rect dir ψ ha ho (a :: t) b (lastOf c s) h1.2
      rw [hQ] at h2
      rw [cyc_cons]; exact h2.1

/-! ## Winding number -/

/-- The side of the edge on which the point lies. -/
def side (x y : ℝ) (v w : Point2d) : ℝ := (w.x - v.x) * (y - v.y) - (w.y - v.y) * (x - v.x)

theorem windStep_eq (x y : ℝ) (v w : Point2d) : windStep x y v w =
    if v.y ≤ y then (if y < w.y ∧ 0 < side x y v w then 1 else 0) else (if w.y ≤ y ∧ side x y v w < 0 then -1 else 0) := by
  rw [windStep]; rfl

theorem windStep_self (x y : ℝ) (v : Point2d) : windStep x y v v = 0 := by
  rw [windStep_eq, side, sub_self, sub_self]; simp

theorem between_zero (v w : Point2d) : between v w 0 = v := by ext <;> simp [between]
theorem between_one (v w : Point2d) : between v w 1 = w := by ext <;> simp [between]

theorem neg_mul_iff {t s : ℝ} (h : 0 < t) : t * s < 0 ↔ s < 0 :=
  ⟨fun hs => by by_contra hc; push Not at hc; linarith [mul_nonneg h.le hc], fun hs => mul_neg_of_pos_of_neg h hs⟩

theorem windStep_add (x y : ℝ) (v w : Point2d) (t : ℝ) (h0 : 0 ≤ t) (h1 : t ≤ 1) :
    windStep x y v w = windStep x y v (between v w t) + windStep x y (between v w t) w := by
  rcases h0.eq_or_lt with h | h0
  · rw [← h, between_zero, windStep_self, zero_add]
  rcases h1.eq_or_lt with h | h1
  · rw [h, between_one, windStep_self, add_zero]
  have s1 : side x y v (between v w t) = t * side x y v w := by rw [side, side, between]; ring
  have s2 : side x y (between v w t) w = (1 - t) * side x y v w := by rw [side, side, between]; ring
  have hy : (between v w t).y = v.y + t * (w.y - v.y) := rfl
  have p1 : 0 < t * side x y v w ↔ 0 < side x y v w := mul_pos_iff_of_pos_left h0
  have p2 : 0 < (1 - t) * side x y v w ↔ 0 < side x y v w := mul_pos_iff_of_pos_left (by linarith)
  have n1 : t * side x y v w < 0 ↔ side x y v w < 0 := neg_mul_iff h0
  have n2 : (1 - t) * side x y v w < 0 ↔ side x y v w < 0 := neg_mul_iff (by linarith)
  rw [windStep_eq, windStep_eq, windStep_eq, s1, s2]
  simp only [p1, p2, n1, n2]
  by_cases a : v.y ≤ y <;> by_cases b : w.y ≤ y <;> by_cases c : (between v w t).y ≤ y
  · simp [a, b, c]
  · exact absurd (by rw [hy]; nlinarith) c
  · simp [a, b, c]
  · simp [a, b, c, not_le.1 b, not_le.1 c]
  · simp [a, b, c]
  · simp [a, b, c]
  · exact absurd c (by rw [hy]; push Not at a b ⊢; nlinarith)
  · simp [a, b, c]

/-- For edges to the right of the point, above or below it, or to the left of it. -/
theorem windStep_exact (x y : ℝ) (rect : Rectangle) (dir : ℕ) (hx0 : rect.lower.x < x) (hx1 : x < rect.upper.x)
    (hy0 : rect.lower.y < y) (hy1 : y < rect.upper.y) :
    ∃ g : Point2d → ℤ, ∀ v w, Outer rect dir v → Outer rect dir w → windStep x y v w = g w - g v := by
  classical
  obtain rfl | rfl | rfl | ⟨n, rfl⟩ : dir = 0 ∨ dir = 1 ∨ dir = 2 ∨ ∃ n, dir = n + 3 := by
    rcases dir with _ | _ | _ | n <;> simp
  · refine ⟨fun _ => 0, fun v w hv hw => ?_⟩
    simp only [Outer] at hv hw
    rw [windStep_eq, if_pos (by linarith), if_neg (by rintro ⟨h, _⟩; linarith)]; simp
  · refine ⟨fun v => if y < v.y then 1 else 0, fun v w hv hw => ?_⟩
    simp only [Outer] at hv hw
    rw [windStep_eq]
    by_cases a : v.y ≤ y <;> by_cases b : w.y ≤ y
    · simp [a, not_lt.2 a, not_lt.2 b]
    · have : 0 < side x y v w := by rw [side]; push Not at b; nlinarith [mul_nonneg (sub_nonneg.2 a) (sub_nonneg.2 hw), mul_pos (sub_pos.2 b) (sub_pos.2 (lt_of_lt_of_le hx1 hv))]
      simp [a, not_lt.2 a, not_le.1 b, this]
    · have : side x y v w < 0 := by
        rw [side]; push Not at a
        nlinarith [mul_nonneg (sub_nonneg.2 b) (sub_nonneg.2 hv), mul_pos (sub_pos.2 a) (sub_pos.2 (lt_of_lt_of_le hx1 hw)), mul_nonneg (sub_nonneg.2 b) (sub_pos.2 (lt_of_lt_of_le hx1 hv)).le]
      simp [b, this, not_le.1 a, not_lt.2 b]
    · simp [a, b, not_le.1 a, not_le.1 b]
  · refine ⟨fun _ => 0, fun v w hv hw => ?_⟩
    simp only [Outer] at hv hw
    rw [windStep_eq, if_neg (by linarith), if_neg (by rintro ⟨h, _⟩; linarith)]; simp
  · refine ⟨fun _ => 0, fun v w hv hw => ?_⟩
    simp only [Outer] at hv hw
    rw [windStep_eq]
    by_cases a : v.y ≤ y <;> by_cases b : w.y ≤ y
    · simp [a, b]
    · have : ¬ 0 < side x y v w := by rw [side]; push Not at b ⊢; nlinarith [mul_nonneg (sub_nonneg.2 a) (sub_nonneg.2 (hw.trans hx0.le)), mul_nonneg (sub_pos.2 b).le (sub_nonneg.2 (hv.trans hx0.le))]
      simp [a, this]
    · have : ¬ side x y v w < 0 := by rw [side]; push Not at a ⊢; nlinarith [mul_nonneg (sub_nonneg.2 b) (sub_nonneg.2 (hv.trans hx0.le)), mul_nonneg (sub_pos.2 a).le (sub_nonneg.2 (hw.trans hx0.le))]
      simp [a, this]
    · simp [a, b]

/-! ## Specification: the rectangle -/

/-- Strictly inside the rectangle. -/
def Rectangle.Interior (r : Rectangle) (x y : ℝ) : Prop := r.lower.x < x ∧ x < r.upper.x ∧ r.lower.y < y ∧ y < r.upper.y

/-- Inside the rectangle or on its boundary. -/
def Rectangle.Contains (r : Rectangle) (x y : ℝ) : Prop := r.lower.x ≤ x ∧ x ≤ r.upper.x ∧ r.lower.y ≤ y ∧ y ≤ r.upper.y

/-- C79: a point strictly inside the clipping rectangle has the same winding number with respect to the original and to the clipped polygon. -/
theorem clip_winding (P : Polygon) (rect : Rectangle) (x y : ℝ) (h : rect.Interior x y) :
    windingNumber x y (clipPolygonByRectangle P rect) = windingNumber x y P := by
  have key : ∀ dir Q, cyc (windStep x y) (clipDir rect Q dir) = cyc (windStep x y) Q := by
    intro dir Q
    obtain ⟨g, hg⟩ := windStep_exact x y rect dir h.1 h.2.1 h.2.2.1 h.2.2.2
    exact clipDir_sum rect dir _ (windStep_add x y) g hg Q
  rw [windingNumber_eq, windingNumber_eq, clipPolygonByRectangle]
  simp only [List.foldl_cons, List.foldl_nil, key]

theorem isPointInside_iff (x y : ℝ) (P : Polygon) : isPointInsidePolygon x y P = true ↔ windingNumber x y P ≠ 0 := by
  rw [isPointInsidePolygon]
  cases P with
  | nil => simp [windingNumber]
  | cons a t => simp

/-! ## Vertices of the result -/

/-- Everything in the result of one clipping is inside, and in the convex set containing the original polygon. -/
theorem clipLoop_mem (rect : Rectangle) (dir : ℕ) (S : Point2d → Prop) (hS : ∀ v w t, S v → S w → 0 ≤ t → t ≤ 1 → S (between v w t))
    (src : Polygon) (prev : Point2d) (hp : S prev) (hs : ∀ p ∈ src, S p) :
    ∀ p ∈ clipLoop rect dir prev (isInside prev rect dir) src, S p ∧ Inner rect dir p := by
  induction src generalizing prev with
  | nil => simp [clipLoop]
  | cons curr rest ih =>
    intro p h
    simp only [clipLoop, List.mem_append] at h
    rcases h with (h | h) | h
    · split_ifs at h with hx
      · have hne : isInside prev rect dir ≠ isInside curr rect dir := by simpa using hx
        obtain ⟨⟨t, t0, t1, e⟩, _, hi⟩ := cutPoint_spec rect dir prev curr hne
        rw [List.mem_singleton] at h
        rw [h]; exact ⟨by rw [e]; exact hS _ _ _ hp (hs curr (by simp)) t0 t1, hi⟩
      · simp at h
    · split_ifs at h with hx
      · rw [List.mem_singleton] at h
        rw [h]; exact ⟨hs curr (by simp), (isInside_iff _ _ _).1 hx⟩
      · simp at h
    · exact ih curr (hs curr (by simp)) (fun q hq => hs q (by simp [hq])) p h

theorem clipDir_mem (rect : Rectangle) (dir : ℕ) (S : Point2d → Prop) (hS : ∀ v w t, S v → S w → 0 ≤ t → t ≤ 1 → S (between v w t))
    (P : Polygon) (hP : ∀ p ∈ P, S p) : ∀ p ∈ clipDir rect P dir, S p ∧ Inner rect dir p := by
  cases P with
  | nil => simp [clipDir]
  | cons a t =>
    rw [clipDir, getLast?_cons]
    exact clipLoop_mem rect dir S hS _ _ (hP _ (lastOf_mem _ _)) hP

theorem inner_convex (rect : Rectangle) (dir : ℕ) (v w : Point2d) (t : ℝ) (hv : Inner rect dir v) (hw : Inner rect dir w) (h0 : 0 ≤ t) (h1 : t ≤ 1) :
    Inner rect dir (between v w t) := by
  obtain rfl | rfl | rfl | ⟨n, rfl⟩ : dir = 0 ∨ dir = 1 ∨ dir = 2 ∨ ∃ n, dir = n + 3 := by
    rcases dir with _ | _ | _ | n <;> simp
  all_goals simp only [Inner, between, ge_iff_le] at hv hw ⊢
  all_goals nlinarith

/-- A convex set of points of the plane. -/
def ConvexPts (S : Point2d → Prop) : Prop := ∀ v w t, S v → S w → 0 ≤ t → t ≤ 1 → S (between v w t)

/-- C79: all vertices of the clipped polygon are within the rectangle, and in any convex set that contains the original polygon. -/
theorem clip_vertices (P : Polygon) (rect : Rectangle) (S : Point2d → Prop) (hS : ConvexPts S) (hP : ∀ p ∈ P, S p) :
    ∀ p ∈ clipPolygonByRectangle P rect, S p ∧ rect.Contains p.x p.y := by
  rw [clipPolygonByRectangle]
  simp only [List.foldl_cons, List.foldl_nil]
  have h0 := clipDir_mem rect 0 S hS P hP
  have h1 := clipDir_mem rect 1 (fun p => S p ∧ Inner rect 0 p) (fun v w t a b c d => ⟨hS _ _ _ a.1 b.1 c d, inner_convex _ _ _ _ _ a.2 b.2 c d⟩) _ h0
  have h2 := clipDir_mem rect 2 (fun p => (S p ∧ Inner rect 0 p) ∧ Inner rect 1 p)
    (fun v w t a b c d => ⟨⟨hS _ _ _ a.1.1 b.1.1 c d, inner_convex _ _ _ _ _ a.1.2 b.1.2 c d⟩, inner_convex _ _ _ _ _ a.2 b.2 c d⟩) _ h1
  have h3 := clipDir_mem rect 3 (fun p => ((S p ∧ Inner rect 0 p) ∧ Inner rect 1 p) ∧ Inner rect 2 p)
    (fun v w t a b c d => ⟨⟨⟨hS _ _ _ a.1.1.1 b.1.1.1 c d, inner_convex _ _ _ _ _ a.1.1.2 b.1.1.2 c d⟩, inner_convex _ _ _ _ _ a.1.2 b.1.2 c d⟩,
      inner_convex _ _ _ _ _ a.2 b.2 c d⟩) _ h2
  intro p hp
  obtain ⟨⟨⟨⟨hs, i0⟩, i1⟩, i2⟩, i3⟩ := h3 p hp
  exact ⟨hs, i3, i1, i0, i2⟩

theorem clipLoop_id (rect : Rectangle) (dir : ℕ) (src : Polygon) (prev : Point2d) (hp : Inner rect dir prev) (hs : ∀ p ∈ src, Inner rect dir p) :
    clipLoop rect dir prev (isInside prev rect dir) src = src := by
  induction src generalizing prev with
  | nil => rfl
  | cons curr rest ih =>
    have hc := (isInside_iff rect dir curr).2 (hs curr (by simp))
    have := ih curr (hs curr (by simp)) (fun q hq => hs q (by simp [hq]))
    rw [(isInside_iff rect dir prev).2 hp, clipLoop, hc]
    rw [hc] at this
    simp [this]

theorem clipDir_id (rect : Rectangle) (dir : ℕ) (P : Polygon) (hP : ∀ p ∈ P, Inner rect dir p) : clipDir rect P dir = P := by
  cases P with
  | nil => rfl
  | cons a t =>
    rw [clipDir, getLast?_cons]
    exact clipLoop_id rect dir _ _ (hP _ (lastOf_mem _ _)) hP

/-- C79: a polygon that lies inside the rectangle is not changed. -/
theorem clip_inside (P : Polygon) (rect : Rectangle) (h : ∀ p ∈ P, rect.Contains p.x p.y) : clipPolygonByRectangle P rect = P := by
  rw [clipPolygonByRectangle]
  simp only [List.foldl_cons, List.foldl_nil]
  rw [clipDir_id rect 0 P (fun p hp => (h p hp).2.2.1), clipDir_id rect 1 P (fun p hp => (h p hp).2.1),
    clipDir_id rect 2 P (fun p hp => (h p hp).2.2.2), clipDir_id rect 3 P (fun p hp => (h p hp).1)]

/-- Outside of a rectangle containing all vertices the winding number is zero. -/
theorem winding_outside (P : Polygon) (rect : Rectangle) (h : ∀ p ∈ P, rect.Contains p.x p.y) (x y : ℝ) (hp : ¬ rect.Contains x y) :
    windingNumber x y P = 0 := by
  classical
  rw [windingNumber_eq]
  have key : ∃ g : Point2d → ℤ, ∀ v w : Point2d, rect.Contains v.x v.y → rect.Contains w.x w.y → windStep x y v w = g w - g v := by
    rw [Rectangle.Contains] at hp
    by_cases hx0 : rect.lower.x ≤ x
    · by_cases hx1 : x ≤ rect.upper.x
      · refine ⟨fun _ => 0, fun v w hv hw => ?_⟩
        rw [windStep_eq]
        by_cases hy0 : rect.lower.y ≤ y
        · have hy1 : rect.upper.y < y := by by_contra hc; exact hp ⟨hx0, hx1, hy0, not_lt.1 hc⟩
          rw [if_pos (by linarith [hv.2.2.2]), if_neg (by rintro ⟨h, _⟩; linarith [hw.2.2.2])]; simp
        · push Not at hy0
          rw [if_neg (by linarith [hv.2.2.1]), if_neg (by rintro ⟨h, _⟩; linarith [hw.2.2.1])]; simp
      · -- to the right of everything
        push Not at hx1
        have := windStep_exact x y ⟨⟨rect.upper.x, y - 1⟩, ⟨x + 1, y + 1⟩⟩ 3 hx1 (by simp) (by simp) (by simp)
        obtain ⟨g, hg⟩ := this
        exact ⟨g, fun v w hv hw => hg v w hv.2.1 hw.2.1⟩
    · push Not at hx0
      obtain ⟨g, hg⟩ := windStep_exact x y ⟨⟨x - 1, y - 1⟩, ⟨rect.lower.x, y + 1⟩⟩ 1 (by simp) hx0 (by simp) (by simp)
      exact ⟨g, fun v w hv hw => hg v w hv.1 hw.1⟩
  obtain ⟨g, hg⟩ := key
  rw [cyc_congr (fun p => rect.Contains p.x p.y) hg P h, cyc_exact]

/-- C79: clipping. The result lies within the rectangle (and within the convex hull of the original polygon), is unchanged if the polygon
was already inside the rectangle, and contains precisely those points of the interior of the rectangle that were inside the original polygon. -/
theorem C79_clip (P : Polygon) (rect : Rectangle) :
    (∀ p ∈ clipPolygonByRectangle P rect, rect.Contains p.x p.y) ∧
    (∀ S, ConvexPts S → (∀ p ∈ P, S p) → ∀ p ∈ clipPolygonByRectangle P rect, S p) ∧
    ((∀ p ∈ P, rect.Contains p.x p.y) → clipPolygonByRectangle P rect = P) ∧
    (∀ x y, rect.Interior x y →
      isPointInsidePolygon x y (clipPolygonByRectangle P rect) = isPointInsidePolygon x y P) ∧
    (∀ x y, ¬ rect.Contains x y → isPointInsidePolygon x y (clipPolygonByRectangle P rect) = false) := by
  have hv := clip_vertices P rect (fun _ => True) (fun _ _ _ _ _ _ _ => trivial) (fun _ _ => trivial)
  refine ⟨fun p hp => (hv p hp).2, fun S hS hP p hp => (clip_vertices P rect S hS hP p hp).1, clip_inside P rect, ?_, ?_⟩
  · intro x y h
    rw [Bool.eq_iff_iff, isPointInside_iff, isPointInside_iff, clip_winding P rect x y h]
  · intro x y h
    rw [Bool.eq_false_iff, ne_eq, isPointInside_iff, winding_outside _ rect (fun p hp => (hv p hp).2) x y h]; simp

/-! A triangle sticking out of the unit square. -/
example : clipPolygonByRectangle [⟨0.5, 0.5⟩, ⟨2, 0.5⟩, ⟨0.5, 0.75⟩] ⟨⟨0, 0⟩, ⟨1, 1⟩⟩ =
    [⟨0.5, 0.5⟩, ⟨1, 0.5⟩, ⟨1, 2 / 3⟩, ⟨0.5, 0.75⟩] := by
  norm_num [clipPolygonByRectangle, clipDir, clipLoop, isInside, cutPoint, linearInterp]

example : polygonArea [⟨0, 0⟩, ⟨2, 0⟩, ⟨2, 3⟩, ⟨0, 3⟩] = 6 := by norm_num [polygonArea, areaLoop]

example : isPointInsidePolygon 0.6 0.55 [⟨0.5, 0.5⟩, ⟨2, 0.5⟩, ⟨0.5, 0.75⟩] = true := by
  norm_num [isPointInsidePolygon, windingNumber, windLoop, windStep]
