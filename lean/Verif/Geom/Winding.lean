import Verif.Geom.BsplineInt

/-! What "inside" means for `isPointInsidePolygon` (/repo/src/math_geometry.cpp:239-260), independently of its algorithm: the polygon is a fan of
oriented triangles, and the winding number counts those that contain the point; C79. -/
namespace Verif.Geom

noncomputable section

/-! ## Specification -/

open Classical in
/-- 1 if the point is strictly inside a counterclockwise triangle (strictly to the left of all three sides), -1 for a clockwise one, otherwise 0. -/
def triSign (x y : ℝ) (a b c : Point2d) : ℤ :=
  if 0 < side x y a b ∧ 0 < side x y b c ∧ 0 < side x y c a then 1
  else if side x y a b < 0 ∧ side x y b c < 0 ∧ side x y c a < 0 then -1 else 0

/-- The point is on the boundary of the triangle. -/
def OnBoundary (x y : ℝ) (a b c : Point2d) : Prop :=
  ((0 ≤ side x y a b ∧ 0 ≤ side x y b c ∧ 0 ≤ side x y c a) ∨ (side x y a b ≤ 0 ∧ side x y b c ≤ 0 ∧ side x y c a ≤ 0)) ∧
  (side x y a b = 0 ∨ side x y b c = 0 ∨ side x y c a = 0)

/-- The triangles of the fan with the common vertex p0. -/
def fan (p0 : Point2d) : Polygon → List (Point2d × Point2d × Point2d)
  | [] => []
  | [_] => []
  | v :: w :: rest => (p0, v, w) :: fan p0 (w :: rest)

/-! ## Proofs -/

theorem side_bary (x y : ℝ) (a b c : Point2d) :
    side x y a b * (c.y - y) + side x y b c * (a.y - y) + side x y c a * (b.y - y) = 0 := by
  simp only [side]; ring

open Classical in
/-- The sign as a function of the three sides. -/
def sgn3 (u d r : ℝ) : ℤ := if 0 < u ∧ 0 < d ∧ 0 < r then 1 else if u < 0 ∧ d < 0 ∧ r < 0 then -1 else 0

def Bd3 (u d r : ℝ) : Prop := ((0 ≤ u ∧ 0 ≤ d ∧ 0 ≤ r) ∨ (u ≤ 0 ∧ d ≤ 0 ∧ r ≤ 0)) ∧ (u = 0 ∨ d = 0 ∨ r = 0)

open Classical in
theorem mix {u d r p q m : ℝ} (e : u * p + d * q = r * m) (h : (0 ≤ p ∧ 0 ≤ q ∧ 0 < m) ∨ (0 < p ∧ 0 < q ∧ 0 ≤ m)) (hs : 0 ≤ u + d + r)
    (hb : ¬ Bd3 u d r) : (if 0 < u then (1 : ℤ) else 0) + (if d < 0 then -1 else 0) = sgn3 u d r := by
  have r1 : 0 < u → 0 ≤ d → 0 ≤ r := by
    intro hu hd
    by_contra hr
    push Not at hr
    rcases h with ⟨hp, hq, hm⟩ | ⟨hp, hq, hm⟩
    · linarith [mul_nonneg hu.le hp, mul_nonneg hd hq, mul_neg_of_neg_of_pos hr hm]
    · linarith [mul_pos hu hp, mul_nonneg hd hq.le, mul_nonpos_of_nonpos_of_nonneg hr.le hm]
  have r2 : u ≤ 0 → d < 0 → r ≤ 0 := by
    intro hu hd
    by_contra hr
    push Not at hr
    rcases h with ⟨hp, hq, hm⟩ | ⟨hp, hq, hm⟩
    · linarith [mul_nonpos_of_nonpos_of_nonneg hu hp, mul_nonpos_of_nonpos_of_nonneg hd.le hq, mul_pos hr hm]
    · linarith [mul_nonpos_of_nonpos_of_nonneg hu hp.le, mul_neg_of_neg_of_pos hd hq, mul_nonneg hr.le hm]
  rw [sgn3]
  by_cases hu : 0 < u
  · by_cases hd : d < 0
    · rw [if_pos hu, if_pos hd, if_neg (by intro hc; linarith [hc.2.1]), if_neg (by intro hc; linarith [hc.1])]; rfl
    · push Not at hd
      have hr := r1 hu hd
      have hd' : 0 < d := lt_of_le_of_ne hd fun h0 => hb ⟨Or.inl ⟨hu.le, hd, hr⟩, Or.inr (Or.inl h0.symm)⟩
      have hr' : 0 < r := lt_of_le_of_ne hr fun h0 => hb ⟨Or.inl ⟨hu.le, hd, hr⟩, Or.inr (Or.inr h0.symm)⟩
      rw [if_pos hu, if_neg (not_lt.2 hd), if_pos ⟨hu, hd', hr'⟩, add_zero]
  · by_cases hd : d < 0
    · have hr := r2 (not_lt.1 hu) hd
      linarith [not_lt.1 hu]
    · rw [if_neg hu, if_neg hd, if_neg (by intro hc; exact hu hc.1), if_neg (by intro hc; exact hd hc.2.1), add_zero]

theorem sgn3_rot (u d r : ℝ) : sgn3 u d r = sgn3 d r u := by
  rw [sgn3, sgn3]
  congr 1
  · rw [eq_iff_iff]; tauto
  · congr 1
    rw [eq_iff_iff]; tauto

theorem sgn3_swap (u d r : ℝ) : sgn3 u d r = sgn3 d u r := by
  rw [sgn3, sgn3]
  congr 1
  · rw [eq_iff_iff]; tauto
  · congr 1
    rw [eq_iff_iff]; tauto

theorem Bd3_rot {u d r : ℝ} (h : Bd3 u d r) : Bd3 d r u := by
  rw [Bd3] at *; tauto

theorem Bd3_swap {u d r : ℝ} (h : Bd3 u d r) : Bd3 d u r := by
  rw [Bd3] at *; tauto

/-- If all three vertices are on one side of the horizontal line, the point is not strictly inside. -/
theorem same_side {u d r p q m : ℝ} (e : u * p + d * q + r * m = 0) (h : (0 < p ∧ 0 < q ∧ 0 < m) ∨ ((p ≤ 0 ∧ q ≤ 0 ∧ m ≤ 0) ∧ (p < 0 ∨ q < 0 ∨ m < 0))) :
    sgn3 u d r = 0 := by
  have key : ∀ {u d r : ℝ}, u * p + d * q + r * m = 0 → ¬ (0 < u ∧ 0 < d ∧ 0 < r) := by
    rintro u d r e ⟨hu, hd, hr⟩
    rcases h with ⟨h1, h2, h3⟩ | ⟨⟨h1, h2, h3⟩, h4⟩
    · linarith [mul_pos hu h1, mul_pos hd h2, mul_pos hr h3]
    · have a1 := mul_nonpos_of_nonneg_of_nonpos hu.le h1
      have a2 := mul_nonpos_of_nonneg_of_nonpos hd.le h2
      have a3 := mul_nonpos_of_nonneg_of_nonpos hr.le h3
      rcases h4 with h4 | h4 | h4
      · linarith [mul_neg_of_pos_of_neg hu h4]
      · linarith [mul_neg_of_pos_of_neg hd h4]
      · linarith [mul_neg_of_pos_of_neg hr h4]
  have k2 : ¬ (u < 0 ∧ d < 0 ∧ r < 0) := by
    rintro ⟨h1, h2, h3⟩
    exact key (u := -u) (d := -d) (r := -r) (by linarith) ⟨by linarith, by linarith, by linarith⟩
  rw [sgn3, if_neg (key e), if_neg k2]

theorem tri_pos (x y : ℝ) (a b c : Point2d) (h : 0 ≤ side x y a b + side x y b c + side x y c a) (hb : ¬ OnBoundary x y a b c) :
    windStep x y a b + windStep x y b c + windStep x y c a = triSign x y a b c := by
  classical
  have e := side_bary x y a b c
  have z1 : a.y = y → b.y = y → side x y a b = 0 := fun h1 h2 => by rw [side, h1, h2]; ring
  have et : triSign x y a b c = sgn3 (side x y a b) (side x y b c) (side x y c a) := rfl
  have hb1 : ¬ Bd3 (side x y a b) (side x y b c) (side x y c a) := hb
  have hb2 : ¬ Bd3 (side x y b c) (side x y c a) (side x y a b) := fun hc => hb1 (Bd3_rot (Bd3_rot hc))
  have hb3 : ¬ Bd3 (side x y c a) (side x y a b) (side x y b c) := fun hc => hb1 (Bd3_rot hc)
  have hb4 : ¬ Bd3 (side x y b c) (side x y a b) (side x y c a) := fun hc => hb1 (Bd3_swap hc)
  have hb5 : ¬ Bd3 (side x y a b) (side x y c a) (side x y b c) := fun hc => hb3 (Bd3_swap hc)
  have hb6 : ¬ Bd3 (side x y c a) (side x y b c) (side x y a b) := fun hc => hb2 (Bd3_swap hc)
  clear hb
  rw [et, windStep_eq, windStep_eq, windStep_eq]
  by_cases ya : a.y ≤ y <;> by_cases yb : b.y ≤ y <;> by_cases yc : c.y ≤ y
  · simp only [ya, yb, yc, not_lt.2 ya, not_lt.2 yb, not_lt.2 yc, false_and, if_true, if_false, add_zero]
    by_cases hs : a.y < y ∨ b.y < y ∨ c.y < y
    · exact (same_side e (Or.inr ⟨⟨by linarith, by linarith, by linarith⟩, by rcases hs with hs | hs | hs; exacts [Or.inr (Or.inl (by linarith)), Or.inr (Or.inr (by linarith)), Or.inl (by linarith)]⟩)).symm
    · push Not at hs
      rw [sgn3, z1 (le_antisymm ya hs.1) (le_antisymm yb hs.2.1)]; simp
  · have yc' := not_le.1 yc
    simp only [ya, yb, yc, yc', not_lt.2 ya, not_lt.2 yb, false_and, true_and, if_true, if_false, zero_add]
    rw [sgn3_rot, mix (p := y - a.y) (q := y - b.y) (m := c.y - y) (by linarith) (Or.inl ⟨by linarith, by linarith, by linarith⟩) (by linarith) hb2]
  · have yb' := not_le.1 yb
    simp only [ya, yb, yc, yb', not_lt.2 ya, not_lt.2 yc, false_and, true_and, if_true, if_false, add_zero]
    rw [mix (r := side x y c a) (p := y - c.y) (q := y - a.y) (m := b.y - y) (by linarith) (Or.inl ⟨by linarith, by linarith, by linarith⟩) (by linarith) hb1]
  · have yb' := not_le.1 yb
    have yc' := not_le.1 yc
    simp only [ya, yb, yc, yb', yc', false_and, true_and, if_true, if_false, add_zero]
    rw [mix (r := side x y b c) (p := c.y - y) (q := b.y - y) (m := y - a.y) (by linarith) (Or.inr ⟨by linarith, by linarith, by linarith⟩) (by linarith) hb5,
      sgn3_rot, sgn3_swap, ← sgn3_rot, sgn3_swap, sgn3_rot]
  · have ya' := not_le.1 ya
    simp only [ya, yb, yc, ya', not_lt.2 yb, not_lt.2 yc, false_and, true_and, if_true, if_false, add_zero]
    rw [add_comm, mix (r := side x y b c) (p := y - b.y) (q := y - c.y) (m := a.y - y) (by linarith) (Or.inl ⟨by linarith, by linarith, by linarith⟩) (by linarith) hb3,
      ← sgn3_rot, ← sgn3_rot]
  · have ya' := not_le.1 ya
    have yc' := not_le.1 yc
    simp only [ya, yb, yc, ya', yc', false_and, true_and, if_true, if_false, add_zero]
    rw [add_comm, mix (r := side x y c a) (p := a.y - y) (q := c.y - y) (m := y - b.y) (by linarith) (Or.inr ⟨by linarith, by linarith, by linarith⟩) (by linarith) hb4,
      sgn3_swap]
  · have ya' := not_le.1 ya
    have yb' := not_le.1 yb
    simp only [ya, yb, yc, ya', yb', false_and, true_and, if_true, if_false, add_zero, zero_add]
    rw [add_comm, mix (r := side x y a b) (p := b.y - y) (q := a.y - y) (m := y - c.y) (by linarith) (Or.inr ⟨by linarith, by linarith, by linarith⟩) (by linarith) hb6,
      sgn3_swap, ← sgn3_rot]
  · simp only [ya, yb, yc, false_and, if_false, add_zero]
    exact (same_side e (Or.inl ⟨by linarith, by linarith, by linarith⟩)).symm

theorem side_anti (x y : ℝ) (v w : Point2d) : side x y w v = -side x y v w := by simp only [side]; ring

theorem tri_any (x y : ℝ) (a b c : Point2d) (hb : ¬ OnBoundary x y a b c) :
    windStep x y a b + windStep x y b c + windStep x y c a = triSign x y a b c := by
  rcases le_total 0 (side x y a b + side x y b c + side x y c a) with h | h
  · exact tri_pos x y a b c h hb
  · have ea := side_anti x y a b
    have eb := side_anti x y b c
    have ec := side_anti x y c a
    have hb' : ¬ OnBoundary x y a c b := by
      rw [OnBoundary, ea, eb, ec]
      rw [OnBoundary] at hb
      intro hc
      apply hb
      simp only [neg_nonneg, neg_nonpos, neg_eq_zero] at hc
      tauto
    have := tri_pos x y a c b (by rw [ea, eb, ec]; linarith) hb'
    rw [windStep_anti x y c a, windStep_anti x y b c, windStep_anti x y a b] at this
    have et : triSign x y a c b = -triSign x y a b c := by
      rw [triSign, triSign, ea, eb, ec]
      simp only [neg_pos, neg_neg_iff_pos]
      by_cases h1 : 0 < side x y a b ∧ 0 < side x y b c ∧ 0 < side x y c a
      · rw [if_pos h1, if_neg (by intro hc; linarith [h1.1, hc.2.2]), if_pos (by tauto)]
      · by_cases h2 : side x y a b < 0 ∧ side x y b c < 0 ∧ side x y c a < 0
        · rw [if_neg h1, if_pos h2, if_pos (by tauto)]; rfl
        · rw [if_neg h1, if_neg h2, if_neg (by tauto), if_neg (by tauto)]; rfl
    rw [et] at this
    linarith

/-- C79: "inside" as computed by `isPointInsidePolygon` means covered, with the multiplicity given by orientation, by the triangles
of which the polygon consists: off the edges, the winding number is the number of counterclockwise triangles of the fan (from the first vertex)
that contain the point, minus the number of clockwise ones; for a convex polygon or a triangle this is simply the interior. -/
theorem C79_winding (p0 : Point2d) (rest : Polygon) (x y : ℝ) (h : ∀ t ∈ fan p0 rest, ¬ OnBoundary x y t.1 t.2.1 t.2.2) :
    windingNumber x y (p0 :: rest) = ((fan p0 rest).map fun t => triSign x y t.1 t.2.1 t.2.2).sum ∧
    (isPointInsidePolygon x y (p0 :: rest) = true ↔ ((fan p0 rest).map fun t => triSign x y t.1 t.2.1 t.2.2).sum ≠ 0) := by
  have key : windingNumber x y (p0 :: rest) = ((fan p0 rest).map fun t => triSign x y t.1 t.2.1 t.2.2).sum := by
    rw [windingNumber_eq]
    cases rest with
    | nil => simp [fan, cyc_cons, lastOf, path, windStep_self]
    | cons p1 l =>
      rw [fan_cyc _ (windStep_anti x y)]
      induction l generalizing p1 with
      | nil => simp [fan, path]
      | cons a t ih =>
        rw [fan] at h
        rw [path, fan, List.map_cons, List.sum_cons, ih a (fun t ht => h t (by simp [ht])), tri_any x y p0 p1 a (h (p0, p1, a) (by simp))]
  rw [isPointInside_iff, key]
  simp

/-- C79: the result does not depend on the orientation of the polygon (although math_geometry.h:38-39 asks to negate it for clockwise ones). -/
theorem C79_inside_reverse (P : Polygon) (x y : ℝ) : isPointInsidePolygon x y P.reverse = isPointInsidePolygon x y P := by
  rw [Bool.eq_iff_iff, isPointInside_iff, isPointInside_iff, winding_reverse, neg_ne_zero]

/-- A quadrilateral with a reentrant vertex: the fan has triangles of both orientations. -/
example : (∀ t ∈ fan ⟨0, 0⟩ [⟨4, 0⟩, ⟨1, 1⟩, ⟨0, 4⟩], ¬ OnBoundary 0.5 0.25 t.1 t.2.1 t.2.2) ∧
    ((fan ⟨0, 0⟩ [⟨4, 0⟩, ⟨1, 1⟩, ⟨0, 4⟩]).map fun t => triSign 0.5 0.25 t.1 t.2.1 t.2.2).sum = 1 := by
  constructor
  · intro t ht
    simp only [fan, List.mem_cons, List.not_mem_nil, or_false] at ht
    rcases ht with rfl | rfl <;> norm_num [OnBoundary, side]
  · norm_num [fan, triSign, side]

end

end Verif.Geom
