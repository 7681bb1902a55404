import Mathlib.MeasureTheory.Integral.Prod
import Mathlib.MeasureTheory.Measure.Lebesgue.Basic
import Mathlib.Analysis.SpecialFunctions.Integrals.Basic
import Verif.Geom.Polygon

/-! The area of a polygon and of its clipped part are integrals of the winding number (Green's theorem); C79. -/
namespace Verif.Geom

open MeasureTheory

noncomputable section

/-- The x coordinate of the edge at the given y. -/
def edgeX (v w : Point2d) (y : ℝ) : ℝ := v.x + (y - v.y) / (w.y - v.y) * (w.x - v.x)

theorem windStep_anti (x y : ℝ) (v w : Point2d) : windStep x y w v = -windStep x y v w := by
  have e : side x y w v = -side x y v w := by rw [side, side]; ring
  rw [windStep_eq, windStep_eq, e]
  by_cases a : v.y ≤ y <;> by_cases b : w.y ≤ y
  · simp [a, b, not_lt.2 a, not_lt.2 b]
  · simp [a, b, not_le.1 b]; split_ifs <;> simp
  · simp [a, b, not_le.1 a]; split_ifs <;> simp
  · simp [a, b]

theorem windStep_up {v w : Point2d} (h : v.y < w.y) (x y : ℝ) :
    windStep x y v w = if (v.y ≤ y ∧ y < w.y) ∧ x < edgeX v w y then 1 else 0 := by
  have hd : 0 < w.y - v.y := sub_pos.2 h
  have e : 0 < side x y v w ↔ x < edgeX v w y := by
    have : side x y v w = (w.y - v.y) * (edgeX v w y - x) := by rw [side, edgeX]; field_simp; ring
    rw [this, mul_pos_iff_of_pos_left hd, sub_pos]
  rw [windStep_eq]; simp only [e]
  by_cases a : v.y ≤ y
  · simp only [a, if_true, true_and]
  · rw [if_neg a, if_neg (fun h' => by linarith [h'.1]), if_neg (fun h' => a h'.1.1)]

theorem edgeX_bounds {v w : Point2d} (h : v.y < w.y) {y lo hi : ℝ} (h0 : v.y ≤ y) (h1 : y ≤ w.y) (a : lo ≤ v.x) (b : lo ≤ w.x) (c : v.x ≤ hi) (d : w.x ≤ hi) :
    lo ≤ edgeX v w y ∧ edgeX v w y ≤ hi := by
  have hd : 0 < w.y - v.y := sub_pos.2 h
  have t0 : 0 ≤ (y - v.y) / (w.y - v.y) := div_nonneg (by linarith) hd.le
  have t1 : (y - v.y) / (w.y - v.y) ≤ 1 := (div_le_one hd).2 (by linarith)
  rw [edgeX]
  generalize (y - v.y) / (w.y - v.y) = t at *
  constructor <;> nlinarith

theorem edgeX_continuous (v w : Point2d) : Continuous (edgeX v w) := by
  unfold edgeX
  exact continuous_const.add (((continuous_id.sub continuous_const).div_const _).mul continuous_const)

/-- The contribution of one edge restricted to x ≥ a. -/
def edgeWeight (a : ℝ) (v w : Point2d) (f : ℝ × ℝ → ℝ) (p : ℝ × ℝ) : ℝ :=
  (if a ≤ p.1 then (windStep p.1 p.2 v w : ℝ) else 0) * f p

theorem edge_up (a : ℝ) {v w : Point2d} (h : v.y < w.y) (hv : a ≤ v.x) (hw : a ≤ w.x) {f : ℝ × ℝ → ℝ} (hf : Continuous f) :
    Integrable (edgeWeight a v w f) ∧
    ∫ p, edgeWeight a v w f p = ∫ y in v.y..w.y, ∫ x in a..edgeX v w y, f (x, y) := by
  set E : Set (ℝ × ℝ) := {p | (v.y ≤ p.2 ∧ p.2 < w.y) ∧ p.1 < edgeX v w p.2 ∧ a ≤ p.1} with hE
  have hEm : MeasurableSet E := by
    have c := (edgeX_continuous v w).measurable
    apply MeasurableSet.inter
    · exact (measurableSet_le measurable_const measurable_snd).inter (measurableSet_lt measurable_snd measurable_const)
    · exact (measurableSet_lt measurable_fst (c.comp measurable_snd)).inter (measurableSet_le measurable_const measurable_fst)
  have hw' : edgeWeight a v w f = E.indicator f := by
    funext p
    rw [edgeWeight, windStep_up h, Set.indicator]
    by_cases h1 : a ≤ p.1
    · by_cases h2 : (v.y ≤ p.2 ∧ p.2 < w.y) ∧ p.1 < edgeX v w p.2
      · rw [if_pos h1, if_pos h2, if_pos (show p ∈ E from ⟨h2.1, h2.2, h1⟩)]; simp
      · rw [if_pos h1, if_neg h2, if_neg (show p ∉ E from fun hc => h2 ⟨hc.1, hc.2.1⟩)]; simp
    · rw [if_neg h1, if_neg (show p ∉ E from fun hc => h1 hc.2.2), zero_mul]
  have hsub : E ⊆ Set.Icc a (max v.x w.x) ×ˢ Set.Icc v.y w.y := by
    rintro ⟨x, y⟩ ⟨⟨h1, h2⟩, h3, h4⟩
    have := edgeX_bounds h h1 h2.le hv hw (le_max_left v.x w.x) (le_max_right v.x w.x)
    exact ⟨⟨h4, (h3.le.trans this.2)⟩, h1, h2.le⟩
  have hint : IntegrableOn f E :=
    (hf.continuousOn.integrableOn_compact (isCompact_Icc.prod isCompact_Icc)).mono_set hsub
  have hI : Integrable (edgeWeight a v w f) := by rw [hw']; exact (integrable_indicator_iff hEm).2 hint
  refine ⟨hI, ?_⟩
  rw [Measure.volume_eq_prod, integral_prod_symm _ (by rw [← Measure.volume_eq_prod]; exact hI)]
  have key : ∀ y, ∫ x, edgeWeight a v w f (x, y) = (Set.Ico v.y w.y).indicator (fun y => ∫ x in a..edgeX v w y, f (x, y)) y := by
    intro y
    by_cases hy : y ∈ Set.Ico v.y w.y
    · rw [Set.indicator_of_mem hy]
      have hb := edgeX_bounds h hy.1 hy.2.le hv hw (le_max_left v.x w.x) (le_max_right v.x w.x)
      rw [intervalIntegral.integral_of_le hb.1, ← integral_Ico_eq_integral_Ioc, ← integral_indicator measurableSet_Ico]
      congr 1
      funext x
      rw [hw']
      have : (x, y) ∈ E ↔ x ∈ Set.Ico a (edgeX v w y) := ⟨fun hc => ⟨hc.2.2, hc.2.1⟩, fun hc => ⟨hy, hc.2, hc.1⟩⟩
      by_cases hx : x ∈ Set.Ico a (edgeX v w y)
      · rw [Set.indicator_of_mem hx, Set.indicator_of_mem (this.2 hx)]
      · rw [Set.indicator_of_notMem hx, Set.indicator_of_notMem (fun hc => hx (this.1 hc))]
    · rw [Set.indicator_of_notMem hy]
      have : ∀ x, edgeWeight a v w f (x, y) = 0 := by
        intro x; rw [hw', Set.indicator_of_notMem (fun hc => hy hc.1)]
      simp [this]
  simp only [key]
  rw [integral_indicator measurableSet_Ico, integral_Ico_eq_integral_Ioc, ← intervalIntegral.integral_of_le h.le]

theorem edgeX_symm {v w : Point2d} (h : v.y ≠ w.y) (y : ℝ) : edgeX w v y = edgeX v w y := by
  have : w.y - v.y ≠ 0 := sub_ne_zero.2 h.symm
  have : v.y - w.y ≠ 0 := sub_ne_zero.2 h
  rw [edgeX, edgeX]; field_simp; ring

theorem edge_all (a : ℝ) (v w : Point2d) (hv : a ≤ v.x) (hw : a ≤ w.x) {f : ℝ × ℝ → ℝ} (hf : Continuous f) :
    Integrable (edgeWeight a v w f) ∧
    ∫ p, edgeWeight a v w f p = ∫ y in v.y..w.y, ∫ x in a..edgeX v w y, f (x, y) := by
  rcases lt_trichotomy v.y w.y with h | h | h
  · exact edge_up a h hv hw hf
  · have hz : edgeWeight a v w f = fun _ => 0 := by
      funext p
      rw [edgeWeight, windStep_eq, h]
      by_cases hy : w.y ≤ p.2
      · simp [hy, not_lt.2 hy]
      · simp [hy]
    rw [hz, h]
    exact ⟨integrable_zero _ _ _, by simp⟩
  · obtain ⟨h1, h2⟩ := edge_up a h hw hv hf
    have e : edgeWeight a v w f = fun p => -edgeWeight a w v f p := by
      funext p
      rw [edgeWeight, edgeWeight, windStep_anti]
      split_ifs <;> push_cast <;> ring
    rw [e]
    refine ⟨h1.neg, ?_⟩
    rw [integral_neg, h2, intervalIntegral.integral_symm, neg_neg]
    simp only [edgeX_symm h.ne]

/-! ## Whole polygon -/

/-- Integral of a function over the plane, weighted with the winding number of the polygon: for a polygon without self-intersections oriented
counterclockwise this is the integral over the region enclosed by it. -/
def polyInt (P : Polygon) (f : ℝ × ℝ → ℝ) : ℝ := ∫ p : ℝ × ℝ, (windingNumber p.1 p.2 P : ℝ) * f p

theorem path_cast (φ : Point2d → Point2d → ℤ) (p : Point2d) (l : Polygon) : ((path φ p l : ℤ) : ℝ) = path (fun v w => (φ v w : ℝ)) p l := by
  induction l generalizing p with
  | nil => simp [path]
  | cons a t ih => rw [path, path, ← ih]; push_cast; rfl

theorem path_integral (Φ : Point2d → Point2d → ℝ × ℝ → ℝ) (S : Point2d → Prop) (h : ∀ v w, S v → S w → Integrable (Φ v w)) (p : Point2d) (hp : S p)
    (l : Polygon) (hl : ∀ q ∈ l, S q) :
    Integrable (fun z => path (fun v w => Φ v w z) p l) ∧
    ∫ z, path (fun v w => Φ v w z) p l = path (fun v w => ∫ z, Φ v w z) p l := by
  induction l generalizing p with
  | nil => simp [path]
  | cons a t ih =>
    obtain ⟨i1, i2⟩ := ih a (hl a (by simp)) (fun q hq => hl q (by simp [hq]))
    have i0 := h p a hp (hl a (by simp))
    simp only [path]
    refine ⟨i0.add i1, ?_⟩
    rw [integral_add i0 i1, i2]

theorem exists_bound (P : Polygon) : ∃ r : Rectangle, ∀ p ∈ P, r.Contains p.x p.y := by
  induction P with
  | nil => exact ⟨⟨⟨0, 0⟩, ⟨0, 0⟩⟩, by simp⟩
  | cons a t ih =>
    obtain ⟨r, hr⟩ := ih
    refine ⟨⟨⟨min r.lower.x a.x, min r.lower.y a.y⟩, ⟨max r.upper.x a.x, max r.upper.y a.y⟩⟩, ?_⟩
    intro p hp
    rw [List.mem_cons] at hp
    rcases hp with rfl | hp
    · exact ⟨min_le_right _ _, le_max_right _ _, min_le_right _ _, le_max_right _ _⟩
    · obtain ⟨a1, a2, a3, a4⟩ := hr p hp
      exact ⟨(min_le_left _ _).trans a1, a2.trans (le_max_left _ _), (min_le_left _ _).trans a3, a4.trans (le_max_left _ _)⟩

/-- Green's theorem for the winding number. -/
theorem green (P : Polygon) (a : ℝ) (ha : ∀ p ∈ P, a ≤ p.x) {f : ℝ × ℝ → ℝ} (hf : Continuous f) :
    Integrable (fun p : ℝ × ℝ => (windingNumber p.1 p.2 P : ℝ) * f p) ∧
    polyInt P f = cyc (fun v w => ∫ y in v.y..w.y, ∫ x in a..edgeX v w y, f (x, y)) P := by
  cases P with
  | nil => simp [polyInt, windingNumber, cyc]
  | cons b t =>
    have hmem := lastOf_mem b t
    have e : ∀ p : ℝ × ℝ, (windingNumber p.1 p.2 (b :: t) : ℝ) * f p = path (fun v w => edgeWeight a v w f p) (lastOf b t) (b :: t) := by
      intro p
      rw [path_mul (f p) (fun v w => if a ≤ p.1 then (windStep p.1 p.2 v w : ℝ) else 0) (fun v w => edgeWeight a v w f p) (fun v w => rfl)]
      congr 1
      by_cases hp : a ≤ p.1
      · simp only [hp, if_true]
        rw [windingNumber_eq, cyc_cons, path_cast]
      · simp only [hp, if_false]
        obtain ⟨r, hr⟩ := exists_bound (b :: t)
        have h0 := winding_outside (b :: t) ⟨⟨a, r.lower.y⟩, r.upper⟩ (fun q hq => ⟨ha q hq, (hr q hq).2.1, (hr q hq).2.2.1, (hr q hq).2.2.2⟩) p.1 p.2
          (fun hc => hp hc.1)
        rw [h0]
        have : ∀ (q : Point2d) (l : Polygon), path (fun (_ _ : Point2d) => (0 : ℝ)) q l = 0 := by
          intro q l
          induction l generalizing q with
          | nil => rfl
          | cons c s ih => rw [path, ih, add_zero]
        rw [this]; simp
    have := path_integral (fun v w => edgeWeight a v w f) (fun q => a ≤ q.x) (fun v w hv hw => (edge_all a v w hv hw hf).1)
      (lastOf b t) (ha _ hmem) (b :: t) ha
    rw [polyInt, cyc_cons]
    simp only [e]
    refine ⟨this.1, ?_⟩
    rw [this.2]
    exact path_congr (fun q => a ≤ q.x) (fun v w hv hw => (edge_all a v w hv hw hf).2) _ (ha _ hmem) _ ha

theorem edgeX_at {v w : Point2d} (h : v.y ≠ w.y) (t : ℝ) : edgeX v w (v.y + (w.y - v.y) * t) = v.x + t * (w.x - v.x) := by
  have : w.y - v.y ≠ 0 := sub_ne_zero.2 h.symm
  rw [edgeX, add_sub_cancel_left, mul_div_cancel_left₀ _ this]

/-- The same with a parameter along each edge. -/
theorem edge_param (v w : Point2d) (G : ℝ → ℝ → ℝ) :
    ∫ y in v.y..w.y, G (edgeX v w y) y = (w.y - v.y) * ∫ t in (0 : ℝ)..1, G (v.x + t * (w.x - v.x)) (v.y + t * (w.y - v.y)) := by
  by_cases h : v.y = w.y
  · rw [h]; simp
  · have := intervalIntegral.smul_integral_comp_add_mul (a := 0) (b := 1) (fun y => G (edgeX v w y) y) (w.y - v.y) v.y
    rw [smul_eq_mul] at this
    rw [show v.y + (w.y - v.y) * 0 = v.y by ring, show v.y + (w.y - v.y) * 1 = w.y by ring] at this
    rw [← this]
    congr 1
    apply intervalIntegral.integral_congr
    intro t _
    dsimp only
    rw [edgeX_at h, mul_comm t (w.y - v.y)]

/-- C79: the area computed by `polygonArea` is the integral of the winding number over the plane. -/
theorem C79_area (P : Polygon) : Integrable (fun p : ℝ × ℝ => (windingNumber p.1 p.2 P : ℝ)) ∧
    polygonArea P = ∫ p : ℝ × ℝ, (windingNumber p.1 p.2 P : ℝ) := by
  obtain ⟨r, hr⟩ := exists_bound P
  obtain ⟨h1, h2⟩ := green P r.lower.x (fun p hp => (hr p hp).1) (f := fun _ => 1) continuous_const
  simp only [polyInt, mul_one] at h1 h2
  refine ⟨h1, ?_⟩
  rw [h2, polygonArea_eq, ← sub_eq_zero, ← cyc_sub, ← cyc_exact (fun v => r.lower.x * v.y) P]
  apply cyc_congr (fun _ => True) _ P (fun _ _ => trivial)
  intro v w _ _
  simp only [intervalIntegral.integral_const, smul_eq_mul, mul_one]
  rw [edge_param v w (fun x _ => x - r.lower.x), areaForm]
  have : ∫ t in (0 : ℝ)..1, (v.x + t * (w.x - v.x) - r.lower.x) = (v.x + w.x) / 2 - r.lower.x := by
    rw [intervalIntegral.integral_sub (by apply Continuous.intervalIntegrable; fun_prop) (by simp), intervalIntegral.integral_add (by simp) (by apply Continuous.intervalIntegrable; fun_prop)]
    simp; ring
  rw [this]; ring

/-! ## Clipped polygons -/

/-- The open rectangle as a set of the plane. -/
def Rectangle.set (r : Rectangle) : Set (ℝ × ℝ) := Set.Ioo r.lower.x r.upper.x ×ˢ Set.Ioo r.lower.y r.upper.y

/-- The boundary of a rectangle has measure zero. -/
theorem boundary_null (r : Rectangle) : ∀ᵐ p : ℝ × ℝ, r.Contains p.1 p.2 → p ∈ r.set := by
  have hx : ∀ c : ℝ, ∀ᵐ p : ℝ × ℝ, p.1 ≠ c := by
    intro c
    rw [ae_iff]
    have : {p : ℝ × ℝ | ¬ p.1 ≠ c} = {c} ×ˢ Set.univ := by ext p; simp
    rw [this, Measure.volume_eq_prod, Measure.prod_prod]; simp
  have hy : ∀ c : ℝ, ∀ᵐ p : ℝ × ℝ, p.2 ≠ c := by
    intro c
    rw [ae_iff]
    have : {p : ℝ × ℝ | ¬ p.2 ≠ c} = Set.univ ×ˢ {c} := by ext p; simp
    rw [this, Measure.volume_eq_prod, Measure.prod_prod]; simp
  filter_upwards [hx r.lower.x, hx r.upper.x, hy r.lower.y, hy r.upper.y] with p a b c d h
  exact ⟨⟨lt_of_le_of_ne h.1 a.symm, lt_of_le_of_ne h.2.1 b⟩, lt_of_le_of_ne h.2.2.1 c.symm, lt_of_le_of_ne h.2.2.2 d⟩

theorem clip_ae (P : Polygon) (rect : Rectangle) (f : ℝ × ℝ → ℝ) :
    (fun p : ℝ × ℝ => (windingNumber p.1 p.2 (clipPolygonByRectangle P rect) : ℝ) * f p) =ᵐ[volume]
      rect.set.indicator (fun p => (windingNumber p.1 p.2 P : ℝ) * f p) := by
  filter_upwards [boundary_null rect] with p hp
  by_cases h : rect.Contains p.1 p.2
  · have hs := hp h
    rw [Set.indicator_of_mem hs, clip_winding P rect p.1 p.2 ⟨hs.1.1, hs.1.2, hs.2.1, hs.2.2⟩]
  · rw [Set.indicator_of_notMem (fun hc => h ⟨hc.1.1.le, hc.1.2.le, hc.2.1.le, hc.2.2.le⟩),
      winding_outside _ rect (fun q hq => (clip_vertices P rect (fun _ => True) (fun _ _ _ _ _ _ _ => trivial) (fun _ _ => trivial) q hq).2) _ _ h]
    simp

theorem Rectangle.set_measurable (r : Rectangle) : MeasurableSet r.set := measurableSet_Ioo.prod measurableSet_Ioo

/-- C79: an integral over the clipped polygon is the integral over the part of the original polygon inside the rectangle. -/
theorem C79_clip_integral (P : Polygon) (rect : Rectangle) (f : ℝ × ℝ → ℝ) :
    polyInt (clipPolygonByRectangle P rect) f = ∫ p in rect.set, (windingNumber p.1 p.2 P : ℝ) * f p := by
  rw [polyInt, integral_congr_ae (clip_ae P rect f), integral_indicator rect.set_measurable]

/-- C79: the area of the clipped polygon. -/
theorem C79_clip_area (P : Polygon) (rect : Rectangle) :
    polygonArea (clipPolygonByRectangle P rect) = ∫ p in rect.set, (windingNumber p.1 p.2 P : ℝ) := by
  have := C79_clip_integral P rect (fun _ => 1)
  simp only [polyInt, mul_one] at this
  rw [(C79_area _).2, this]

end

end Verif.Geom
