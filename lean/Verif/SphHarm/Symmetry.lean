import Verif.SphHarm.Index
import Verif.SphHarm.LegendreProps

/-! C27: the loop over an index scheme visits exactly the real spherical harmonics that are invariant under each
requested reflection, where the harmonics are those computed by `sphHarmArray`. -/
namespace Verif.SphHarm
open Real

/-- W_l^m(theta) as returned by `sphHarmArray` (last element of the array for lmax = l). -/
noncomputable def legW (l m : ℕ) (t : ℝ) : ℝ :=
  (((sphHarmArray l m (tauOf t)).getD [])[l - m]?.getD ⟨0, 0, 0⟩).val

/-- math_sphharm.h:84: m>=0 corresponds to cos(m phi), m<0 to sin(|m| phi). -/
noncomputable def trigM (m : ℤ) (p : ℝ) : ℝ := if 0 ≤ m then cos (m * p) else sin (|m| * p)

/-- The real spherical harmonic of index (l,m) in polar coordinates. -/
noncomputable def harm (l m : ℤ) (t p : ℝ) : ℝ := legW l.toNat m.natAbs t * trigM m p

/-- Invariance of a function of the direction under x -> -x, y -> -y, z -> -z, (x,y,z) -> (-x,-y,-z), in polar
coordinates. -/
def InvX (f : ℝ → ℝ → ℝ) : Prop := ∀ t p, 0 ≤ t → t ≤ π → f t (π - p) = f t p
def InvY (f : ℝ → ℝ → ℝ) : Prop := ∀ t p, 0 ≤ t → t ≤ π → f t (-p) = f t p
def InvZ (f : ℝ → ℝ → ℝ) : Prop := ∀ t p, 0 ≤ t → t ≤ π → f (π - t) p = f t p
def InvR (f : ℝ → ℝ → ℝ) : Prop := ∀ t p, 0 ≤ t → t ≤ π → f (π - t) (p + π) = f t p
/-- Invariance under rotations about the z axis. -/
def InvRot (f : ℝ → ℝ → ℝ) : Prop := ∀ t p q, 0 ≤ t → t ≤ π → f t (p + q) = f t p

theorem sin_add_one_ne {t : ℝ} (h0 : 0 ≤ t) (h1 : t ≤ π) : sin t + 1 ≠ 0 := by
  have := sin_nonneg_of_nonneg_of_le_pi h0 h1; linarith

theorem legW_eq {l m : ℕ} (h : m ≤ l) {t : ℝ} (ht : sin t + 1 ≠ 0) :
    legW l m t = pre m (l - m) * cm m * G m (l - m) t := by
  obtain ⟨a, o, h1, h2, h3⟩ := array_val (lmax := l) (m := m) (n := l - m) (by omega) ht
  rw [legW, h1, Option.getD_some, h2, Option.getD_some, h3]

theorem legW_refl {l m : ℕ} (h : m ≤ l) {t : ℝ} (h0 : 0 ≤ t) (h1 : t ≤ π) :
    legW l m (π - t) = (-1) ^ (l - m) * legW l m t := by
  rw [legW_eq h (sin_add_one_ne h0 h1), legW_eq h (t := π - t) (by rw [sin_pi_sub]; exact sin_add_one_ne h0 h1),
    G, G, sin_pi_sub, cos_pi_sub, Q_neg]; ring

theorem legW_nonzero {l m : ℕ} (h : m ≤ l) : ∃ t, 0 ≤ t ∧ t ≤ π ∧ legW l m t ≠ 0 := by
  have hq : Q m (cos 0) (l - m) ≠ 0 := by
    rw [cos_zero, Q_one]
    have : 0 < (2 * m + (l - m)).choose (2 * m) := Nat.choose_pos (by omega)
    positivity
  have hc : ContinuousAt (fun t => Q m (cos t) (l - m)) 0 :=
    (HasDerivAt.comp (0 : ℝ) (hasDerivAt_Q m (cos 0) (l - m)) (hasDerivAt_cos 0)).continuousAt
  have ev := hc.eventually_ne hq
  obtain ⟨e, he, hb⟩ := Metric.eventually_nhds_iff.1 ev
  refine ⟨min (e / 2) 1, by positivity, le_trans (min_le_right _ _) (by linarith [two_le_pi]), ?_⟩
  set t := min (e / 2) 1
  have t0 : 0 < t := by positivity
  have t1 : t < π := lt_of_le_of_lt (min_le_right _ _) (by linarith [two_le_pi])
  rw [legW_eq h (sin_add_one_ne t0.le t1.le), G]
  have hs : 0 < sin t := sin_pos_of_pos_of_lt_pi t0 t1
  have hQ : Q m (cos t) (l - m) ≠ 0 := by
    apply hb
    rw [Real.dist_eq, sub_zero, abs_of_pos t0]
    exact lt_of_le_of_lt (min_le_left _ _) (by linarith)
  exact mul_ne_zero (mul_ne_zero (pre_pos m _).ne' (cm_ne_zero m)) (mul_ne_zero (pow_ne_zero _ hs.ne') hQ)

theorem trig_one (m : ℤ) : ∃ p, trigM m p = 1 := by
  by_cases h : 0 ≤ m
  · exact ⟨0, by rw [trigM, if_pos h]; simp⟩
  · refine ⟨π / 2 / |(m : ℝ)|, ?_⟩
    have : |(m : ℝ)| ≠ 0 := by rw [abs_ne_zero]; exact_mod_cast (by omega : m ≠ 0)
    rw [trigM, if_neg h]
    push_cast
    rw [mul_div_cancel₀ _ this, sin_pi_div_two]

/-- The sign acquired under x -> -x. -/
theorem trig_x (m : ℤ) (p : ℝ) :
    trigM m (π - p) = (if (m < 0 ↔ ¬ Even m) then 1 else -1) * trigM m p := by
  by_cases h : 0 ≤ m
  · have hn : ¬ m < 0 := by omega
    rw [trigM, trigM, if_pos h, if_pos h, mul_sub, cos_sub, sin_int_mul_pi, zero_mul, add_zero]
    by_cases he : Even m
    · obtain ⟨k, rfl⟩ := he
      have e : cos (((k + k : ℤ) : ℝ) * π) = 1 := by
        have := cos_int_mul_two_pi k
        rw [← this]; congr 1; push_cast; ring
      rw [e, if_pos (by simp [hn])]
    · rw [if_neg (by simp [hn, he])]
      obtain ⟨k, rfl⟩ := Int.not_even_iff_odd.1 he
      have e : cos (((2 * k + 1 : ℤ) : ℝ) * π) = -1 := by
        have := cos_int_mul_two_pi_add_pi k
        rw [← this]; congr 1; push_cast; ring
      rw [e]
  · have hn : m < 0 := by omega
    rw [trigM, trigM, if_neg h, if_neg h, mul_sub, sin_sub, sin_int_mul_pi, zero_mul, zero_sub]
    have ab : |m| = -m := abs_of_neg hn
    rw [ab]
    by_cases he : Even m
    · rw [if_neg (by simp [hn, he])]
      obtain ⟨k, rfl⟩ := he
      have e : cos (((-(k + k) : ℤ) : ℝ) * π) = 1 := by
        have := cos_int_mul_two_pi (-k)
        rw [← this]; congr 1; push_cast; ring
      rw [e]; ring
    · rw [if_pos (by simp [hn, he])]
      obtain ⟨k, rfl⟩ := Int.not_even_iff_odd.1 he
      have e : cos (((-(2 * k + 1) : ℤ) : ℝ) * π) = -1 := by
        have := cos_int_mul_two_pi_add_pi (-k - 1)
        rw [← this]; congr 1; push_cast; ring
      rw [e]; ring

theorem trig_y (m : ℤ) (p : ℝ) : trigM m (-p) = (if 0 ≤ m then 1 else -1) * trigM m p := by
  by_cases h : 0 ≤ m
  · rw [trigM, trigM, if_pos h, if_pos h, if_pos h, mul_neg, cos_neg, one_mul]
  · rw [trigM, trigM, if_neg h, if_neg h, if_neg h, mul_neg, sin_neg]; ring

theorem trig_pi (m : ℤ) (p : ℝ) : trigM m (p + π) = (if Even m then 1 else -1) * trigM m p := by
  have h1 := trig_x m (-p)
  have h2 := trig_y m p
  rw [show π - -p = p + π by ring, h2] at h1
  rw [h1]
  by_cases h : 0 ≤ m
  · have hn : ¬ m < 0 := by omega
    by_cases he : Even m <;> simp [h, hn, he]
  · have hn : m < 0 := by omega
    by_cases he : Even m <;> simp [h, hn, he]

theorem scale_iff {W : ℝ → ℝ} {T : ℝ → ℝ} {f : ℝ → ℝ → ℝ} {t0 p0 : ℝ} {P : Prop} [Decidable P] (ht0 : 0 ≤ t0) (ht1 : t0 ≤ π)
    (hW : W t0 ≠ 0) (hT : T p0 = 1)
    (h : ∀ t p, 0 ≤ t → t ≤ π → f t p = (if P then 1 else -1) * (W t * T p)) :
    (∀ t p, 0 ≤ t → t ≤ π → f t p = W t * T p) ↔ P := by
  constructor
  · intro hf
    by_contra hP
    have a := hf t0 p0 ht0 ht1
    rw [h t0 p0 ht0 ht1, if_neg hP, hT] at a
    apply hW; linarith
  · intro hP t p h0 h1
    rw [h t p h0 h1, if_pos hP, one_mul]

/-- Which harmonics are invariant. -/
theorem harm_inv {l m : ℤ} (hm : |m| ≤ l) :
    (InvX (harm l m) ↔ (m < 0 ↔ ¬ Even m)) ∧ (InvY (harm l m) ↔ 0 ≤ m) ∧
    (InvZ (harm l m) ↔ Even (l + m)) ∧ (InvR (harm l m) ↔ Even l) := by
  have hl : m.natAbs ≤ l.toNat := by have := Int.abs_eq_natAbs m; omega
  obtain ⟨t0, a, b, hW⟩ := legW_nonzero hl
  obtain ⟨p0, hT⟩ := trig_one m
  have sgn : ((-1 : ℝ)) ^ (l.toNat - m.natAbs) = if Even (l + m) then 1 else -1 := by
    rw [neg_one_pow_ite]
    have : (l.toNat - m.natAbs) % 2 = 0 ↔ Even (l + m) := by have := Int.abs_eq_natAbs m; rw [Int.even_iff]; omega
    by_cases he : Even (l + m)
    · rw [if_pos he, if_pos (this.2 he)]
    · rw [if_neg he, if_neg (fun h => he (this.1 h))]
  refine ⟨?_, ?_, ?_, ?_⟩
  · exact scale_iff a b hW hT (fun t p _ _ => by rw [harm, trig_x]; ring)
  · exact scale_iff a b hW hT (fun t p _ _ => by rw [harm, trig_y]; ring)
  · exact scale_iff a b hW hT (fun t p h0 h1 => by rw [harm, legW_refl hl h0 h1, sgn]; ring)
  · refine scale_iff a b hW hT (fun t p h0 h1 => ?_)
    rw [harm, legW_refl hl h0 h1, sgn, trig_pi]
    have e := Int.even_add (m := l) (n := m)
    by_cases h1 : Even l <;> by_cases h2 : Even m <;> simp [h1, h2, e]

/-- The harmonics invariant under all reflections flagged in `s`. -/
def Invariant (s : Sym) (f : ℝ → ℝ → ℝ) : Prop :=
  (isX s = true → InvX f) ∧ (isY s = true → InvY f) ∧ (isZ s = true → InvZ f) ∧ (isRefl s = true → InvR f)

/-- C27: for every order and every set of flags accepted by the constructor, the documented loop visits (l,m) exactly
when |m| ≤ l ≤ lmax, |m| ≤ mmax and the harmonic is invariant under each flagged reflection, each pair once, and the
index is inside the coefficient array. -/
theorem C27_reflections {lmax mmax : ℤ} {s : Sym} {ind : Indices} (h : mkIndices lmax mmax s = .ok ind) :
    ind.visited.Nodup ∧ ∀ l m, ((l, m) ∈ ind.visited ↔
      |m| ≤ l ∧ l ≤ lmax ∧ |m| ≤ mmax ∧ Invariant s (harm l m)) ∧
      ((l, m) ∈ ind.visited → 0 ≤ index l m ∧ index l m < ind.size) := by
  refine ⟨nodup_visited ind, fun l m => ⟨?_, visited_in_array h⟩⟩
  rw [mem_visited h]
  constructor
  · rintro ⟨a, b, c, d⟩
    obtain ⟨i1, i2, i3, i4⟩ := harm_inv a
    exact ⟨a, b, c, fun x => i1.2 (d.1 x), fun x => i2.2 (d.2.1 x), fun x => i3.2 (d.2.2.1 x),
      fun x => i4.2 (d.2.2.2 x)⟩
  · rintro ⟨a, b, c, d⟩
    obtain ⟨i1, i2, i3, i4⟩ := harm_inv a
    exact ⟨a, b, c, fun x => i1.1 (d.1 x), fun x => i2.1 (d.2.1 x), fun x => i3.1 (d.2.2.1 x),
      fun x => i4.1 (d.2.2.2 x)⟩

/-- C27: the constructor accepts exactly the valid orders and known, consistent flag sets. -/
theorem C27_accepts (lmax mmax : ℤ) (s : Sym) : (∃ ind, mkIndices lmax mmax s = .ok ind) ↔
    0 ≤ mmax ∧ mmax ≤ lmax ∧ s ≤ 63 ∧ (isX s = true → isY s = true → isZ s = true → isRefl s = true) := by
  constructor
  · rintro ⟨ind, h⟩
    obtain ⟨a, b, c, d, -⟩ := mkIndices_ok h
    refine ⟨a, b, c, fun x y z => ?_⟩
    rw [x, y, z] at d
    simpa using d
  · rintro ⟨a, b, c, d⟩
    apply mkIndices_accepts a b c
    cases hx : isX s <;> cases hy : isY s <;> cases hz : isZ s <;> simp
    exact d hx hy hz

example : ∃ ind, mkIndices 6 4 15 = .ok ind := (C27_accepts 6 4 15).2 (by refine ⟨by norm_num, by norm_num, by norm_num, by decide⟩)

/-- The table in math_sphharm.h:92-107 says that the z-rotation flag leaves only m=0; the constructor does not enforce
it when mmax > 0: the harmonic (1,1) is visited though it is not invariant under rotations about the z axis. -/
theorem C27_refuted_zrotation : ∃ ind, mkIndices 1 1 16 = .ok ind ∧ (1, 1) ∈ ind.visited ∧ ¬ InvRot (harm 1 1) := by
  obtain ⟨ind, h⟩ := (C27_accepts 1 1 16).2 (by refine ⟨by norm_num, by norm_num, by norm_num, by decide⟩)
  refine ⟨ind, h, ?_, ?_⟩
  · rw [mem_visited h, Allowed]
    refine ⟨by norm_num, by norm_num, by norm_num, ?_⟩
    decide
  · intro hr
    obtain ⟨t0, a, b, hW⟩ := legW_nonzero (l := 1) (m := 1) le_rfl
    have := hr t0 0 π a b
    rw [harm, harm, trig_pi, if_neg (by decide)] at this
    have e : trigM 1 0 = 1 := by rw [trigM]; simp
    rw [e] at this
    apply hW
    have e1 : legW (Int.toNat 1) (Int.natAbs 1) t0 = legW 1 1 t0 := rfl
    rw [e1] at this
    linarith

/-! ### C49: azimuthal harmonics -/

/-- C49: `getIndicesAzimuthal` lists m exactly when |m| ≤ mmax and the azimuthal harmonic of order m is compatible with
every flag: with the x- and y-reflections, with the half-turn implied by z- and mirror reflection, and with rotation
about the z axis. Each m is listed once. -/
theorem C49_azimuthal {mmax : ℤ} {s : Sym} {a : List ℤ} (h : getIndicesAzimuthal mmax s = .ok a) :
    a.Nodup ∧ ∀ m, m ∈ a ↔ |m| ≤ mmax ∧
      (isX s = true → ∀ p, trigM m (π - p) = trigM m p) ∧
      (isY s = true → ∀ p, trigM m (-p) = trigM m p) ∧
      (isZ s = true → isRefl s = true → ∀ p, trigM m (p + π) = trigM m p) ∧
      (isZRot s = true → ∀ p q, trigM m (p + q) = trigM m p) := by
  have hX : ∀ m : ℤ, (∀ p, trigM m (π - p) = trigM m p) ↔ (m < 0 ↔ ¬ Even m) := by
    intro m
    obtain ⟨p0, hp⟩ := trig_one m
    constructor
    · intro hh
      by_contra hc
      have := hh p0
      rw [trig_x, if_neg hc, hp] at this
      norm_num at this
    · intro hh p; rw [trig_x, if_pos hh, one_mul]
  have hY : ∀ m : ℤ, (∀ p, trigM m (-p) = trigM m p) ↔ 0 ≤ m := by
    intro m
    obtain ⟨p0, hp⟩ := trig_one m
    constructor
    · intro hh
      by_contra hc
      have := hh p0
      rw [trig_y, if_neg hc, hp] at this
      norm_num at this
    · intro hh p; rw [trig_y, if_pos hh, one_mul]
  have hP : ∀ m : ℤ, (∀ p, trigM m (p + π) = trigM m p) ↔ Even m := by
    intro m
    obtain ⟨p0, hp⟩ := trig_one m
    constructor
    · intro hh
      by_contra hc
      have := hh p0
      rw [trig_pi, if_neg hc, hp] at this
      norm_num at this
    · intro hh p; rw [trig_pi, if_pos hh, one_mul]
  have hR : ∀ m : ℤ, (∀ p q, trigM m (p + q) = trigM m p) ↔ m = 0 := by
    intro m
    constructor
    · intro hh
      by_contra hc
      obtain ⟨p0, hp⟩ := trig_one m
      have hne : (m : ℝ) ≠ 0 := by exact_mod_cast hc
      have := hh p0 (π / |(m : ℝ)|)
      have hab : |(m : ℝ)| ≠ 0 := abs_ne_zero.2 hne
      have e : trigM m (p0 + π / |(m : ℝ)|) = - trigM m p0 := by
        by_cases h0 : 0 ≤ m
        · have : |(m : ℝ)| = m := abs_of_nonneg (by exact_mod_cast h0)
          rw [trigM, trigM, if_pos h0, if_pos h0, this, mul_add, mul_div_cancel₀ _ hne, cos_add_pi]
        · rw [trigM, trigM, if_neg h0, if_neg h0]
          push_cast
          rw [mul_add, mul_div_cancel₀ _ hab, sin_add_pi]
      rw [e, hp] at this
      norm_num at this
    · rintro rfl p q; simp [trigM]
  rw [getIndicesAzimuthal] at h
  by_cases hu : isUnknown s = true
  · rw [if_pos hu] at h; cases h
  rw [if_neg hu] at h
  by_cases hm : mmax < 0
  · rw [if_pos hm] at h; cases h
  rw [if_neg hm] at h
  push Not at hm
  simp only [hX, hY, hP, hR]
  by_cases hz : has s 16 = true
  · rw [if_pos hz] at h
    cases h
    refine ⟨by simp, fun m => ?_⟩
    rw [List.mem_singleton]
    constructor
    · rintro rfl; simpa using hm
    · rintro ⟨-, -, -, -, h⟩; exact h hz
  rw [if_neg hz] at h
  cases h
  have hz' : isZRot s = false := by rw [isZRot]; simpa using hz
  have key : ∀ k : ℤ, 0 < k → ∀ m : ℤ, (m ∈ (if isBi s && cOdd k then [] else
      (if (!isY s && !(isX s && !(Int.tmod k 2 == 1))) = true then [-k] else []) ++
      (if (!(isX s && Int.tmod k 2 == 1)) = true then [k] else [])) ↔
      |m| = k ∧ (isX s = true → (m < 0 ↔ ¬ Even m)) ∧ (isY s = true → 0 ≤ m) ∧
      (isZ s = true → isRefl s = true → Even m)) := by
    intro k hk m
    have t := tmod_one_iff hk.le
    have o := cOdd_iff k
    rw [isBi_eq]
    by_cases hab : |m| = k
    · have f1 : ¬ k < 0 := by omega
      have f2 : 0 ≤ k := hk.le
      have f3 : k ≠ -k := by omega
      have f4 : -k ≠ k := by omega
      have f5 : -k < 0 := by omega
      have f6 : ¬ 0 ≤ -k := by omega
      have f7 : |k| = k := abs_of_pos hk
      have f8 : |-k| = k := by rw [abs_neg, f7]
      have hmk : m = k ∨ m = -k := by rcases abs_choice m with hc | hc <;> omega
      by_cases hev : Even k
      · have t' : (Int.tmod k 2 == 1) = false := by rw [← Bool.not_eq_true]; exact fun h => t.1 h hev
        have o' : cOdd k = false := by rw [← Bool.not_eq_true]; exact fun h => o.1 h hev
        rw [t', o']
        rcases hmk with rfl | rfl <;>
        cases hx : isX s <;> cases hy : isY s <;> cases hzz : isZ s <;> cases hr : isRefl s <;>
            simp only [hev, f1, f2, f3, f4, f5, f6, f7, f8, even_neg, Bool.and_false, Bool.and_true, Bool.not_true,
              Bool.not_false, Bool.true_and, Bool.false_and, if_true, if_false, List.mem_append, List.mem_singleton,
              List.not_mem_nil, Bool.false_eq_true, true_and, and_true, or_true, or_false, false_or, true_or,
              not_true, not_false_iff, iff_true, iff_false, false_and, and_false, imp_true_iff, false_imp_iff, true_imp_iff, true_iff, false_iff]
      · have t' : (Int.tmod k 2 == 1) = true := t.2 hev
        have o' : cOdd k = true := o.2 hev
        rw [t', o']
        rcases hmk with rfl | rfl <;>
        cases hx : isX s <;> cases hy : isY s <;> cases hzz : isZ s <;> cases hr : isRefl s <;>
            simp only [hev, f1, f2, f3, f4, f5, f6, f7, f8, even_neg, Bool.and_false, Bool.and_true, Bool.not_true,
              Bool.not_false, Bool.true_and, Bool.false_and, if_true, if_false, List.mem_append, List.mem_singleton,
              List.not_mem_nil, Bool.false_eq_true, true_and, and_true, or_true, or_false, false_or, true_or,
              not_true, not_false_iff, iff_true, iff_false, false_and, and_false, imp_true_iff, false_imp_iff, true_imp_iff, true_iff, false_iff]
    · simp only [hab, false_and, iff_false]
      have n1 : m ≠ k := by rintro rfl; exact hab (abs_of_pos hk)
      have n2 : m ≠ -k := by rintro rfl; exact hab (by rw [abs_neg, abs_of_pos hk])
      intro hmem
      by_cases hb : (isZ s && isRefl s && cOdd k) = true
      · rw [if_pos hb] at hmem; simp at hmem
      rw [if_neg hb, List.mem_append] at hmem
      rcases hmem with hmem | hmem
      · by_cases hb : (!isY s && !(isX s && !(Int.tmod k 2 == 1))) = true
        · rw [if_pos hb, List.mem_singleton] at hmem; exact n2 hmem
        · rw [if_neg hb] at hmem; simp at hmem
      · by_cases hb : (!(isX s && Int.tmod k 2 == 1)) = true
        · rw [if_pos hb, List.mem_singleton] at hmem; exact n1 hmem
        · rw [if_neg hb] at hmem; simp at hmem
  constructor
  · rw [List.nodup_cons]
    constructor
    · rw [List.mem_flatMap]
      rintro ⟨k, hk, h0⟩
      rw [mem_forLoop 1 (by norm_num)] at hk
      have := ((key k (by omega) 0).1 h0).1
      simp at this; omega
    · rw [List.nodup_flatMap]
      constructor
      · intro k hk
        rw [mem_forLoop 1 (by norm_num)] at hk
        by_cases hb : (isBi s && cOdd k) = true
        · rw [if_pos hb]; simp
        rw [if_neg hb]
        by_cases h1 : (!isY s && !(isX s && !(Int.tmod k 2 == 1))) = true <;>
        by_cases h2 : (!(isX s && Int.tmod k 2 == 1)) = true <;>
          simp only [h1, h2, if_true, if_false, List.nil_append, List.append_nil, List.nodup_nil,
            List.nodup_singleton, Bool.false_eq_true]
        simp; omega
      · apply List.Pairwise.imp_of_mem _ (nodup_forLoop 1 1 mmax)
        intro x y hx hy hxy m hmx hmy
        rw [mem_forLoop 1 (by norm_num)] at hx hy
        have e1 := ((key x (by omega) m).1 hmx).1
        have e2 := ((key y (by omega) m).1 hmy).1
        omega
  · intro m
    rw [List.mem_cons, List.mem_flatMap]
    constructor
    · rintro (rfl | ⟨k, hk, hmk⟩)
      · simpa using hm
      · rw [mem_forLoop 1 (by norm_num)] at hk
        obtain ⟨a, b, c, d⟩ := (key k (by omega) m).1 hmk
        exact ⟨by omega, b, c, d, by rw [hz']; simp⟩
    · rintro ⟨a, b, c, d, -⟩
      by_cases h0 : m = 0
      · exact Or.inl h0
      · right
        have hp : 0 < |m| := abs_pos.2 h0
        refine ⟨|m|, ?_, (key |m| hp m).2 ⟨rfl, b, c, d⟩⟩
        rw [mem_forLoop 1 (by norm_num)]
        exact ⟨by omega, a, by simp⟩

/-- C49: acceptance. -/
theorem C49_accepts (mmax : ℤ) (s : Sym) : (∃ a, getIndicesAzimuthal mmax s = .ok a) ↔ s ≤ 63 ∧ 0 ≤ mmax := by
  rw [getIndicesAzimuthal]
  by_cases hu : isUnknown s = true
  · rw [if_pos hu]
    rw [isUnknown, decide_eq_true_eq] at hu
    constructor
    · rintro ⟨a, h⟩; cases h
    · rintro ⟨h, -⟩; exact absurd h (Nat.not_le_of_lt hu)
  rw [if_neg hu]
  rw [isUnknown, decide_eq_true_eq] at hu
  by_cases hm : mmax < 0
  · rw [if_pos hm]
    constructor
    · rintro ⟨a, h⟩; cases h
    · rintro ⟨-, h⟩; omega
  rw [if_neg hm]
  constructor
  · intro _; exact ⟨Nat.le_of_not_lt hu, by omega⟩
  · intro _
    by_cases hz : has s 16 = true
    · rw [if_pos hz]; exact ⟨_, rfl⟩
    · rw [if_neg hz]; exact ⟨_, rfl⟩

example : ∃ a, getIndicesAzimuthal 4 12 = .ok a := (C49_accepts 4 12).2 ⟨by norm_num, by norm_num⟩

end Verif.SphHarm
