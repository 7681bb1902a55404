import Verif.Core.Hermite
import Mathlib.Analysis.Calculus.Deriv.MeanValue
import Mathlib.Topology.Order.IntermediateValue
import Mathlib.Analysis.Real.Sqrt

/-! Model of the root finder `findRoot` (/repo/src/math_core.cpp:809-988) in exact real arithmetic, and C16.
Function values and derivatives are `Option ℝ`: `none` stands for a value that is not finite. -/
namespace Verif.FindRoot
open Verif.Core

/-- math_core.cpp:815-836, `hermiteInterpMonotone`, for finite arguments (`none` = NaN). `ai` is infinite if
its denominator is zero, and then `ba` or `D` is not finite and the result is NaN. -/
noncomputable def hermiteInterpMonotone (x x1 x2 f1 f2 d1 d2 : ℝ) : Option ℝ :=
  if (d1 ≥ 0 ∧ d2 < 0) ∨ (d2 ≥ 0 ∧ d1 < 0) then none else
  let dx := x2 - x1
  let den := -6 * (f2 - f1) / dx + 3 * (d1 + d2)
  if den = 0 then none else
  let ai := 1 / den
  let ba := -1 + (d2 - d1) * ai
  let ca := d1 * ai
  let D := ba ^ 2 - 4 * ca
  if D ≥ 0 ∧ ((let t1 := 1/2 * (-ba - Real.sqrt D); t1 ≥ 0 ∧ t1 ≤ 1) ∨
              (let t2 := 1/2 * (-ba + Real.sqrt D); t2 ≥ 0 ∧ t2 ≤ 1)) then none else
  some (hermiteInterp x x1 x2 f1 f2 d1 d2)

/-- The local variables of `findRoot` (math_core.cpp:849-872). -/
structure St where
  (a b c fa fb fc d e : ℝ)
  (da db dc : Option ℝ)

/-- Result: NaN, or a point and whether the warning "max # of iterations exceeded" was issued;
`threw` is the exception std::invalid_argument, `unfinished` means that the fuel of the model ran out
(proved impossible). -/
inductive Res where
  | threw
  | nan
  | root (x : ℝ) (warned : Bool)
  | unfinished

/-- math_core.cpp:874-884 and 953-963: the exchange of `b` and `c` so that |f(b)| ≤ |f(c)|. -/
noncomputable def swapBC (s : St) : St :=
  if |s.fc| < |s.fb| then
    { s with a := s.b, b := s.c, c := s.b, fa := s.fb, fb := s.fc, fc := s.fb, da := s.db, db := s.dc, dc := s.db }
  else s

/-- math_core.cpp:889: `tol`; `eps` is DBL_EPSILON. -/
noncomputable def tol (eps : ℝ) (s : St) : ℝ := 1/2 * eps * |s.b|

/-- math_core.cpp:890: `m`. -/
noncomputable def half (s : St) : ℝ := 1/2 * (s.c - s.b)

/-- math_core.cpp:908-930, the step of Brent's method; returns the new `(d, e)`. -/
noncomputable def brent (eps : ℝ) (s : St) : ℝ × ℝ :=
  let m := half s
  let s0 := s.fb / s.fa
  let pq : ℝ × ℝ :=
    if s.a = s.c then (2 * m * s0, 1 - s0)
    else
      let q := s.fa / s.fc
      let r := s.fb / s.fc
      (s0 * (2 * m * q * (q - r) - (s.b - s.a) * (r - 1)), (q - 1) * (r - 1) * (s0 - 1))
  let p := if pq.1 > 0 then pq.1 else -pq.1
  let q := if pq.1 > 0 then -pq.2 else pq.2
  if 2 * p < min (3 * m * q - |tol eps s * q|) |s.e * q| then (p / q, s.d) else (m, m)

/-- math_core.cpp:898-907: the attempt of Hermite interpolation; `none` if it is not made or not accepted.
1e-12 is DELTA_HERMITE. -/
noncomputable def hermiteStep (haveDerivs : Bool) (s : St) : Option ℝ :=
  match haveDerivs, s.db, s.dc with
  | true, some gb, some gc =>
    if gb * gc > 0 then
      match hermiteInterpMonotone 0 s.fb s.fc 0 (s.c - s.b) (1 / gb) (1 / gc) with
      | some dd => if min |dd| |s.c - s.b - dd| > |s.c - s.b| * (1 / 10^12) then some dd else none
      | none => none
    else none
  | _, _, _ => none

/-- math_core.cpp:893-931: the choice of the new `(d, e)`. -/
noncomputable def chooseStep (eps : ℝ) (haveDerivs : Bool) (s : St) : ℝ × ℝ :=
  if |s.e| < tol eps s ∨ |s.fa| ≤ |s.fb| then (half s, half s)
  else match hermiteStep haveDerivs s with
    | some dd => (dd, s.e)
    | none => brent eps s

/-- math_core.cpp:936-939: the new `b`. -/
noncomputable def newB (eps : ℝ) (s : St) (d : ℝ) : ℝ :=
  if |d| > tol eps s then s.b + d else s.b + (if half s > 0 then tol eps s else -tol eps s)

/-- math_core.cpp:933-963: the state after the function was evaluated at the new `b`. -/
noncomputable def update (s : St) (d e b' fb' : ℝ) (db' : Option ℝ) : St :=
  let s1 : St := { s with a := s.b, fa := s.fb, da := s.db, b := b', fb := fb', db := db', d := d, e := e }
  swapBC (if (s1.fb < 0 ∧ s1.fc < 0) ∨ (s1.fb > 0 ∧ s1.fc > 0) then
      { s1 with c := s1.a, fc := s1.fa, dc := s1.da, d := s1.b - s1.a, e := s1.b - s1.a }
    else s1)

/-- math_core.cpp:967-970 and 973: is the offset from `b` strictly towards `c` and short of it. -/
def bracketed (s : St) (offset : ℝ) : Prop := (offset > 0 ∧ offset < s.c - s.b) ∨ (offset < 0 ∧ offset > s.c - s.b)

open Classical in
/-- math_core.cpp:966-978: `some x` if converged, with the final secant or Newton step. A zero derivative makes
the Newton offset infinite (or NaN), hence not bracketed. -/
noncomputable def finish (abstoler : ℝ) (haveDerivs : Bool) (s : St) : Option ℝ :=
  if |s.b - s.c| ≤ abstoler then
    let offset := s.fb * (s.b - s.c) / (s.fc - s.fb)
    if bracketed s offset then some (s.b + offset) else some s.b
  else match haveDerivs, s.db with
    | true, some g =>
      if g ≠ 0 ∧ bracketed s (-s.fb / g) ∧ |(-s.fb / g)| < abstoler then some (s.b + -s.fb / g) else none
    | _, _ => none

/-- math_core.cpp:888-986: the loop; `numIter` as in the code, MAXITER = 64 (math_core.cpp:33). -/
noncomputable def loop (F : ℝ → Option ℝ) (der : ℝ → Option ℝ) (haveDerivs : Bool) (eps abstoler : ℝ) :
    Nat → Nat → St → Res
  | 0, _, _ => .unfinished
  | fuel+1, numIter, s =>
    if s.fb = 0 ∨ |half s| ≤ tol eps s then .root s.b false else
    let de := chooseStep eps haveDerivs s
    let b' := newB eps s de.1
    match F b' with
    | none => .nan
    | some fb' =>
      let s' := update s de.1 de.2 b' fb' (der b')
      let r := finish abstoler haveDerivs s'
      if numIter + 1 ≥ 64 then .root (r.getD s'.b) true
      else match r with
        | some x => .root x false
        | none => loop F der haveDerivs eps abstoler fuel (numIter + 1) s'

/-- math_core.cpp:844-988: `findRoot`; `dF = none` if the function object provides no derivatives. -/
noncomputable def findRoot (eps : ℝ) (F : ℝ → Option ℝ) (dF : Option (ℝ → Option ℝ)) (xlower xupper reltoler : ℝ) : Res :=
  if reltoler ≤ 0 then .threw else
  let der : ℝ → Option ℝ := fun x => dF.bind (· x)
  match F xlower, F xupper with
  | some fa, some fb =>
    if (fa < 0 ∧ fb < 0) ∨ (fa > 0 ∧ fb > 0) then .nan
    else if fa = 0 then (if fb = 0 then .root (1/2 * (xlower + xupper)) false else .root xlower false)
    else if fb = 0 then .root xupper false
    else
      let s : St := { a := xlower, b := xupper, c := xlower, fa := fa, fb := fb, fc := fa,
                      d := xupper - xlower, e := xupper - xlower,
                      da := der xlower, db := der xupper, dc := der xlower }
      loop F der dF.isSome eps (|xlower - xupper| * reltoler) 64 0 (swapBC s)
  | _, _ => .nan

/-- `x` lies between `u` and `v` (in either order). -/
def Between (x u v : ℝ) : Prop := (u ≤ x ∧ x ≤ v) ∨ (v ≤ x ∧ x ≤ u)

theorem between_of_t (b c t : ℝ) (h0 : 0 ≤ t) (h1 : t ≤ 1) : Between (b + t * (c - b)) b c := by
  rcases le_total b c with h | h
  · left; constructor <;> nlinarith
  · right; constructor <;> nlinarith

theorem between_bounds {x u v lo hi : ℝ} (h : Between x u v) (hu : lo ≤ u ∧ u ≤ hi) (hv : lo ≤ v ∧ v ≤ hi) :
    lo ≤ x ∧ x ≤ hi := by
  rcases h with h | h <;> constructor <;> linarith [hu.1, hu.2, hv.1, hv.2, h.1, h.2]

/-- A quadratic `den*(t^2 + ba t + ca)` without roots in [0,1] has constant sign there. -/
theorem quad_sign (ba ca : ℝ)
    (h : ¬(ba ^ 2 - 4 * ca ≥ 0 ∧ ((1/2 * (-ba - Real.sqrt (ba ^ 2 - 4 * ca)) ≥ 0 ∧ 1/2 * (-ba - Real.sqrt (ba ^ 2 - 4 * ca)) ≤ 1) ∨
      (1/2 * (-ba + Real.sqrt (ba ^ 2 - 4 * ca)) ≥ 0 ∧ 1/2 * (-ba + Real.sqrt (ba ^ 2 - 4 * ca)) ≤ 1)))) :
    (∀ t, 0 ≤ t → t ≤ 1 → 0 ≤ t ^ 2 + ba * t + ca) ∨ (∀ t, 0 ≤ t → t ≤ 1 → t ^ 2 + ba * t + ca ≤ 0) := by
  by_cases hD : ba ^ 2 - 4 * ca ≥ 0
  · have h' : ¬((1/2 * (-ba - Real.sqrt (ba ^ 2 - 4 * ca)) ≥ 0 ∧ 1/2 * (-ba - Real.sqrt (ba ^ 2 - 4 * ca)) ≤ 1) ∨
      (1/2 * (-ba + Real.sqrt (ba ^ 2 - 4 * ca)) ≥ 0 ∧ 1/2 * (-ba + Real.sqrt (ba ^ 2 - 4 * ca)) ≤ 1)) := fun k => h ⟨hD, k⟩
    have hs := Real.sq_sqrt hD
    have hs0 := Real.sqrt_nonneg (ba ^ 2 - 4 * ca)
    set w := Real.sqrt (ba ^ 2 - 4 * ca)
    set t1 := 1/2 * (-ba - w) with ht1
    set t2 := 1/2 * (-ba + w) with ht2
    have hf : ∀ t, t ^ 2 + ba * t + ca = (t - t1) * (t - t2) := by
      intro t; rw [ht1, ht2]; linear_combination (1/4) * hs
    have h12 : t1 ≤ t2 := by rw [ht1, ht2]; linarith
    rw [not_or] at h'
    obtain ⟨n1, n2⟩ := h'
    have c1 : t1 < 0 ∨ 1 < t1 := by
      by_contra k; push Not at k; exact n1 ⟨k.1, k.2⟩
    have c2 : t2 < 0 ∨ 1 < t2 := by
      by_contra k; push Not at k; exact n2 ⟨k.1, k.2⟩
    rcases c1 with c1 | c1 <;> rcases c2 with c2 | c2
    · left; intro t a b; rw [hf]; exact mul_nonneg (by linarith) (by linarith)
    · right; intro t a b; rw [hf]; exact mul_nonpos_of_nonneg_of_nonpos (by linarith) (by linarith)
    · exfalso; linarith
    · left; intro t a b; rw [hf]; exact mul_nonneg_of_nonpos_of_nonpos (by linarith) (by linarith)
  · left
    intro t _ _
    push Not at hD
    nlinarith [sq_nonneg (2 * t + ba)]

/-- If `hermiteInterpMonotone` accepts, the interpolated value lies between the two end values. -/
theorem hermite_between (x1 x2 L d1 d2 dd : ℝ) (hx : x1 < 0 ∧ 0 < x2 ∨ x2 < 0 ∧ 0 < x1)
    (h : hermiteInterpMonotone 0 x1 x2 0 L d1 d2 = some dd) : ∃ t, 0 ≤ t ∧ t ≤ 1 ∧ dd = t * L := by
  unfold hermiteInterpMonotone at h
  by_cases hs : (d1 ≥ 0 ∧ d2 < 0) ∨ (d2 ≥ 0 ∧ d1 < 0)
  · rw [if_pos hs] at h; cases h
  rw [if_neg hs] at h
  simp only at h
  by_cases hden : -6 * (L - 0) / (x2 - x1) + 3 * (d1 + d2) = 0
  · rw [if_pos hden] at h; cases h
  rw [if_neg hden] at h
  have hdx : x2 - x1 ≠ 0 := by rcases hx with hx | hx <;> intro k <;> linarith [hx.1, hx.2]
  have hL : L = (x2 - x1) * ((3 * (d1 + d2) - (-6 * (L - 0) / (x2 - x1) + 3 * (d1 + d2))) / 6) := by
    field_simp; ring
  generalize -6 * (L - 0) / (x2 - x1) + 3 * (d1 + d2) = den at *
  split at h
  · cases h
  · rename_i hn
    have hq := quad_sign _ _ hn
    have hdd : hermiteInterp 0 x1 x2 0 L d1 d2 = dd := by injection h
    set ba := -1 + (d2 - d1) * (1 / den) with hba
    set ca := d1 * (1 / den) with hca
    have hd1 : d1 = den * ca := by rw [hca]; field_simp
    have hd2 : d2 = den * (1 + ba + ca) := by rw [hba, hca]; field_simp; ring
    -- cubic P(t) = t^3/3 + ba t^2/2 + ca t, L = dx * den * P(1), dd = dx * den * P(t0)
    let P : ℝ → ℝ := fun t => t ^ 3 / 3 + ba * t ^ 2 / 2 + ca * t
    have hP : ∀ t, HasDerivAt P (t ^ 2 + ba * t + ca) t := by
      intro t
      have h1 : HasDerivAt (fun t : ℝ => t ^ 3 / 3) (t ^ 2) t :=
        ((hasDerivAt_pow 3 t).div_const 3).congr_deriv (by push_cast; ring)
      have h2 : HasDerivAt (fun t : ℝ => ba * t ^ 2 / 2) (ba * t) t :=
        (((hasDerivAt_pow 2 t).const_mul ba).div_const 2).congr_deriv (by push_cast; ring)
      have h3 : HasDerivAt (fun t : ℝ => ca * t) ca t := by
        simpa using (hasDerivAt_id t).const_mul ca
      exact (h1.add h2).add h3
    have hLP : L = (x2 - x1) * den * P 1 := by
      rw [hL, hd1, hd2]; simp only [P]; ring
    set t0 := (0 - x1) / (x2 - x1) with ht0
    have ht01 : 0 ≤ t0 ∧ t0 ≤ 1 := by
      rcases hx with hx | hx
      · have : 0 < x2 - x1 := by linarith [hx.1, hx.2]
        exact ⟨div_nonneg (by linarith [hx.1]) this.le, by rw [ht0, div_le_one this]; linarith [hx.2]⟩
      · have : x2 - x1 < 0 := by linarith [hx.1, hx.2]
        exact ⟨div_nonneg_of_nonpos (by linarith [hx.2]) this.le, by
          rw [ht0, div_le_one_of_neg this]; linarith [hx.1]⟩
    have hddP : dd = (x2 - x1) * den * P t0 := by
      rw [← hdd]
      simp only [hermiteInterp]
      rw [← ht0]
      rw [hLP, hd1, hd2]
      simp only [P]
      ring
    have hP0 : P 0 = 0 := by simp [P]
    have hcont : ContinuousOn P (Set.Icc 0 1) := fun t _ => (hP t).continuousAt.continuousWithinAt
    have hmono : (0 ≤ P t0 ∧ P t0 ≤ P 1) ∨ (P t0 ≤ 0 ∧ P 1 ≤ P t0) := by
      rcases hq with hq | hq
      · left
        have hm : MonotoneOn P (Set.Icc 0 1) := by
          apply monotoneOn_of_deriv_nonneg (convex_Icc 0 1) hcont
          · exact fun t _ => (hP t).differentiableAt.differentiableWithinAt
          · intro t ht
            rw [interior_Icc] at ht
            rw [(hP t).deriv]; exact hq t ht.1.le ht.2.le
        refine ⟨?_, hm ⟨ht01.1, ht01.2⟩ ⟨zero_le_one, le_refl _⟩ ht01.2⟩
        rw [← hP0]; exact hm ⟨le_refl _, zero_le_one⟩ ⟨ht01.1, ht01.2⟩ ht01.1
      · right
        have hm : AntitoneOn P (Set.Icc 0 1) := by
          apply antitoneOn_of_deriv_nonpos (convex_Icc 0 1) hcont
          · exact fun t _ => (hP t).differentiableAt.differentiableWithinAt
          · intro t ht
            rw [interior_Icc] at ht
            rw [(hP t).deriv]; exact hq t ht.1.le ht.2.le
        refine ⟨?_, hm ⟨ht01.1, ht01.2⟩ ⟨zero_le_one, le_refl _⟩ ht01.2⟩
        rw [← hP0]; exact hm ⟨le_refl _, zero_le_one⟩ ⟨ht01.1, ht01.2⟩ ht01.1
    rcases eq_or_ne (P 1) 0 with hp | hp
    · have : P t0 = 0 := by rcases hmono with h | h <;> linarith [h.1, h.2]
      exact ⟨0, le_refl _, zero_le_one, by rw [hddP, this]; ring⟩
    · refine ⟨P t0 / P 1, ?_, ?_, ?_⟩
      · rcases hmono with h | h
        · exact div_nonneg h.1 (h.1.trans h.2)
        · exact div_nonneg_of_nonpos h.1 (h.2.trans h.1)
      · rcases hmono with h | h
        · have : 0 < P 1 := lt_of_le_of_ne (h.1.trans h.2) (Ne.symm hp)
          rw [div_le_one this]; exact h.2
        · have : P 1 < 0 := lt_of_le_of_ne (h.2.trans h.1) hp
          rw [div_le_one_of_neg this]; exact h.2
      · rw [hddP, hLP]; field_simp

theorem brent_between (eps : ℝ) (s : St) :
    ∃ t, 0 ≤ t ∧ t ≤ 1 ∧ (brent eps s).1 = t * (s.c - s.b) := by
  unfold brent
  simp only
  generalize (if s.a = s.c then (2 * half s * (s.fb / s.fa), 1 - s.fb / s.fa) else _ : ℝ × ℝ) = pq
  have hp : 0 ≤ (if pq.1 > 0 then pq.1 else -pq.1) := by
    by_cases h : pq.1 > 0
    · rw [if_pos h]; exact h.le
    · rw [if_neg h]; linarith [not_lt.1 h]
  generalize (if pq.1 > 0 then pq.1 else -pq.1) = p at *
  generalize (if pq.1 > 0 then -pq.2 else pq.2) = q
  split
  · rename_i h
    have h1 := lt_of_lt_of_le h (min_le_left _ _)
    have h2 : 2 * p < 3 * half s * q := by linarith [abs_nonneg (tol eps s * q)]
    simp only [half] at h2
    have hq : q ≠ 0 := by rintro rfl; linarith
    have hL : s.c - s.b ≠ 0 := by intro k; rw [k] at h2; linarith
    have hpos : 0 < (s.c - s.b) * q := by nlinarith
    refine ⟨p / ((s.c - s.b) * q), by positivity, ?_, by field_simp⟩
    rw [div_le_one hpos]; linarith
  · exact ⟨1/2, by norm_num, by norm_num, by simp [half]⟩

theorem hermiteStep_between (hd : Bool) (s : St) (dd : ℝ) (hsg : s.fb * s.fc < 0)
    (h : hermiteStep hd s = some dd) : ∃ t, 0 ≤ t ∧ t ≤ 1 ∧ dd = t * (s.c - s.b) := by
  unfold hermiteStep at h
  split at h
  · split at h
    · split at h
      · rename_i dd' hm
        split at h
        · injection h with h
          subst h
          apply hermite_between s.fb s.fc _ _ _ _ _ hm
          rcases mul_neg_iff.1 hsg with k | k
          · right; exact ⟨k.2, k.1⟩
          · left; exact ⟨k.1, k.2⟩
        · cases h
      · cases h
    · cases h
  · cases h

theorem chooseStep_between (eps : ℝ) (hd : Bool) (s : St) (hsg : s.fb * s.fc < 0) :
    ∃ t, 0 ≤ t ∧ t ≤ 1 ∧ (chooseStep eps hd s).1 = t * (s.c - s.b) := by
  unfold chooseStep
  split
  · exact ⟨1/2, by norm_num, by norm_num, by simp [half]⟩
  · split
    · rename_i dd hdd
      exact hermiteStep_between hd s dd hsg hdd
    · exact brent_between eps s

/-- Every new point lies between the two current bracketing points. -/
theorem newB_between (eps : ℝ) (he : 0 ≤ eps) (hd : Bool) (s : St) (hsg : s.fb * s.fc < 0)
    (hm : ¬|half s| ≤ tol eps s) : Between (newB eps s (chooseStep eps hd s).1) s.b s.c := by
  have ht0 : 0 ≤ tol eps s := by unfold tol; positivity
  obtain ⟨t, h0, h1, h⟩ := chooseStep_between eps hd s hsg
  unfold newB
  split
  · rw [h]; exact between_of_t _ _ _ h0 h1
  · push Not at hm
    generalize tol eps s = u at *
    by_cases k : half s > 0
    · rw [if_pos k]
      rw [abs_of_pos k] at hm
      simp only [half] at *
      left; constructor <;> linarith
    · rw [if_neg k]
      rw [abs_of_nonpos (not_lt.1 k)] at hm
      simp only [half] at *
      right; constructor <;> linarith

/-- Loop invariant: `b` and `c` stay in the interval, hold the function values, and bracket a root. -/
structure Inv (F der : ℝ → Option ℝ) (lo hi : ℝ) (s : St) : Prop where
  hb : lo ≤ s.b ∧ s.b ≤ hi
  hc : lo ≤ s.c ∧ s.c ≤ hi
  fb : F s.b = some s.fb
  fc : F s.c = some s.fc
  db : s.db = der s.b
  dc : s.dc = der s.c
  br : s.fb * s.fc ≤ 0
  ne : s.fc ≠ 0

theorem inv_swap {F der : ℝ → Option ℝ} {lo hi : ℝ} {s : St} (h : Inv F der lo hi s) : Inv F der lo hi (swapBC s) := by
  unfold swapBC
  split
  · rename_i k
    refine ⟨h.hc, h.hb, h.fc, h.fb, h.dc, h.db, by simpa [mul_comm] using h.br, ?_⟩
    intro h0
    simp only at h0
    rw [h0, abs_zero] at k
    exact absurd k (not_lt.2 (abs_nonneg _))
  · exact h

theorem inv_update {F der : ℝ → Option ℝ} {lo hi : ℝ} {s : St} (h : Inv F der lo hi s) (hb0 : s.fb ≠ 0)
    (d e b' fb' : ℝ) (hb' : lo ≤ b' ∧ b' ≤ hi) (hf : F b' = some fb') : Inv F der lo hi (update s d e b' fb' (der b')) := by
  unfold update
  apply inv_swap
  simp only
  have hn : s.fb * s.fc < 0 := lt_of_le_of_ne h.br (mul_ne_zero hb0 h.ne)
  split
  · rename_i k
    refine ⟨hb', h.hb, hf, h.fb, rfl, h.db, ?_, hb0⟩
    simp only
    rcases k with k | k <;> rcases mul_neg_iff.1 hn with k' | k'
    · exact mul_nonpos_of_nonpos_of_nonneg k.1.le k'.1.le
    · exact absurd k'.2 (not_lt.2 k.2.le)
    · exact absurd k'.2 (not_lt.2 k.2.le)
    · exact mul_nonpos_of_nonneg_of_nonpos k.1.le k'.1.le
  · rename_i k
    refine ⟨hb', h.hc, hf, h.fc, rfl, h.dc, ?_, h.ne⟩
    simp only
    rw [not_or] at k
    by_contra hpos
    push Not at hpos
    rcases mul_pos_iff.1 hpos with p | p
    · exact k.2 ⟨p.1, p.2⟩
    · exact k.1 ⟨p.1, p.2⟩

theorem finish_between {abstoler : ℝ} {hd : Bool} {s : St} {x : ℝ} (h : finish abstoler hd s = some x) :
    Between x s.b s.c ∧ (hd = false → |s.b - s.c| ≤ abstoler) := by
  have hb : ∀ o, bracketed s o → Between (s.b + o) s.b s.c := by
    intro o ho
    rcases ho with ho | ho
    · left; constructor <;> linarith [ho.1, ho.2]
    · right; constructor <;> linarith [ho.1, ho.2]
  have hself : Between s.b s.b s.c := by
    rcases le_total s.b s.c with h | h
    · left; exact ⟨le_refl _, h⟩
    · right; exact ⟨h, le_refl _⟩
  unfold finish at h
  split at h
  · rename_i ht
    simp only at h
    split at h
    · rename_i k; injection h with h; rw [← h]; exact ⟨hb _ k, fun _ => ht⟩
    · injection h with h; rw [← h]; exact ⟨hself, fun _ => ht⟩
  · split at h
    · split at h
      · rename_i k; injection h with h; rw [← h]; exact ⟨hb _ k.2.1, fun q => by cases q⟩
      · cases h
    · cases h

/-- What is established about the result of the loop. `u`, `v` are two points of the interval at which the
function has opposite signs (or vanishes). -/
def Good (F : ℝ → Option ℝ) (hd : Bool) (eps abstoler lo hi : ℝ) : Res → Prop
  | .threw => False
  | .nan => ∃ x, lo ≤ x ∧ x ≤ hi ∧ F x = none
  | .root x w => ∃ u v fu fv, (lo ≤ u ∧ u ≤ hi) ∧ (lo ≤ v ∧ v ≤ hi) ∧ F u = some fu ∧ F v = some fv ∧ fu * fv ≤ 0 ∧
      Between x u v ∧ (w = false → hd = false → |u - v| ≤ max abstoler (eps * |x|))
  | .unfinished => False

theorem loop_good (F der : ℝ → Option ℝ) (hd : Bool) (eps abstoler lo hi : ℝ) (he : 0 ≤ eps) :
    ∀ (fuel numIter : Nat) (s : St), Inv F der lo hi s → 64 ≤ fuel + numIter → 1 ≤ fuel →
      Good F hd eps abstoler lo hi (loop F der hd eps abstoler fuel numIter s) := by
  intro fuel
  induction fuel with
  | zero => intro n s _ _ h; omega
  | succ fuel ih =>
    intro n s hI hn _
    rw [loop]
    by_cases h0 : s.fb = 0 ∨ |half s| ≤ tol eps s
    · rw [if_pos h0]
      rcases h0 with h0 | h0
      · refine ⟨s.b, s.b, _, _, hI.hb, hI.hb, hI.fb, hI.fb, by rw [h0]; simp, Or.inl ⟨le_refl _, le_refl _⟩, ?_⟩
        intro _ _
        rw [sub_self, abs_zero]
        exact le_max_of_le_right (by positivity)
      · refine ⟨s.b, s.c, _, _, hI.hb, hI.hc, hI.fb, hI.fc, hI.br, ?_, ?_⟩
        · rcases le_total s.b s.c with h | h
          · left; exact ⟨le_refl _, h⟩
          · right; exact ⟨h, le_refl _⟩
        · intro _ _
          apply le_max_of_le_right
          simp only [half, tol, abs_mul] at h0
          rw [abs_sub_comm]
          norm_num at h0
          linarith
    · rw [if_neg h0]
      rw [not_or] at h0
      have hneg : s.fb * s.fc < 0 := lt_of_le_of_ne hI.br (mul_ne_zero h0.1 hI.ne)
      have hnb := between_bounds (newB_between eps he hd s hneg h0.2) hI.hb hI.hc
      simp only
      generalize newB eps s (chooseStep eps hd s).1 = b' at *
      cases hF : F b' with
      | none => exact ⟨b', hnb.1, hnb.2, hF⟩
      | some fb' =>
        simp only
        have hI' := inv_update hI h0.1 (chooseStep eps hd s).1 (chooseStep eps hd s).2 b' fb' hnb hF
        generalize update s (chooseStep eps hd s).1 (chooseStep eps hd s).2 b' fb' (der b') = s' at *
        have hself : Between s'.b s'.b s'.c := by
          rcases le_total s'.b s'.c with h | h
          · left; exact ⟨le_refl _, h⟩
          · right; exact ⟨h, le_refl _⟩
        split
        · refine ⟨s'.b, s'.c, _, _, hI'.hb, hI'.hc, hI'.fb, hI'.fc, hI'.br, ?_, fun h => by cases h⟩
          cases hr : finish abstoler hd s' with
          | none => exact hself
          | some x => exact (finish_between hr).1
        · cases hr : finish abstoler hd s' with
          | some x =>
            refine ⟨s'.b, s'.c, _, _, hI'.hb, hI'.hc, hI'.fb, hI'.fc, hI'.br, (finish_between hr).1, fun _ h => ?_⟩
            exact le_max_of_le_left ((finish_between hr).2 h)
          | none =>
            rename_i hit
            exact ih (n+1) s' hI' (by omega) (by omega)

theorem findRoot_good (eps : ℝ) (he : 0 ≤ eps) (F : ℝ → Option ℝ) (dF : Option (ℝ → Option ℝ)) (x1 x2 rt : ℝ) (hrt : 0 < rt)
    (hbr : ∀ f1 f2, F x1 = some f1 → F x2 = some f2 → f1 * f2 ≤ 0) (hzz : ¬(F x1 = some 0 ∧ F x2 = some 0)) :
    Good F dF.isSome eps (rt * |x2 - x1|) (min x1 x2) (max x1 x2) (findRoot eps F dF x1 x2 rt) := by
  have m1 : min x1 x2 ≤ x1 ∧ x1 ≤ max x1 x2 := ⟨min_le_left _ _, le_max_left _ _⟩
  have m2 : min x1 x2 ≤ x2 ∧ x2 ≤ max x1 x2 := ⟨min_le_right _ _, le_max_right _ _⟩
  unfold findRoot
  rw [if_neg (not_le.2 hrt)]
  simp only
  cases h1 : F x1 with
  | none => exact ⟨x1, m1.1, m1.2, h1⟩
  | some f1 =>
    cases h2 : F x2 with
    | none => exact ⟨x2, m2.1, m2.2, h2⟩
    | some f2 =>
      simp only
      have hb := hbr f1 f2 h1 h2
      have hn : ¬((f1 < 0 ∧ f2 < 0) ∨ (f1 > 0 ∧ f2 > 0)) := by
        rintro (h | h)
        · linarith [mul_pos_of_neg_of_neg h.1 h.2]
        · linarith [mul_pos h.1 h.2]
      have hz : ∀ x, 0 ≤ max (rt * |x2 - x1|) (eps * |x|) := fun x => le_max_of_le_right (by positivity)
      rw [if_neg hn]
      by_cases z1 : f1 = 0
      · rw [if_pos z1]
        by_cases z2 : f2 = 0
        · rw [if_pos z2]
          exact absurd ⟨by rw [h1, z1], by rw [h2, z2]⟩ hzz
        · rw [if_neg z2]
          exact ⟨x1, x1, f1, f1, m1, m1, h1, h1, by rw [z1]; simp, Or.inl ⟨le_refl _, le_refl _⟩, fun _ _ => by
            rw [sub_self, abs_zero]; exact hz _⟩
      · rw [if_neg z1]
        by_cases z2 : f2 = 0
        · rw [if_pos z2]
          exact ⟨x2, x2, f2, f2, m2, m2, h2, h2, by rw [z2]; simp, Or.inl ⟨le_refl _, le_refl _⟩, fun _ _ => by
            rw [sub_self, abs_zero]; exact hz _⟩
        · rw [if_neg z2, abs_sub_comm, mul_comm]
          apply loop_good _ _ _ _ _ _ _ he
          · apply inv_swap
            exact ⟨m2, m1, h2, h1, rfl, rfl, by simpa [mul_comm] using hb, z1⟩
          · omega
          · omega

/-- The loop looks at the function only inside the interval. -/
theorem loop_congr (F G der der' : ℝ → Option ℝ) (hd : Bool) (eps abstoler lo hi : ℝ) (he : 0 ≤ eps)
    (hFG : ∀ x, lo ≤ x → x ≤ hi → F x = G x) (hdd : ∀ x, lo ≤ x → x ≤ hi → der x = der' x) :
    ∀ (fuel numIter : Nat) (s : St), Inv F der lo hi s →
      loop F der hd eps abstoler fuel numIter s = loop G der' hd eps abstoler fuel numIter s := by
  intro fuel
  induction fuel with
  | zero => intro n s _; rfl
  | succ fuel ih =>
    intro n s hI
    rw [loop, loop]
    by_cases h0 : s.fb = 0 ∨ |half s| ≤ tol eps s
    · rw [if_pos h0, if_pos h0]
    · rw [if_neg h0, if_neg h0]
      rw [not_or] at h0
      have hneg : s.fb * s.fc < 0 := lt_of_le_of_ne hI.br (mul_ne_zero h0.1 hI.ne)
      have hnb := between_bounds (newB_between eps he hd s hneg h0.2) hI.hb hI.hc
      simp only
      generalize newB eps s (chooseStep eps hd s).1 = b' at *
      rw [← hFG b' hnb.1 hnb.2, ← hdd b' hnb.1 hnb.2]
      cases hF : F b' with
      | none => rfl
      | some fb' =>
        simp only
        have hI' := inv_update hI h0.1 (chooseStep eps hd s).1 (chooseStep eps hd s).2 b' fb' hnb hF
        generalize update s (chooseStep eps hd s).1 (chooseStep eps hd s).2 b' fb' (der b') = s' at *
        split
        · rfl
        · cases finish abstoler hd s' with
          | some x => rfl
          | none => exact ih (n+1) s' hI'

/-! ## C16 -/

/-- C16. A non-positive tolerance is rejected; otherwise the search ends after at most 64 iterations with NaN or a
point of the interval, and NaN means that the end values have the same strict sign or that a value that is not
finite was met. For every function, with or without derivatives (which may be wrong or undefined). -/
theorem C16_bracket (eps : ℝ) (he : 0 ≤ eps) (F : ℝ → Option ℝ) (dF : Option (ℝ → Option ℝ)) (x1 x2 rt : ℝ) :
    (rt ≤ 0 → findRoot eps F dF x1 x2 rt = .threw) ∧
    (0 < rt →
      (∃ x w, findRoot eps F dF x1 x2 rt = .root x w ∧ min x1 x2 ≤ x ∧ x ≤ max x1 x2 ∧
        ∃ f1 f2, F x1 = some f1 ∧ F x2 = some f2 ∧ f1 * f2 ≤ 0) ∨
      (findRoot eps F dF x1 x2 rt = .nan ∧
        ((∃ f1 f2, F x1 = some f1 ∧ F x2 = some f2 ∧ f1 * f2 > 0) ∨
         ∃ x, min x1 x2 ≤ x ∧ x ≤ max x1 x2 ∧ F x = none))) := by
  refine ⟨fun h => by unfold findRoot; rw [if_pos h], fun hrt => ?_⟩
  have m1 : min x1 x2 ≤ x1 ∧ x1 ≤ max x1 x2 := ⟨min_le_left _ _, le_max_left _ _⟩
  have m2 : min x1 x2 ≤ x2 ∧ x2 ≤ max x1 x2 := ⟨min_le_right _ _, le_max_right _ _⟩
  by_cases hbr : ∀ f1 f2, F x1 = some f1 → F x2 = some f2 → f1 * f2 ≤ 0
  · by_cases hzz : F x1 = some 0 ∧ F x2 = some 0
    · left
      refine ⟨1/2 * (x1 + x2), false, ?_, ?_, ?_, 0, 0, hzz.1, hzz.2, by norm_num⟩
      · unfold findRoot
        rw [if_neg (not_le.2 hrt)]
        simp [hzz.1, hzz.2]
      · linarith [m1.1, m2.1]
      · linarith [m1.2, m2.2]
    · have g := findRoot_good eps he F dF x1 x2 rt hrt hbr hzz
      cases hr : findRoot eps F dF x1 x2 rt with
      | threw => rw [hr] at g; exact g.elim
      | unfinished => rw [hr] at g; exact g.elim
      | nan => rw [hr] at g; right; exact ⟨rfl, Or.inr g⟩
      | root x w =>
        rw [hr] at g
        obtain ⟨u, v, _, _, hu, hv, _, _, _, hx, _⟩ := g
        have := between_bounds hx hu hv
        left
        refine ⟨x, w, rfl, this.1, this.2, ?_⟩
        cases h1 : F x1 with
        | none =>
          exfalso
          unfold findRoot at hr
          rw [if_neg (not_le.2 hrt)] at hr
          simp [h1] at hr
        | some f1 =>
          cases h2 : F x2 with
          | none =>
            exfalso
            unfold findRoot at hr
            rw [if_neg (not_le.2 hrt)] at hr
            simp [h1, h2] at hr
          | some f2 => exact ⟨f1, f2, rfl, rfl, hbr f1 f2 h1 h2⟩
  · push Not at hbr
    obtain ⟨f1, f2, h1, h2, h⟩ := hbr
    right
    refine ⟨?_, Or.inl ⟨f1, f2, h1, h2, h⟩⟩
    unfold findRoot
    rw [if_neg (not_le.2 hrt)]
    simp only [h1, h2]
    rw [if_pos]
    rcases mul_pos_iff.1 h with p | p
    · right; exact p
    · left; exact p

/-- C16. For a function that is finite on the interval, NaN is returned iff the end values have the same strict sign. -/
theorem C16_nan_iff (eps : ℝ) (he : 0 ≤ eps) (F : ℝ → Option ℝ) (dF : Option (ℝ → Option ℝ)) (x1 x2 rt f1 f2 : ℝ)
    (hrt : 0 < rt) (hfin : ∀ x, min x1 x2 ≤ x → x ≤ max x1 x2 → F x ≠ none) (h1 : F x1 = some f1) (h2 : F x2 = some f2) :
    findRoot eps F dF x1 x2 rt = .nan ↔ ((f1 < 0 ∧ f2 < 0) ∨ (f1 > 0 ∧ f2 > 0)) := by
  constructor
  · intro h
    rcases (C16_bracket eps he F dF x1 x2 rt).2 hrt with ⟨x, w, k, _⟩ | ⟨_, ⟨g1, g2, k1, k2, k⟩ | ⟨x, k1, k2, k3⟩⟩
    · rw [h] at k; cases k
    · rw [h1] at k1; rw [h2] at k2; cases k1; cases k2
      rcases mul_pos_iff.1 k with p | p
      · right; exact p
      · left; exact p
    · exact absurd k3 (hfin x k1 k2)
  · intro h
    unfold findRoot
    rw [if_neg (not_le.2 hrt)]
    simp only [h1, h2]
    rw [if_pos h]

/-- C16. The function (and its derivative) are never looked at outside the interval: two functions that agree on the
interval give the same result. -/
theorem C16_inside_only (eps : ℝ) (he : 0 ≤ eps) (F G dF dG : ℝ → Option ℝ) (x1 x2 rt : ℝ)
    (h : ∀ x, min x1 x2 ≤ x → x ≤ max x1 x2 → F x = G x ∧ dF x = dG x) :
    findRoot eps F none x1 x2 rt = findRoot eps G none x1 x2 rt ∧
    findRoot eps F (some dF) x1 x2 rt = findRoot eps G (some dG) x1 x2 rt := by
  have m1 : min x1 x2 ≤ x1 ∧ x1 ≤ max x1 x2 := ⟨min_le_left _ _, le_max_left _ _⟩
  have m2 : min x1 x2 ≤ x2 ∧ x2 ≤ max x1 x2 := ⟨min_le_right _ _, le_max_right _ _⟩
  have key : ∀ dF dG : Option (ℝ → Option ℝ), dF.isSome = dG.isSome →
      (∀ x, min x1 x2 ≤ x → x ≤ max x1 x2 → F x = G x ∧ dF.bind (· x) = dG.bind (· x)) →
      findRoot eps F dF x1 x2 rt = findRoot eps G dG x1 x2 rt := by
    intro dF dG hs hh
    unfold findRoot
    by_cases hrt : rt ≤ 0
    · rw [if_pos hrt, if_pos hrt]
    · rw [if_neg hrt, if_neg hrt]
      simp only
      rw [← (hh x1 m1.1 m1.2).1, ← (hh x2 m2.1 m2.2).1]
      cases h1 : F x1 with
      | none => rfl
      | some f1 =>
        cases h2 : F x2 with
        | none => rfl
        | some f2 =>
          simp only
          by_cases hn : (f1 < 0 ∧ f2 < 0) ∨ (f1 > 0 ∧ f2 > 0)
          · rw [if_pos hn, if_pos hn]
          rw [if_neg hn, if_neg hn]
          by_cases z1 : f1 = 0
          · rw [if_pos z1, if_pos z1]
          rw [if_neg z1, if_neg z1]
          by_cases z2 : f2 = 0
          · rw [if_pos z2, if_pos z2]
          rw [if_neg z2, if_neg z2, ← (hh x1 m1.1 m1.2).2, ← (hh x2 m2.1 m2.2).2, hs]
          apply loop_congr F G (fun x => dF.bind (· x)) (fun x => dG.bind (· x)) _ _ _ (min x1 x2) (max x1 x2) he
            (fun x a b => (hh x a b).1) (fun x a b => (hh x a b).2)
          apply inv_swap
          refine ⟨m2, m1, h2, h1, rfl, rfl, ?_, z1⟩
          simp only
          by_contra k
          push Not at k
          rcases mul_pos_iff.1 k with p | p
          · exact hn (Or.inr ⟨p.2, p.1⟩)
          · exact hn (Or.inl ⟨p.2, p.1⟩)
  exact ⟨key none none rfl (fun x a b => ⟨(h x a b).1, rfl⟩), key (some dF) (some dG) rfl (fun x a b => h x a b)⟩

/-- C16, accuracy (partial: functions without derivatives, not both end values zero). For a function continuous on the
interval, unless the iteration limit was announced, a true root lies within the requested tolerance of the result
(or within its rounding error `eps*|x|`). -/
theorem C16_accuracy_partial (eps : ℝ) (he : 0 ≤ eps) (f : ℝ → ℝ) (x1 x2 rt : ℝ) (hrt : 0 < rt)
    (hf : ContinuousOn f (Set.uIcc x1 x2)) (hb : f x1 * f x2 ≤ 0) (hzz : ¬(f x1 = 0 ∧ f x2 = 0)) :
    ∃ x w, findRoot eps (fun x => some (f x)) none x1 x2 rt = .root x w ∧ x ∈ Set.uIcc x1 x2 ∧
      (w = false → ∃ r ∈ Set.uIcc x1 x2, f r = 0 ∧ |x - r| ≤ max (rt * |x2 - x1|) (eps * |x|)) := by
  have g := findRoot_good eps he (fun x => some (f x)) none x1 x2 rt hrt
    (fun f1 f2 h1 h2 => by injection h1 with h1; injection h2 with h2; rw [← h1, ← h2]; exact hb)
    (fun h => hzz ⟨by injection h.1, by injection h.2⟩)
  cases hr : findRoot eps (fun x => some (f x)) none x1 x2 rt with
  | threw => rw [hr] at g; exact g.elim
  | unfinished => rw [hr] at g; exact g.elim
  | nan => rw [hr] at g; obtain ⟨x, _, _, h⟩ := g; cases h
  | root x w =>
    rw [hr] at g
    obtain ⟨u, v, fu, fv, hu, hv, h1, h2, hs, hx, hacc⟩ := g
    have hxb := between_bounds hx hu hv
    refine ⟨x, w, rfl, hxb, fun hw => ?_⟩
    have hsub : Set.uIcc u v ⊆ Set.uIcc x1 x2 := Set.uIcc_subset_uIcc hu hv
    injection h1 with h1
    injection h2 with h2
    obtain ⟨r, hr1, hr2⟩ : ∃ r ∈ Set.uIcc u v, f r = 0 := by
      have iv := intermediate_value_uIcc (hf.mono hsub)
      have : (0:ℝ) ∈ Set.uIcc (f u) (f v) := by
        rw [h1, h2, Set.mem_uIcc]
        rcases mul_nonpos_iff.1 hs with k | k
        · right; exact ⟨k.2, k.1⟩
        · left; exact ⟨k.1, k.2⟩
      obtain ⟨r, h, h'⟩ := iv this
      exact ⟨r, h, h'⟩
    refine ⟨r, hsub hr1, hr2, le_trans ?_ (hacc hw rfl)⟩
    rw [Set.mem_uIcc] at hr1
    rcases hx with hx | hx <;> rcases hr1 with q | q <;> rw [abs_le] <;> constructor <;>
      nlinarith [le_abs_self (u - v), neg_abs_le (u - v), hx.1, hx.2, q.1, q.2]

/-- Non-vacuity of `C16_accuracy_partial`. -/
example : ∃ x w, findRoot (1/2^52) (fun x => some (x ^ 3 - 2)) none 0 2 (1/1000) = .root x w ∧ x ∈ Set.uIcc (0:ℝ) 2 ∧
    (w = false → ∃ r ∈ Set.uIcc (0:ℝ) 2, r ^ 3 - 2 = 0 ∧ |x - r| ≤ max (1/1000 * |2 - 0|) (1/2^52 * |x|)) :=
  C16_accuracy_partial (1/2^52) (by norm_num) (fun x => x ^ 3 - 2) 0 2 (1/1000) (by norm_num)
    (by fun_prop) (by norm_num) (by norm_num)

/-- The documented result ("the root of equation F(x)=0") is wrong if the function vanishes at both ends: the
midpoint is returned, which need not be anywhere near a root. -/
theorem C16_refuted_both_ends (eps rt : ℝ) (hrt : 0 < rt) (hrt' : rt < 1/2) :
    let f : ℝ → ℝ := fun x => x * (1 - x)
    findRoot eps (fun x => some (f x)) none 0 1 rt = .root (1/2) false ∧
    ¬∃ r, f r = 0 ∧ |1/2 - r| ≤ rt * |(1:ℝ) - 0| := by
  intro f
  constructor
  · unfold findRoot
    rw [if_neg (not_le.2 hrt)]
    simp [f]
  · rintro ⟨r, h1, h2⟩
    have : r = 0 ∨ 1 - r = 0 := mul_eq_zero.1 h1
    rw [sub_zero, abs_one, mul_one, abs_le] at h2
    rcases this with h | h <;> linarith [h2.1, h2.2]

/-- The polynomial of the next counterexample. -/
noncomputable def cexF (x : ℝ) : ℝ := 1/10 + 2 * (x - 1/2) + 20 * (x - 1/2) ^ 2 - 408/5 * (x - 1/2) ^ 4
/-- Its derivative. -/
noncomputable def cexD (x : ℝ) : ℝ := 2 + 40 * (x - 1/2) - 1632/5 * (x - 1/2) ^ 3

/-- The accuracy claim is false for functions that provide derivatives: the search stops as soon as the Newton step is
shorter than the tolerance, although the true root may be further away. Here F is a polynomial with its
true derivative on [0,1], the tolerance is 1/10, no warning is given, and no root is within 1/10 of the result. -/
theorem C16_refuted_newton (eps : ℝ) (h0 : 0 ≤ eps) (h1 : eps < 1/2) :
    (∀ x, HasDerivAt cexF (cexD x) x) ∧
    findRoot eps (fun x => some (cexF x)) (some fun x => some (cexD x)) 0 1 (1/10) = .root (9/20) false ∧
    ¬∃ r, cexF r = 0 ∧ |9/20 - r| ≤ 1/10 * |(1:ℝ) - 0| := by
  refine ⟨?_, ?_, ?_⟩
  · intro x
    have hy : HasDerivAt (fun x : ℝ => x - 1/2) 1 x := (hasDerivAt_id x).sub_const _
    exact ((((hy.const_mul 2).const_add (1/10)).add ((hy.pow 2).const_mul 20)).sub ((hy.pow 4).const_mul (408/5))).congr_deriv
      (by simp only [cexD]; push_cast; ring)
  · have f0 : cexF 0 = -1 := by norm_num [cexF]
    have f1 : cexF 1 = 1 := by norm_num [cexF]
    have fh : cexF (1/2) = 1/10 := by norm_num [cexF]
    have dh : cexD (1/2) = 2 := by norm_num [cexD]
    unfold findRoot
    rw [if_neg (by norm_num)]
    simp only [f0, f1, Option.isSome_some]
    rw [if_neg (by norm_num), if_neg (by norm_num), if_neg (by norm_num)]
    simp only [swapBC]
    rw [if_neg (by norm_num)]
    simp only [Option.bind_some]
    obtain ⟨s0, hs0⟩ : ∃ s0 : St, s0 = { a := 0, b := 1, c := 0, fa := -1, fb := 1, fc := -1, d := 1 - 0, e := 1 - 0, da := some (cexD 0), db := some (cexD 1), dc := some (cexD 0) } := ⟨_, rfl⟩
    rw [← hs0]
    have hch : chooseStep eps true s0 = (-1/2, -1/2) := by
      unfold chooseStep
      rw [if_pos (Or.inr (by rw [hs0]; norm_num))]
      simp only [half, hs0]; norm_num
    have hnb : newB eps s0 (-1/2) = 1/2 := by
      unfold newB
      rw [if_pos (by
        simp only [tol, hs0]; rw [abs_of_neg (by norm_num), abs_one]; linarith)]
      simp only [hs0]; norm_num
    rw [loop, if_neg (by
      simp only [half, tol, hs0]; norm_num; linarith)]
    simp only [hch, hnb, fh, update, Option.bind_some, dh]
    simp only [hs0]
    rw [if_neg (by norm_num)]
    simp only [swapBC]
    rw [if_neg (by rw [abs_of_neg (by norm_num), abs_of_pos (by norm_num)]; norm_num)]
    rw [if_neg (by norm_num)]
    simp only [finish]
    rw [if_neg (by rw [abs_of_pos (by norm_num), abs_of_neg (by norm_num)]; norm_num), if_pos]
    · norm_num
    · refine ⟨by norm_num, ?_, ?_⟩
      · unfold bracketed; right; constructor <;> norm_num
      · rw [abs_of_neg (by norm_num), abs_of_neg (by norm_num)]; norm_num
  · rintro ⟨r, hr, h⟩
    rw [sub_zero, abs_one, mul_one, abs_le] at h
    unfold cexF at hr
    obtain ⟨y, hy⟩ : ∃ y, y = r - 1/2 := ⟨_, rfl⟩
    rw [← hy] at hr
    have l1 : -3/20 ≤ y := by linarith [h.2]
    have l2 : y ≤ 3/20 := by linarith [h.1]
    have h2 : y ^ 2 ≤ 9/400 := by nlinarith
    have h4 : y ^ 4 ≤ 9/400 * y ^ 2 := by nlinarith [sq_nonneg y, mul_nonneg (sq_nonneg y) (sub_nonneg.2 h2)]
    nlinarith [sq_nonneg (y + 1/20)]

end Verif.FindRoot
