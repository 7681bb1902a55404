import Verif.Core.Arith
import Mathlib.Analysis.SpecialFunctions.Trigonometric.Inverse

/-! Model of `polishRoot` and `solveCubic` (/repo/src/math_core.cpp:612-728), exact arithmetic, and C44. -/
namespace Verif.Core

/-- math_core.cpp:621-646, `polishRoot<3>(a, x)`, loop over `k`; `eps` is DBL_EPSILON, `seps` its
square root. -/
noncomputable def polishRoot3 (eps seps a0 a1 a2 a3 : ℝ) : Nat → ℝ → ℝ
  | 0, x => x
  | fuel+1, x =>
    let X := |x|
    let e := 0.5 * |a3|
    -- i = 2
    let f2 := x * a3 + a2
    let e2 := X * e + |f2|
    let df2 := x * (a3 * 3) + a2 * 2
    let d2f2 := x * (a3 * 3 * 2) + a2 * 2 * 1
    -- i = 1
    let f1 := x * f2 + a1
    let e1 := X * e2 + |f1|
    let df1 := x * df2 + a1 * 1
    -- i = 0
    let f0 := x * f1 + a0
    let e0 := X * e1 + |f0|
    let err := (e0 - 0.5 * |f0|) * eps
    if |f0| ≤ err then x else
    let dx := -f0 * df1 / (df1 * df1 - 0.5 * f0 * d2f2)
    let x := x + dx
    if |dx| < X * seps then x else polishRoot3 eps seps a0 a1 a2 a3 fuel x

/-- Polishing an exact root leaves it unchanged. -/
theorem polish_root (eps seps a0 a1 a2 a3 : ℝ) (he : 0 ≤ eps) (fuel : Nat) (x : ℝ)
    (hx : a3 * x ^ 3 + a2 * x ^ 2 + a1 * x + a0 = 0) : polishRoot3 eps seps a0 a1 a2 a3 fuel x = x := by
  cases fuel with
  | zero => rfl
  | succ n =>
    unfold polishRoot3
    simp only
    rw [if_pos]
    have h0 : x * (x * (x * a3 + a2) + a1) + a0 = 0 := by linear_combination hx
    rw [h0]
    simp only [abs_zero, mul_zero, sub_zero, add_zero]
    positivity

/-- math_core.cpp:648-655: `swapIfNeeded`. -/
noncomputable def swapped (x y : ℝ) : ℝ × ℝ := if x > y then (y, x) else (x, y)

/-- math_core.cpp:720-724: sorting of three roots by three conditional swaps. -/
noncomputable def sort3 (r0 r1 r2 : ℝ) : List ℝ :=
  let p := swapped r0 r1
  let q := swapped p.1 r2
  let r := swapped p.2 q.2
  [q.1, r.1, r.2]

/-- math_core.cpp:676-728, `solveCubic`; `cbrt` is the real cube root of a nonnegative number. -/
noncomputable def solveCubic (eps seps a3 a2 a1 a0 : ℝ) : List ℝ :=
  if a3 = 0 then solveQuadratic a2 a1 a0 else
  let inva3 := 1 / a3
  let s := -(1/3) * a2 * inva3
  let Q := 1/3 * a1 * inva3 - s ^ 2
  let R := s ^ 3 - 0.5 * (s * a1 + a0) * inva3
  if Q = 0 ∧ R = 0 then [s] else
  let D := Q ^ 3 + R ^ 2
  let pol := polishRoot3 eps seps a0 a1 a2 a3 4
  if |D| ≤ 2 * eps * R ^ 2 then
    let p := swapped (pol (s + R / Q)) (pol (s - R / Q * 2))
    [p.1, p.2]
  else if D > 0 then
    let a := (if R ≥ 0 then 1 else -1) * (|R| + Real.sqrt D) ^ ((1:ℝ)/3)
    let b := -Q / a
    [pol (a + b + s)]
  else
    let a := Real.sqrt (-Q)
    let phi := 1/3 * Real.arccos (R / a ^ 3)
    sort3 (pol (2*a * Real.cos (phi + Real.pi * (2/3)) + s))
          (pol (2*a * Real.cos (phi + Real.pi * (4/3)) + s))
          (pol (2*a * Real.cos phi + s))

theorem three_roots (p q t1 t2 t3 : ℝ) (h1 : t1 ^ 3 + p * t1 + q = 0) (h2 : t2 ^ 3 + p * t2 + q = 0)
    (h3 : t3 ^ 3 + p * t3 + q = 0) (h12 : t1 ≠ t2) (h13 : t1 ≠ t3) (h23 : t2 ≠ t3) (t : ℝ) :
    t ^ 3 + p * t + q = 0 ↔ t = t1 ∨ t = t2 ∨ t = t3 := by
  constructor
  · intro h
    by_contra hc
    push Not at hc
    obtain ⟨c1, c2, c3⟩ := hc
    have key : ∀ x, x ^ 3 + p * x + q = 0 → x ≠ t1 → x ≠ t2 → x = -(t1 + t2) := by
      intro x hx n1 n2
      have e1 : x ^ 2 + x * t1 + t1 ^ 2 + p = 0 := by
        have : (x - t1) * (x ^ 2 + x * t1 + t1 ^ 2 + p) = 0 := by linear_combination hx - h1
        exact (mul_eq_zero.1 this).resolve_left (sub_ne_zero.2 n1)
      have e2 : x ^ 2 + x * t2 + t2 ^ 2 + p = 0 := by
        have : (x - t2) * (x ^ 2 + x * t2 + t2 ^ 2 + p) = 0 := by linear_combination hx - h2
        exact (mul_eq_zero.1 this).resolve_left (sub_ne_zero.2 n2)
      have : (t1 - t2) * (x + t1 + t2) = 0 := by linear_combination e1 - e2
      have := (mul_eq_zero.1 this).resolve_left (sub_ne_zero.2 h12)
      linarith
    exact c3 ((key t h c1 c2).trans (key t3 h3 (Ne.symm h13) (Ne.symm h23)).symm)
  · rintro (rfl | rfl | rfl) <;> assumption

theorem sort3_sorted (a b c : ℝ) (h1 : a < b) (h2 : b < c) : sort3 a b c = [a, b, c] := by
  unfold sort3 swapped
  simp only
  rw [if_neg (not_lt.2 h1.le)]
  simp only
  rw [if_neg (not_lt.2 (h1.trans h2).le)]
  simp only
  rw [if_neg (not_lt.2 h2.le)]

/-- The three cosines used by the code are strictly ordered. -/
theorem cos_order (phi : ℝ) (h0 : 0 < phi) (h1 : phi < Real.pi / 3) :
    Real.cos (phi + Real.pi * (2/3)) < Real.cos (phi + Real.pi * (4/3)) ∧
    Real.cos (phi + Real.pi * (4/3)) < Real.cos phi := by
  have hpi := Real.pi_pos
  have e : Real.cos (phi + Real.pi * (4/3)) = Real.cos (2/3 * Real.pi - phi) := by
    rw [← Real.cos_two_pi_sub]
    congr 1; ring
  rw [e]
  constructor
  · apply Real.strictAntiOn_cos
    · constructor <;> linarith
    · constructor <;> linarith
    · linarith
  · apply Real.strictAntiOn_cos
    · constructor <;> linarith
    · constructor <;> linarith
    · linarith

/-- C44. In exact arithmetic `solveCubic` returns exactly the distinct real roots in increasing order,
for every cubic equation whose discriminant is zero or exceeds the tolerance `2*eps*R^2` below which
the code declares it zero. -/
theorem C44_cubic (eps seps a3 a2 a1 a0 : ℝ) (he : 0 ≤ eps) (h3 : a3 ≠ 0)
    (hdisc : let s := -(1/3) * a2 * (1 / a3)
      let Q := 1/3 * a1 * (1 / a3) - s ^ 2
      let R := s ^ 3 - 0.5 * (s * a1 + a0) * (1 / a3)
      Q ^ 3 + R ^ 2 = 0 ∨ 2 * eps * R ^ 2 < |Q ^ 3 + R ^ 2|) :
    (solveCubic eps seps a3 a2 a1 a0).Pairwise (· < ·) ∧
    ∀ x, x ∈ solveCubic eps seps a3 a2 a1 a0 ↔ a3 * x ^ 3 + a2 * x ^ 2 + a1 * x + a0 = 0 := by
  simp only at hdisc
  unfold solveCubic
  rw [if_neg h3]
  simp only
  have hs : a2 = -3 * (-(1/3) * a2 * (1 / a3)) * a3 := by field_simp
  generalize -(1/3) * a2 * (1 / a3) = s at *
  have hQ : a1 = 3 * a3 * (1/3 * a1 * (1 / a3) - s ^ 2 + s ^ 2) := by field_simp; ring
  have hR : a0 = 2 * a3 * (s ^ 3 - (s ^ 3 - 0.5 * (s * a1 + a0) * (1 / a3))) - s * a1 := by
    field_simp; norm_num; ring
  generalize 1/3 * a1 * (1 / a3) - s ^ 2 = Q at *
  generalize s ^ 3 - 0.5 * (s * a1 + a0) * (1 / a3) = R at *
  have hdep : ∀ x, a3 * x ^ 3 + a2 * x ^ 2 + a1 * x + a0 = a3 * ((x - s) ^ 3 + 3 * Q * (x - s) + (-2 * R)) := by
    intro x
    rw [hR, hs, hQ]; ring
  have hroot : ∀ x, a3 * x ^ 3 + a2 * x ^ 2 + a1 * x + a0 = 0 ↔ (x - s) ^ 3 + 3 * Q * (x - s) + (-2 * R) = 0 := by
    intro x; rw [hdep x]; simp [h3]
  have hpol : ∀ t, t ^ 3 + 3 * Q * t + (-2 * R) = 0 → ∀ x, x = t + s →
      polishRoot3 eps seps a0 a1 a2 a3 4 x = t + s := by
    intro t ht x hx
    rw [hx]
    apply polish_root _ _ _ _ _ _ he
    rw [hroot, add_sub_cancel_right]; exact ht
  by_cases hQR : Q = 0 ∧ R = 0
  · rw [if_pos hQR]
    refine ⟨by simp, fun x => ?_⟩
    rw [hroot x, hQR.1, hQR.2, List.mem_singleton]
    constructor
    · rintro rfl; ring
    · intro h
      have : (x - s) ^ 3 = 0 := by linear_combination h
      have := pow_eq_zero_iff (three_ne_zero) |>.1 this
      linarith
  · rw [if_neg hQR]
    by_cases hD0 : Q ^ 3 + R ^ 2 = 0
    · have hcond : |Q ^ 3 + R ^ 2| ≤ 2 * eps * R ^ 2 := by rw [hD0, abs_zero]; positivity
      rw [if_pos hcond]
      have hQ0 : Q ≠ 0 := by
        intro h
        rw [h] at hD0
        have : R = 0 := by
          have : R ^ 2 = 0 := by linear_combination hD0
          exact pow_eq_zero_iff (two_ne_zero) |>.1 this
        exact hQR ⟨h, this⟩
      have hR0 : R ≠ 0 := by
        intro h
        rw [h] at hD0
        have : Q ^ 3 = 0 := by linear_combination hD0
        exact hQ0 (pow_eq_zero_iff (three_ne_zero) |>.1 this)
      set r := R / Q with hr
      have hr2 : r ^ 2 = -Q := by
        rw [hr, div_pow, div_eq_iff (by positivity)]
        linear_combination hD0
      have hrR : r * Q = R := by rw [hr]; field_simp
      have hr0 : r ≠ 0 := div_ne_zero hR0 hQ0
      have hf : ∀ t, t ^ 3 + 3 * Q * t + (-2 * R) = (t - r) ^ 2 * (t + 2 * r) := by
        intro t
        linear_combination (3 * t - 2 * r) * hr2 + 2 * hrR
      rw [hpol r (by rw [hf]; ring) (s + r) (by ring), hpol (-2 * r) (by rw [hf]; ring) (s - r * 2) (by ring)]
      have hmem : ∀ x, (x = r + s ∨ x = -2 * r + s) ↔ a3 * x ^ 3 + a2 * x ^ 2 + a1 * x + a0 = 0 := by
        intro x
        rw [hroot, hf]
        constructor
        · rintro (h | h) <;> rw [h] <;> ring
        · intro h
          rcases mul_eq_zero.1 h with h | h
          · left; have := pow_eq_zero_iff (two_ne_zero) |>.1 h; linarith
          · right; linarith
      have hne : r + s ≠ -2 * r + s := by intro h; apply hr0; linarith
      unfold swapped
      by_cases hlt : r + s > -2 * r + s
      · rw [if_pos hlt]
        refine ⟨by
          simp only [List.pairwise_cons, List.mem_singleton, forall_eq, List.not_mem_nil, false_implies,
            implies_true, List.Pairwise.nil, and_true]
          exact hlt, fun x => ?_⟩
        rw [← hmem x]; simp [or_comm]
      · rw [if_neg hlt]
        refine ⟨?_, fun x => ?_⟩
        · have : r + s < -2 * r + s := lt_of_le_of_ne (not_lt.1 hlt) hne
          simp only [List.pairwise_cons, List.mem_singleton, forall_eq, List.not_mem_nil, false_implies,
            implies_true, List.Pairwise.nil, and_true]
          exact this
        · rw [← hmem x]; simp
    · have hbig := hdisc.resolve_left hD0
      rw [if_neg (not_le.2 hbig)]
      by_cases hDp : Q ^ 3 + R ^ 2 > 0
      · rw [if_pos hDp]
        generalize hDd : Q ^ 3 + R ^ 2 = D at *
        have hsq : 0 < Real.sqrt D := Real.sqrt_pos.2 hDp
        have hss : Real.sqrt D ^ 2 = D := Real.sq_sqrt hDp.le
        have hc0 : 0 < |R| + Real.sqrt D := by positivity
        set c := (|R| + Real.sqrt D) ^ ((1:ℝ)/3) with hc
        have hcp : 0 < c := Real.rpow_pos_of_pos hc0 _
        have hc3 : c ^ 3 = |R| + Real.sqrt D := by
          rw [hc, ← Real.rpow_natCast, ← Real.rpow_mul hc0.le]; norm_num
        obtain ⟨σ, hσ, hσ2, hσR⟩ : ∃ σ : ℝ, (if R ≥ 0 then (1:ℝ) else -1) = σ ∧ σ ^ 2 = 1 ∧ σ * |R| = R := by
          by_cases ha : R ≥ 0
          · exact ⟨1, by rw [if_pos ha], by norm_num, by rw [abs_of_nonneg ha, one_mul]⟩
          · exact ⟨-1, by rw [if_neg ha], by norm_num, by push Not at ha; rw [abs_of_neg ha]; ring⟩
        rw [hσ]
        have hσ0 : σ ≠ 0 := by rintro rfl; norm_num at hσ2
        have ha0 : σ * c ≠ 0 := mul_ne_zero hσ0 hcp.ne'
        set a := σ * c with haeq
        have ha3 : a ^ 3 = R + σ * Real.sqrt D := by
          rw [haeq, mul_pow, hc3]
          linear_combination (σ * |R| + σ * Real.sqrt D) * hσ2 + hσR
        set b := -Q / a with hb
        have hab : a * b = -Q := by rw [hb]; field_simp
        have hb3 : b ^ 3 = R - σ * Real.sqrt D := by
          have h1 : a ^ 3 * b ^ 3 = a ^ 3 * (R - σ * Real.sqrt D) := by
            have : a ^ 3 * b ^ 3 = (a * b) ^ 3 := by ring
            rw [this, hab, ha3]
            linear_combination (-1 : ℝ) * hDd + σ ^ 2 * hss + D * hσ2
          exact mul_left_cancel₀ (pow_ne_zero 3 ha0) h1
        have ht : (a + b) ^ 3 + 3 * Q * (a + b) + (-2 * R) = 0 := by
          linear_combination ha3 + hb3 + 3 * (a + b) * hab
        have hane : a ≠ b := by
          intro h
          rw [h] at ha3
          have : σ * Real.sqrt D = 0 := by linarith
          rcases mul_eq_zero.1 this with h | h
          · exact hσ0 h
          · exact hsq.ne' h
        rw [hpol (a + b) ht (a + b + s) rfl]
        refine ⟨by simp, fun x => ?_⟩
        rw [List.mem_singleton, hroot x]
        constructor
        · rintro rfl; rw [add_sub_cancel_right]; exact ht
        · intro hx
          by_contra hne
          have hne' : x - s ≠ a + b := fun h => hne (by linarith)
          clear hne
          generalize x - s = t at *
          have hfac : (t - (a + b)) * (t ^ 2 + t * (a + b) + (a + b) ^ 2 + 3 * Q) = 0 := by
            linear_combination hx - ht
          have h2 := (mul_eq_zero.1 hfac).resolve_left (sub_ne_zero.2 hne')
          have h3 : (2 * t + (a + b)) ^ 2 + 3 * (a - b) ^ 2 = 0 := by
            linear_combination 4 * h2 - 12 * hab
          have h4 : 0 < (a - b) ^ 2 := by
            have := sub_ne_zero.2 hane
            positivity
          nlinarith [sq_nonneg (2 * t + (a + b))]
      · rw [if_neg hDp]
        have hDn : Q ^ 3 + R ^ 2 < 0 := lt_of_le_of_ne (not_lt.1 hDp) hD0
        have hQn : Q < 0 := by
          by_contra h
          push Not at h
          have : 0 ≤ Q ^ 3 := by positivity
          nlinarith [sq_nonneg R]
        set a := Real.sqrt (-Q) with ha
        have hap : 0 < a := Real.sqrt_pos.2 (by linarith)
        have ha2 : a ^ 2 = -Q := Real.sq_sqrt (by linarith)
        have ha3p : 0 < a ^ 3 := by positivity
        have hlt : R ^ 2 < (a ^ 3) ^ 2 := by
          have : (a ^ 3) ^ 2 = -Q ^ 3 := by
            have : (a ^ 3) ^ 2 = (a ^ 2) ^ 3 := by ring
            rw [this, ha2]; ring
          rw [this]; linarith
        have habs : |R| < a ^ 3 := by
          have := sq_lt_sq.1 hlt
          rwa [abs_of_pos ha3p] at this
        obtain ⟨hlo, hhi⟩ := abs_lt.1 habs
        have hlo' : -1 < R / a ^ 3 := by rw [lt_div_iff₀ ha3p]; linarith
        have hhi' : R / a ^ 3 < 1 := by rw [div_lt_iff₀ ha3p]; linarith
        set phi := 1/3 * Real.arccos (R / a ^ 3) with hphi
        have hp0 : 0 < phi := by
          have := Real.arccos_pos.2 hhi'
          positivity
        have hp1 : phi < Real.pi / 3 := by
          have h1 : Real.arccos (R / a ^ 3) < Real.pi := by
            refine lt_of_le_of_ne (Real.arccos_le_pi _) ?_
            intro h
            rw [Real.arccos_eq_pi] at h
            linarith
          rw [hphi]; linarith
        have hcos : Real.cos (3 * phi) = R / a ^ 3 := by
          rw [hphi, show 3 * (1/3 * Real.arccos (R / a ^ 3)) = Real.arccos (R / a ^ 3) by ring]
          exact Real.cos_arccos hlo'.le hhi'.le
        have hRa : R / a ^ 3 * a ^ 3 = R := by field_simp
        have hrt : ∀ θ, Real.cos (3 * θ) = R / a ^ 3 →
            (2 * a * Real.cos θ) ^ 3 + 3 * Q * (2 * a * Real.cos θ) + (-2 * R) = 0 := by
          intro θ hθ
          rw [Real.cos_three_mul] at hθ
          linear_combination 2 * a ^ 3 * hθ + 2 * hRa + 6 * a * Real.cos θ * ha2
        have t1 := hrt (phi + Real.pi * (2/3)) (by
          rw [← hcos, ← Real.cos_add_two_pi (3 * phi)]; congr 1; ring)
        have t2 := hrt (phi + Real.pi * (4/3)) (by
          rw [← hcos, ← Real.cos_add_two_pi (3 * phi), ← Real.cos_add_two_pi (3 * phi + 2 * Real.pi)]; congr 1; ring)
        have t3 := hrt phi hcos
        obtain ⟨o1, o2⟩ := cos_order phi hp0 hp1
        have o1' : 2 * a * Real.cos (phi + Real.pi * (2/3)) < 2 * a * Real.cos (phi + Real.pi * (4/3)) :=
          mul_lt_mul_of_pos_left o1 (by positivity)
        have o2' : 2 * a * Real.cos (phi + Real.pi * (4/3)) < 2 * a * Real.cos phi :=
          mul_lt_mul_of_pos_left o2 (by positivity)
        rw [hpol _ t1 _ rfl, hpol _ t2 _ rfl, hpol _ t3 _ rfl]
        generalize 2 * a * Real.cos (phi + Real.pi * (2/3)) = u1 at *
        generalize 2 * a * Real.cos (phi + Real.pi * (4/3)) = u2 at *
        generalize 2 * a * Real.cos phi = u3 at *
        rw [sort3_sorted _ _ _ (by linarith) (by linarith)]
        constructor
        · simp only [List.pairwise_cons, List.mem_cons, List.not_mem_nil, false_implies, or_false,
            implies_true, List.Pairwise.nil, and_true, forall_eq_or_imp, forall_eq]
          exact ⟨⟨by linarith, by linarith⟩, by linarith⟩
        · intro x
          rw [hroot, three_roots (3 * Q) (-2 * R) u1 u2 u3 t1 t2 t3 o1'.ne (o1'.trans o2').ne o2'.ne]
          simp only [List.mem_cons, List.not_mem_nil, or_false]
          constructor
          · rintro (h | h | h)
            · left; linarith
            · right; left; linarith
            · right; right; linarith
          · rintro (h | h | h)
            · left; linarith
            · right; left; linarith
            · right; right; linarith

/-- C44, degenerate leading coefficient: the roots of the quadratic equation (see `C15_quadratic`). -/
theorem C44_degenerate (eps seps a2 a1 a0 : ℝ) (h : a2 ≠ 0 ∨ a1 ≠ 0 ∨ a0 ≠ 0) :
    (solveCubic eps seps 0 a2 a1 a0).Pairwise (· < ·) ∧
    ∀ x, x ∈ solveCubic eps seps 0 a2 a1 a0 ↔ a2 * x ^ 2 + a1 * x + a0 = 0 := by
  unfold solveCubic
  rw [if_pos rfl]
  exact C15_quadratic a2 a1 a0 h

/-- Non-vacuity: x³ - 7x + 6 = (x-1)(x-2)(x+3) has discriminant far from zero, so C44 applies. -/
example : ∀ x, x ∈ solveCubic (1/2^52) (1/2^26) 1 0 (-7) 6 ↔ (x = 1 ∨ x = 2 ∨ x = -3) := by
  intro x
  rw [(C44_cubic (1/2^52) (1/2^26) 1 0 (-7) 6 (by norm_num) one_ne_zero (by
    right; norm_num [abs_of_neg])).2 x]
  constructor
  · intro h
    have : (x - 1) * ((x - 2) * (x + 3)) = 0 := by linear_combination h
    rcases mul_eq_zero.1 this with h | h
    · left; linarith
    · rcases mul_eq_zero.1 h with h | h
      · right; left; linarith
      · right; right; linarith
  · rintro (rfl | rfl | rfl) <;> norm_num

/-- C44. The final sorting of three roots is correct whatever their order (the roots are perturbed by rounding in the
actual code, so that they need not come out of the trigonometric formulae in increasing order). -/
theorem C44_sorting (a b c : ℝ) : (sort3 a b c).Pairwise (· ≤ ·) ∧ (sort3 a b c).Perm [a, b, c] := by
  constructor
  · unfold sort3 swapped
    simp only
    split_ifs <;> simp only [List.pairwise_cons, List.mem_cons, List.not_mem_nil, or_false, forall_eq_or_imp, forall_eq,
      false_implies, implies_true, List.Pairwise.nil, and_true] <;>
      exact ⟨⟨by linarith, by linarith⟩, by linarith⟩
  · unfold sort3 swapped
    simp only
    rw [← Multiset.coe_eq_coe]
    simp only [← Multiset.cons_coe]
    split_ifs <;> simp only [Multiset.coe_nil, ← Multiset.singleton_add, add_zero] <;> abel

/-- C44. One pass of the refinement of a root either keeps the estimate or replaces it by the Halley iterate
`x - f f' / (f'² - f f''/2)` of the cubic. -/
theorem C44_polish_halley (eps seps a0 a1 a2 a3 x : ℝ) :
    polishRoot3 eps seps a0 a1 a2 a3 1 x = x ∨
    polishRoot3 eps seps a0 a1 a2 a3 1 x = x - (a3 * x ^ 3 + a2 * x ^ 2 + a1 * x + a0) * (3 * a3 * x ^ 2 + 2 * a2 * x + a1) /
      ((3 * a3 * x ^ 2 + 2 * a2 * x + a1) ^ 2 - (a3 * x ^ 3 + a2 * x ^ 2 + a1 * x + a0) * (6 * a3 * x + 2 * a2) / 2) := by
  have e0 : x * (x * (x * a3 + a2) + a1) + a0 = a3 * x ^ 3 + a2 * x ^ 2 + a1 * x + a0 := by ring
  have e1 : x * (x * (a3 * 3) + a2 * 2) + a1 * 1 = 3 * a3 * x ^ 2 + 2 * a2 * x + a1 := by ring
  have e2 : x * (a3 * 3 * 2) + a2 * 2 * 1 = 6 * a3 * x + 2 * a2 := by ring
  unfold polishRoot3
  simp only
  rw [e0, e1, e2]
  generalize a3 * x ^ 3 + a2 * x ^ 2 + a1 * x + a0 = f
  generalize 3 * a3 * x ^ 2 + 2 * a2 * x + a1 = g
  generalize 6 * a3 * x + 2 * a2 = h
  split_ifs
  · left; rfl
  · right
    rw [show g * g - 0.5 * f * h = g ^ 2 - f * h / 2 by ring]; ring
  · right
    unfold polishRoot3
    rw [show g * g - 0.5 * f * h = g ^ 2 - f * h / 2 by ring]; ring

/-- C44. The refinement is driven by the residual: it stops at once only if the value of the polynomial is within the
estimated rounding error; if it moves, then the value was larger than that. -/
theorem C44_polish_moves (eps seps a0 a1 a2 a3 x : ℝ) (he : 0 ≤ eps) (hmove : polishRoot3 eps seps a0 a1 a2 a3 1 x ≠ x) :
    a3 * x ^ 3 + a2 * x ^ 2 + a1 * x + a0 ≠ 0 := fun h => hmove (polish_root eps seps a0 a1 a2 a3 he 1 x h)

end Verif.Core
