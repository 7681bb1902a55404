import Verif.Spline.LogLogProps

/-! C111, C112: continuity for arbitrary data, exactness of the quintic variant, concrete cases and refutations. Exact real
arithmetic. -/
namespace Verif.Spline.LogLog

open Verif.BSpline (Grid)
open Verif.Spline

noncomputable section

/-! ## Continuity for arbitrary data -/

/-- The value as a function of the logarithm of the argument on the piece k. -/
def valPiece (L : LogLogSpline) (n k : ℕ) (u : ℝ) : Jet3 :=
  ⟨if k = 0 then ((L.extrapolate 0 (Real.exp u)).getD ⟨0, 0, 0⟩).val
    else if k = n then ((L.extrapolate (n - 1) (Real.exp u)).getD ⟨0, 0, 0⟩).val
    else (L.interpolate (k - 1) (Real.exp u)).val, 0, 0, 0⟩

theorem extrapolate_some (L : LogLogSpline) (j : ℕ) {t : ℝ} (ht : 0 < t) : ∃ o, L.extrapolate j t = some o := by
  rw [LogLogSpline.extrapolate]
  cases L.logfder j with
  | none => exact ⟨_, rfl⟩
  | some s =>
    simp only
    split_ifs with h1 h2
    · exact ⟨_, rfl⟩
    · exact absurd ht (not_lt.2 h2)
    · exact ⟨_, rfl⟩

theorem val_piece {x f : ℕ → ℝ} {n : ℕ} (hg : Grid x n) (hx : ∀ i < n, 0 < x i) (hn : 0 < n) {L : LogLogSpline}
    (hL : Built L x f n) (u : ℝ) : ∃ k, InPiece (fun k => Real.log (x k)) n k u ∧ ∃ o, L.evalDeriv (Real.exp u) = some o ∧
      o.val = (valPiece L n k u).val := by
  have hb := bin_log hg hx hn (Real.exp_pos u)
  rw [Real.log_exp] at hb
  have e0 := extrapolate_some L 0 (Real.exp_pos u)
  have e1 := extrapolate_some L (n - 1) (Real.exp_pos u)
  rw [LogLogSpline.evalDeriv, hL.en, hL.ex, if_neg hn.ne', ← hb]
  simp only
  rcases bin_cases (grid_log hg hx) hn u with ⟨h, h'⟩ | ⟨h, h'⟩ | ⟨h1, h2, h'⟩ | ⟨k, hk, h1, h2, _, h'⟩ <;> rw [h']
  · obtain ⟨o, ho⟩ := e0
    refine ⟨0, ⟨by omega, fun h' => absurd h' (lt_irrefl _), fun _ => h.le⟩, o, ?_, ?_⟩
    · rw [if_pos (by omega), ho]
    · simp only [valPiece, if_true, ho, Option.getD_some]
  · obtain ⟨o, ho⟩ := e1
    refine ⟨n, ⟨le_rfl, fun _ => h.le, fun h' => absurd h' (lt_irrefl _)⟩, o, ?_, ?_⟩
    · rw [if_neg (by omega), if_pos (by omega), ho]
    · simp only [valPiece, if_neg hn.ne', if_true, ho, Option.getD_some]
  · obtain ⟨o, ho⟩ := e1
    refine ⟨n, ⟨le_rfl, fun _ => by rw [h1]; exact h2.ge, fun h' => absurd h' (lt_irrefl _)⟩, o, ?_, ?_⟩
    · rw [if_neg (by omega), if_pos (by omega), ho]
    · simp only [valPiece, if_neg hn.ne', if_true, ho, Option.getD_some]
  · refine ⟨k + 1, ⟨by omega, fun _ => h1, fun _ => h2⟩, L.interpolate k (Real.exp u), ?_, ?_⟩
    · rw [if_neg (by omega), if_neg (by omega)]; rfl
    · rw [valPiece]
      simp only [if_neg (show ¬ k + 1 = 0 by omega), if_neg (show ¬ k + 1 = n by omega), Nat.add_sub_cancel]

theorem extrapolate_continuous (L : LogLogSpline) (j : ℕ) :
    Continuous (fun u => ((L.extrapolate j (Real.exp u)).getD ⟨0, 0, 0⟩).val) := by
  simp only [LogLogSpline.extrapolate]
  cases L.logfder j with
  | none => exact continuous_const
  | some s =>
    simp only [Real.exp_pos, not_le.2, if_false, Real.log_exp]
    by_cases h : s = 0
    · simp only [if_pos h]; exact continuous_const
    · simp only [if_neg h]
      exact continuous_const.mul (Real.continuous_exp.comp ((continuous_id.sub continuous_const).mul continuous_const))

open Classical in
theorem interpolate_continuous {x f : ℕ → ℝ} {n : ℕ} (hg : Grid x n) (hx : ∀ i < n, 0 < x i) {L : LogLogSpline}
    (hL : Built L x f n) {k : ℕ} (hk : k + 1 < n) : Continuous (fun u => (L.interpolate k (Real.exp u)).val) := by
  have hne := (hg k (k + 1) (by omega) hk).ne
  have hlne := (grid_log hg hx k (k + 1) (by omega) hk).ne
  have plain : ∀ d0 d1 : ℝ, Continuous (fun u =>
      (if L.nonnegative ∧ (evalCubic (Real.exp u) (x k) (x (k + 1)) (f k) (f (k + 1)) d0 d1).val ≤ 0 then (⟨0, 0, 0⟩ : Out)
      else ⟨(evalCubic (Real.exp u) (x k) (x (k + 1)) (f k) (f (k + 1)) d0 d1).val, (evalCubic (Real.exp u) (x k) (x (k + 1)) (f k) (f (k + 1)) d0 d1).der,
        (evalCubic (Real.exp u) (x k) (x (k + 1)) (f k) (f (k + 1)) d0 d1).der2⟩).val) := by
    intro d0 d1
    have c : Continuous (fun u => (evalCubic (Real.exp u) (x k) (x (k + 1)) (f k) (f (k + 1)) d0 d1).val) := by
      have : Continuous (fun t => (evalCubic t (x k) (x (k + 1)) (f k) (f (k + 1)) d0 d1).val) :=
        continuous_iff_continuousAt.2 fun t => (cubic_hasDeriv _ _ _ _ _ _ hne t).1.continuousAt
      exact this.comp Real.continuous_exp
    by_cases hnn : L.nonnegative
    · refine (c.max continuous_const (g := fun _ => (0 : ℝ))).congr fun u => ?_
      split_ifs with h
      · exact max_eq_right h.2
      · exact max_eq_left (by push Not at h; exact (h hnn).le)
    · refine c.congr fun u => ?_
      rw [if_neg (fun h => hnn h.1)]
  simp only [LogLogSpline.interpolate]
  cases h0 : L.logfder k with
  | none => simp only [hL.ex, hL.ef]; exact plain _ _
  | some s0 =>
    cases h1 : L.logfder (k + 1) with
    | none => simp only [hL.ex, hL.ef]; exact plain _ _
    | some s1 =>
      simp only [hL.ex, hL.ef, Real.log_exp]
      cases L.logfder2 with
      | none =>
        exact Real.continuous_exp.comp (continuous_iff_continuousAt.2 fun t => (cubic_hasDeriv _ _ _ _ _ _ hlne t).1.continuousAt)
      | some e =>
        exact Real.continuous_exp.comp (continuous_iff_continuousAt.2 fun t => (quintic_hasDeriv _ _ _ _ _ _ _ _ hlne t).1.continuousAt)

theorem built_continuous {x f : ℕ → ℝ} {n : ℕ} (hg : Grid x n) (hx : ∀ i < n, 0 < x i) (hn : 0 < n) {L : LogLogSpline}
    (hL : Built L x f n) : ∃ F : ℝ → Out, (∀ t, 0 < t → L.evalDeriv t = some (F t)) ∧ ∀ t, 0 < t → ContinuousAt (fun t => (F t).val) t := by
  have hg' := grid_log hg hx
  choose k hk o ho hv using val_piece hg hx hn hL
  have key : ∀ u, ContinuousAt (fun u => (o u).val) u := by
    intro u
    have := glue_continuous hg' hn (pieces := valPiece L n) (S := fun u => valPiece L n (k u) u) (fun u => ⟨k u, hk u, rfl⟩) Jet3.val
      (t := u) ?_ ?_
    · exact this.congr (Filter.Eventually.of_forall fun s => (hv s).symm)
    · rintro i hi rfl
      have en : ∀ j < n, ((L.extrapolate j (Real.exp (Real.log (x j)))).getD ⟨0, 0, 0⟩).val = f j := by
        intro j hj
        obtain ⟨o, h1, h2⟩ := ext_node hx hL j hj
        rw [Real.exp_log (hx j hj), h1]; exact h2
      have sn := seg_node hg hx hL
      have eL : (valPiece L n i (Real.log (x i))).val = f i := by
        simp only [valPiece]
        split_ifs with h1 h2
        · subst h1; exact en 0 hi
        · omega
        · have := (sn (i - 1) (by omega)).2
          rw [Real.exp_log (hx i hi)]
          rwa [show i - 1 + 1 = i by omega] at this
      have eR : (valPiece L n (i + 1) (Real.log (x i))).val = f i := by
        simp only [valPiece, if_neg (Nat.succ_ne_zero i)]
        split_ifs with h2
        · subst h2; exact en i hi
        · rw [Real.exp_log (hx i hi)]
          exact (sn i (by have := hi; omega)).1
      rw [eL, eR]
    · intro j hj
      simp only [valPiece]
      by_cases h0 : j = 0
      · simp only [if_pos h0]; exact (extrapolate_continuous L 0).continuousAt
      · by_cases h1 : j = n
        · simp only [if_neg h0, if_pos h1]; exact (extrapolate_continuous L (n - 1)).continuousAt
        · simp only [if_neg h0, if_neg h1]
          exact (interpolate_continuous hg hx hL (k := j - 1) (by have := hj.1; omega)).continuousAt
  refine ⟨fun t => o (Real.log t), ?_, ?_⟩
  · intro t ht
    have := ho (Real.log t)
    rwa [Real.exp_log ht] at this
  · intro t ht
    exact (key (Real.log t)).comp (f := Real.log) (Real.continuousAt_log ht.ne')

/-- C111: whatever the values (also zero and negative), both constructors produce a function which is continuous on the positive
half-line. -/
theorem C111_continuous (x f d : ℕ → ℝ) (n : ℕ) (hg : Grid x n) (hx : ∀ i < n, 0 < x i) (hn : 0 < n) (dl dr : Option ℝ) :
    ∃ L M, create x f n dl dr = some L ∧ createQuintic x f d n = some M ∧ ∃ F G : ℝ → Out,
      (∀ t, 0 < t → L.evalDeriv t = some (F t) ∧ M.evalDeriv t = some (G t)) ∧
      ∀ t, 0 < t → ContinuousAt (fun t => (F t).val) t ∧ ContinuousAt (fun t => (G t).val) t := by
  obtain ⟨L, hL, bL⟩ := create_built hg hx f dl dr
  obtain ⟨M, hM, bM⟩ := createQuintic_built hg hx f d
  obtain ⟨F, h1, h2⟩ := built_continuous hg hx hn bL
  obtain ⟨G, h3, h4⟩ := built_continuous hg hx hn bM
  exact ⟨L, M, hL, hM, F, G, fun t ht => ⟨h1 t ht, h3 t ht⟩, fun t ht => ⟨h2 t ht, h4 t ht⟩⟩

/-! ## Exactness of the quintic variant -/

/-- C112: a power law and its derivatives are reproduced exactly, for all positive arguments. -/
theorem C112_powerLaw (x : ℕ → ℝ) (n : ℕ) (hg : Grid x n) (hx : ∀ i < n, 0 < x i) (hn : 2 ≤ n) (A s : ℝ) (hA : 0 < A) :
    ∃ L, createQuintic x (fun i => A * x i ^ s) (fun i => A * s * x i ^ (s - 1)) n = some L ∧
      ∀ t, 0 < t → ∃ o, L.evalDeriv t = some o ∧ o.val = A * t ^ s ∧ o.der = A * s * t ^ (s - 1) ∧
        o.der2 = A * s * (s - 1) * t ^ (s - 2) := by
  have hf : ∀ i < n, 0 < A * x i ^ s := fun i hi => mul_pos hA (Real.rpow_pos_of_pos (hx i hi) _)
  have hg' := grid_log hg hx
  have dlog : ∀ i < n, x i * (A * s * x i ^ (s - 1)) / (A * x i ^ s) = s := by
    intro i hi
    have := hx i hi
    have p := Real.rpow_pos_of_pos this s
    rw [Real.rpow_sub this, Real.rpow_one]
    field_simp
  have lin : ∀ i < n, Real.log (A * x i ^ s) = Real.log A + s * Real.log (x i) := by
    intro i hi
    rw [Real.log_mul hA.ne' (Real.rpow_pos_of_pos (hx i hi) _).ne', Real.log_rpow (hx i hi)]
  have hh : ∀ i, i + 1 < n → Real.log (x (i + 1)) - Real.log (x i) ≠ 0 := fun i hi => sub_ne_zero.2 (hg' i (i + 1) (by omega) hi).ne'
  have sec : ∀ i, i + 1 < n → secant x (fun i => A * x i ^ s) i = s := by
    intro i hi
    have := hh i hi
    rw [secant, lin (i + 1) hi, lin i (by omega)]
    field_simp; ring
  have hm : Moderate x (fun i => A * x i ^ s) (fun i => A * s * x i ^ (s - 1)) n := by
    have := abs_nonneg s
    refine ⟨?_, ?_, ?_, ?_⟩
    · intro i h0 hi; rw [dlog i hi, sec (i - 1) (by omega)]; linarith
    · intro i hi; rw [dlog i (by omega), sec i hi]; linarith
    · rw [dlog 0 (by omega), sec 0 (by omega)]; exact mul_self_nonneg s
    · rw [dlog (n - 1) (by omega), sec (n - 2) (by omega)]; exact mul_self_nonneg s
  obtain ⟨L, e, e', hL, h1, h2, h3, h4, he, hc, h5⟩ := quintic_positive hg hx hf hn hm
  refine ⟨L, hL, ?_⟩
  obtain ⟨e0, he0, _, hu⟩ := quintic_solve hg' hn (fun k => Real.log (A * x k ^ s)) (fun k => x k * (A * s * x k ^ (s - 1)) / (A * x k ^ s))
  rw [hc, Option.some.injEq] at he0
  subst he0
  have sm : QSmooth (fun k => Real.log (x k)) (fun k => Real.log (A * x k ^ s)) (fun k => x k * (A * s * x k ^ (s - 1)) / (A * x k ^ s))
      (fun _ => 0) n := by
    refine ⟨?_, ?_, ?_⟩
    · intro i hi
      have a := hh i (by omega)
      have b := hh (i + 1) hi
      rw [dlog i (by omega), dlog (i + 1) (by omega), dlog (i + 2) hi, lin i (by omega), lin (i + 1) (by omega), lin (i + 2) hi,
        third1, third0]
      field_simp; ring
    · have a := hh 0 (by omega)
      rw [dlog 0 (by omega), dlog 1 (by omega), lin 0 (by omega), lin 1 (by omega), fourth0]
      simp only [zero_add] at a
      field_simp; ring
    · have a := hh (n - 2) (by omega)
      rw [show n - 2 + 1 = n - 1 by omega] at a
      rw [dlog (n - 2) (by omega), dlog (n - 1) (by omega), lin (n - 2) (by omega), lin (n - 1) (by omega), fourth1]
      field_simp; ring
  have ez : ∀ i < n, e i = 0 := fun i hi => (hu _ sm i hi).symm
  intro t ht
  rw [quintic_eval hg hx hf (by omega) h1 h2 h3 h4 he h5 ht]
  obtain ⟨k, hk, hp⟩ := quintic_piece hg' (by omega) (fun k => Real.log (A * x k ^ s)) (fun k => x k * (A * s * x k ^ (s - 1)) / (A * x k ^ s)) e
    (Real.log t)
  rw [hp]
  refine ⟨_, rfl, ?_⟩
  have hj : (quinticPiece (fun k => Real.log (x k)) (fun k => Real.log (A * x k ^ s)) (fun k => x k * (A * s * x k ^ (s - 1)) / (A * x k ^ s)) e n k
      (Real.log t)).val = Real.log A + s * Real.log t ∧ (quinticPiece (fun k => Real.log (x k)) (fun k => Real.log (A * x k ^ s))
      (fun k => x k * (A * s * x k ^ (s - 1)) / (A * x k ^ s)) e n k (Real.log t)).der = s ∧ (quinticPiece (fun k => Real.log (x k))
      (fun k => Real.log (A * x k ^ s)) (fun k => x k * (A * s * x k ^ (s - 1)) / (A * x k ^ s)) e n k (Real.log t)).der2 = 0 := by
    rw [quinticPiece]
    split_ifs with h1 h2
    · rw [linPiece, dlog 0 (by omega), lin 0 (by omega)]
      refine ⟨by ring, rfl, rfl⟩
    · rw [linPiece, dlog (n - 1) (by omega), lin (n - 1) (by omega)]
      refine ⟨by ring, rfl, rfl⟩
    · have kn : k < n := by have := hk.1; omega
      have a := hh (k - 1) (by omega)
      rw [show k - 1 + 1 = k by omega] at a
      rw [ez k kn, ez (k - 1) (by omega), dlog k kn, dlog (k - 1) (by omega), lin k kn, lin (k - 1) (by omega), evalQuintic]
      split_ifs with hx'
      · rw [hx']; exact ⟨rfl, rfl, rfl⟩
      · refine ⟨?_, ?_, ?_⟩ <;> (field_simp; ring)
  have ep : Real.exp (Real.log A + s * Real.log t) = A * t ^ s := by
    rw [Real.exp_add, Real.exp_log hA, Real.rpow_def_of_pos ht, mul_comm s]
  simp only [expOut, hj.1, hj.2.1, hj.2.2, ep]
  refine ⟨trivial, ?_, ?_⟩
  · rw [Real.rpow_sub ht, Real.rpow_one]; ring
  · rw [Real.rpow_sub ht, Real.rpow_two]; ring

/-! ## Concrete cases and refutations -/

theorem exp_grid (n : ℕ) : Grid (fun i => Real.exp i) n := fun i j h _ => Real.exp_lt_exp.2 (by exact_mod_cast h)

/-- The points 1, e, e^2 with the values 1, e, e^2 and derivatives 3 are moderate. -/
theorem steep_moderate : Moderate (fun i => Real.exp i) (fun i => Real.exp i) (fun _ => 3) 3 := by
  have sl : ∀ i : ℕ, Real.exp i * 3 / Real.exp i = 3 := fun i => by
    have := (Real.exp_pos (i : ℝ)).ne'
    field_simp
  have se : ∀ i, secant (fun i => Real.exp i) (fun i => Real.exp i) i = 1 := by
    intro i
    simp only [secant, Real.log_exp]
    push_cast
    ring_nf
  constructor
  · intro i _ _; simp only [sl, se]; norm_num
  · intro i _; simp only [sl, se]; norm_num
  · simp only [sl, se]; norm_num
  · simp only [sl, se]; norm_num

/-- C112: contrary to the intention stated in the code (math_spline.cpp:1603: the points for which the interpolation would be
non-monotonic are excluded), the quintic variant is not monotone for some increasing positive data with moderate slopes: the
check is sufficient for cubic interpolation only. -/
theorem C112_refuted_monotone : ∃ x f d : ℕ → ℝ, ∃ n, Grid x n ∧ (∀ i < n, 0 < x i) ∧ (∀ i < n, 0 < f i) ∧ 2 ≤ n ∧
    Moderate x f d n ∧ (∀ i, i + 1 < n → f i < f (i + 1)) ∧ (∀ i < n, 0 < d i) ∧
    ∃ L, createQuintic x f d n = some L ∧ ∃ s t o p, x 0 < s ∧ s < t ∧ t < x 1 ∧ L.evalDeriv s = some o ∧
      L.evalDeriv t = some p ∧ p.val < o.val := by
  have hg := exp_grid 3
  have hx : ∀ i < 3, 0 < Real.exp ((i : ℕ) : ℝ) := fun i _ => Real.exp_pos _
  refine ⟨fun i => Real.exp i, fun i => Real.exp i, fun _ => 3, 3, hg, hx, hx, by norm_num, steep_moderate,
    fun i _ => Real.exp_lt_exp.2 (by push_cast; linarith), fun _ _ => by norm_num, ?_⟩
  obtain ⟨L, e, e', hL, h1, h2, h3, h4, he, hc, h5⟩ := quintic_positive hg hx hx (by norm_num) steep_moderate
  refine ⟨L, hL, Real.exp 0.4, Real.exp 0.6, ?_⟩
  have hg' := grid_log hg hx
  obtain ⟨e0, he0, _, hu⟩ := quintic_solve hg' (by norm_num) (fun k => Real.log (Real.exp (k : ℝ))) (fun k => Real.exp (k : ℝ) * 3 / Real.exp (k : ℝ))
  rw [hc, Option.some.injEq] at he0
  subst he0
  have sl : ∀ i : ℕ, Real.exp i * 3 / Real.exp i = 3 := fun i => by
    have := (Real.exp_pos (i : ℝ)).ne'
    field_simp
  have sm := hu (fun i => if i = 0 then -20 else if i = 1 then 0 else 20) (by
    refine ⟨?_, ?_, ?_⟩
    · intro i hi
      obtain rfl : i = 0 := by omega
      simp only [Real.log_exp, sl, third1, third0]
      norm_num
    · simp only [Real.log_exp, sl, fourth0]; norm_num
    · simp only [Real.log_exp, sl, fourth1]; norm_num)
  have a0 := sm 0 (by norm_num)
  have a1 := sm 1 (by norm_num)
  simp only [if_true, one_ne_zero, if_false] at a0 a1
  have ev : ∀ u : ℝ, 0 < u → u < 1 → ∃ o, L.evalDeriv (Real.exp u) = some o ∧
      o.val = Real.exp (evalQuintic u 0 1 0 1 3 3 (-20) 0).val := by
    intro u u0 u1
    rw [quintic_eval hg hx hx (by norm_num) h1 h2 h3 h4 he h5 (Real.exp_pos u), Real.log_exp]
    obtain ⟨k, hk, hp⟩ := quintic_piece hg' (by norm_num) (fun k => Real.log (Real.exp (k : ℝ))) (fun k => Real.exp (k : ℝ) * 3 / Real.exp (k : ℝ)) e u
    rw [hp]
    refine ⟨_, rfl, ?_⟩
    have k1 : k = 1 := by
      obtain ⟨q1, q2, q3⟩ := hk
      simp only [Real.log_exp] at q2 q3
      rcases Nat.lt_or_ge k 1 with h | h
      · have := q3 (by omega)
        have : k = 0 := by omega
        subst this
        push_cast at *
        linarith
      · by_contra hne
        have := q2 (by omega)
        have h2 : (1 : ℝ) ≤ ((k - 1 : ℕ) : ℝ) := by exact_mod_cast (show 1 ≤ k - 1 by omega)
        linarith
    subst k1
    simp only [expOut, quinticPiece, one_ne_zero, if_false, show ¬ (1 : ℕ) = 3 by norm_num, Real.log_exp, sl, Nat.sub_self, ← a0, ← a1]
    push_cast
    rfl
  obtain ⟨o, o1, o2⟩ := ev 0.4 (by norm_num) (by norm_num)
  obtain ⟨p, p1, p2⟩ := ev 0.6 (by norm_num) (by norm_num)
  refine ⟨o, p, ?_, Real.exp_lt_exp.2 (by norm_num), ?_, o1, p1, ?_⟩
  · exact Real.exp_lt_exp.2 (by norm_num)
  · exact Real.exp_lt_exp.2 (by norm_num)
  · rw [o2, p2]
    apply Real.exp_lt_exp.2
    simp only [evalQuintic]
    norm_num

/-- The hypotheses of C111 are met by the points 1, e, e^2 with the values 5, 2, 1 and the end slopes -3, none. -/
example : ∃ L, create (fun i => Real.exp i) (fun i => if i = 0 then 5 else if i = 1 then 2 else 1) 3 (some (-3)) none = some L ∧
    ∃ F : ℝ → Out, (∀ t, 0 < t → L.evalDeriv t = some (F t)) ∧ AntitoneOn (fun t => (F t).val) (Set.Ioi 0) ∧ (F (Real.exp 1)).val = 2 := by
  obtain ⟨L, hL, F, h1, h2, _, h4⟩ := C111_positive (fun i => Real.exp i) (fun i => if i = 0 then 5 else if i = 1 then 2 else 1) 3
    (exp_grid 3) (fun i _ => Real.exp_pos _) (fun i _ => by split_ifs <;> norm_num) (by norm_num) (some (-3)) none
  refine ⟨L, hL, F, h1, h4 ?_, ?_⟩
  · intro i hi
    obtain rfl | rfl : i = 0 ∨ i = 1 := by omega
    · norm_num
    · norm_num
  · have := h2.nodes 1 (by norm_num)
    simpa using this

/-- The hypotheses of C111 for the end slopes: 1, e, e^2 with the values 1, e, e^2 and the slope 2 at the left end. -/
example : ∃ L, create (fun i => Real.exp i) (fun i => Real.exp i) 3 (some 2) none = some L ∧
    ∃ F : ℝ → Out, (∀ t, 0 < t → L.evalDeriv t = some (F t)) ∧ (F 1).der = 2 := by
  obtain ⟨L, hL, F, h1, h2, _⟩ := C111_endSlopes (fun i => Real.exp i) (fun i => Real.exp i) 3 (exp_grid 3)
    (fun i _ => Real.exp_pos _) (fun i _ => Real.exp_pos _) (by norm_num) (some 2) none (by
      intro h
      have := (h 0 (by norm_num)).2
      simp only [Nat.cast_zero, Real.exp_zero] at this
      have h2 := Real.add_one_lt_exp (show ((2 : ℕ) : ℝ) ≠ 0 by norm_num)
      norm_num at this h2
      linarith)
  refine ⟨L, hL, F, h1, ?_⟩
  have := h2 2 rfl ⟨2, by norm_num, by unfold THREE; norm_num, by simp [secant]⟩
  simpa using this

/-- The hypotheses of C111 for arbitrary data: values of all signs. -/
example : ∃ L M, create (fun i => Real.exp i) (fun i => (i : ℝ) - 1) 3 none none = some L ∧
    createQuintic (fun i => Real.exp i) (fun i => (i : ℝ) - 1) (fun _ => 1) 3 = some M ∧
    ∃ o p, L.evalDeriv (Real.exp 1) = some o ∧ o.val = 0 ∧ M.evalDeriv (Real.exp 1) = some p ∧ p.val = 0 := by
  obtain ⟨L, M, hL, hM, h, _⟩ := C111_any (fun i => Real.exp i) (fun i => (i : ℝ) - 1) (fun _ => 1) 3 (exp_grid 3)
    (fun i _ => Real.exp_pos _) (by norm_num) none none
  refine ⟨L, M, hL, hM, ?_⟩
  simpa using h 1 (by norm_num)

/-- C111: the derivative is not continuous, and the value not differentiable, at an end of the grid where the adjacent value is
not positive: there the extrapolation is constant, whatever the slope of the interpolator. -/
theorem C111_refuted_smooth : ∃ x f : ℕ → ℝ, ∃ n, Grid x n ∧ (∀ i < n, 0 < x i) ∧ (∀ i < n, 0 ≤ f i) ∧ 2 ≤ n ∧ 0 < f (n - 1) ∧
    ∃ L, create x f n none none = some L ∧ ∀ F : ℝ → Out, (∀ t, 0 < t → L.evalDeriv t = some (F t)) →
      ¬ DifferentiableAt ℝ (fun t => (F t).val) (x (n - 1)) := by
  have hg : Grid (fun i => (i : ℝ) + 1) 2 := fun i j h _ => by
    have : (i : ℝ) < j := by exact_mod_cast h
    simp only; linarith
  have hx : ∀ i < 2, 0 < ((i : ℕ) : ℝ) + 1 := fun i _ => by positivity
  refine ⟨fun i => (i : ℝ) + 1, fun i => (i : ℝ), 2, hg, hx, fun i _ => Nat.cast_nonneg _, le_rfl, by norm_num, ?_⟩
  obtain ⟨d0, c0, sm⟩ := construct_smooth hg le_rfl (fun i => (i : ℝ)) none none (fun _ => rfl)
  have hd0 : d0 0 = 1 ∧ d0 1 = 1 := by
    have l := sm.left
    have r := sm.right
    have c := curv_eq hg (fun i => (i : ℝ)) d0 (show 0 + 1 < 2 by norm_num)
    simp only [EndCond] at l r
    rw [c.1, slope2, hinv] at l
    rw [show 2 - 2 = 0 from rfl, c.2, slope2, hinv] at r
    norm_num at l r
    constructor <;> linarith
  have hne : ¬ ∃ i < 2, ((i : ℕ) : ℝ) + 1 ≤ 0 := by
    rintro ⟨i, hi, h⟩; have := hx i hi; linarith
  set L : LogLogSpline := ⟨2, fun i => (i : ℝ) + 1, fun i => (i : ℝ),
    regularizeSpline (fun i => (i : ℝ) + 1) (fun i => (i : ℝ)) 2 d0, fun _ => none, none⟩ with hL
  have hc : create (fun i => (i : ℝ) + 1) (fun i => (i : ℝ)) 2 none none = some L := by
    simp only [create, c0, if_neg hne, Option.bind_eq_bind, Option.bind_some]
    have : (List.range (2 + 1)).foldlM (cubicStep (fun i => (i : ℝ) + 1) (fun i => (i : ℝ)) 2 none none) (0, fun _ => none) =
        some (0, fun _ => none) := by
      simp [List.range_succ, cubicStep]
    rw [this]
    rfl
  refine ⟨L, hc, ?_⟩
  intro F hF hdiff
  have er : regularizeSpline (fun i => (i : ℝ) + 1) (fun i => (i : ℝ)) 2 d0 0 = 1 ∧
      regularizeSpline (fun i => (i : ℝ) + 1) (fun i => (i : ℝ)) 2 d0 1 = 1 := by
    constructor <;>
    · simp only [regularizeSpline, hd0.1, hd0.2]
      norm_num [clip, THREE]
  have vl : ∀ t, 1 < t → t < 2 → (F t).val = t - 1 := by
    intro t t1 t2
    have h := hF t (by linarith)
    have hb : bin (fun i => (i : ℝ) + 1) 2 t = 0 := by
      rcases bin_cases hg (by norm_num) t with ⟨h, _⟩ | ⟨h, _⟩ | ⟨h, _⟩ | ⟨k, hk, _, _, _, hb⟩
      · norm_num at h; linarith
      · norm_num at h; linarith
      · omega
      · rw [hb]; omega
    have ev : (evalCubic t (((0 : ℕ) : ℝ) + 1) (((0 + 1 : ℕ) : ℝ) + 1) ((0 : ℕ) : ℝ) ((0 + 1 : ℕ) : ℝ)
        (regularizeSpline (fun i => (i : ℝ) + 1) (fun i => (i : ℝ)) 2 d0 0)
        (regularizeSpline (fun i => (i : ℝ) + 1) (fun i => (i : ℝ)) 2 d0 (0 + 1))).val = t - 1 := by
      rw [zero_add, er.1, er.2]
      simp only [evalCubic]; norm_num
    have e : L.interpolate 0 t = F t := by
      have : L.evalDeriv t = some (L.interpolate 0 t) := by
        rw [LogLogSpline.evalDeriv]
        simp only [show L.n = 2 from rfl, show L.xval = fun i : ℕ => (i : ℝ) + 1 from rfl, hb]
        norm_num
      rw [this, Option.some.injEq] at h
      exact h
    rw [← e]
    have ei : L.interpolate 0 t = _ := LogLogSpline.interpolate.eq_def L 0 t
    simp only [hL] at ei ⊢
    rw [ei, ev, if_neg (by rintro ⟨_, h⟩; linarith)]
  have vr : ∀ t, 2 < t → (F t).val = 1 := by
    intro t t2
    have h := hF t (by linarith)
    have hb : bin (fun i => (i : ℝ) + 1) 2 t = 1 := by
      rcases bin_cases hg (by norm_num) t with ⟨h, _⟩ | ⟨h, hb⟩ | ⟨h, _⟩ | ⟨k, hk, _, h, _, hb⟩
      · norm_num at h; linarith
      · rw [hb]; norm_num
      · omega
      · have : k = 0 := by omega
        subst this
        norm_num at h; linarith
    simp only [LogLogSpline.evalDeriv, hL, hb] at h
    norm_num [LogLogSpline.extrapolate] at h
    rw [← h]
  have ep : (fun i : ℕ => (i : ℝ) + 1) (2 - 1) = 2 := by norm_num
  rw [ep] at hdiff
  obtain ⟨D, hD⟩ : ∃ D, HasDerivAt (fun t => (F t).val) D 2 := ⟨_, hdiff.hasDerivAt⟩
  have cont := hD.continuousAt
  have v2 : (F 2).val = 1 := by
    have h := hF 2 (by norm_num)
    have b := built_nodes hg hx (by norm_num) (L := L) ⟨rfl, rfl, rfl, fun j v h => by simp [hL] at h⟩ (show 1 < 2 by norm_num)
    obtain ⟨o, h1, h2⟩ := b
    norm_num at h1 h2
    rw [h, Option.some.injEq] at h1
    rw [h1, h2]
  have dl : HasDerivWithinAt (fun t => (F t).val) 1 (Set.Iic 2) 2 := by
    have : HasDerivWithinAt (fun t : ℝ => t - 1) 1 (Set.Iic 2) 2 := ((hasDerivAt_id 2).sub_const 1).hasDerivWithinAt
    refine this.congr_of_eventuallyEq ?_ (by rw [v2]; norm_num)
    filter_upwards [mem_nhdsWithin_of_mem_nhds (Ioi_mem_nhds (show (1 : ℝ) < 2 by norm_num)), self_mem_nhdsWithin] with t h1 h2
    rcases (Set.mem_Iic.1 h2).eq_or_lt with h | h
    · rw [h, v2]; norm_num
    · exact vl t h1 h
  have dr : HasDerivWithinAt (fun t => (F t).val) 0 (Set.Ici 2) 2 := by
    refine (hasDerivWithinAt_const (x := 2) (s := Set.Ici 2) (c := (1 : ℝ))).congr_of_eventuallyEq ?_ v2
    filter_upwards [self_mem_nhdsWithin] with t h2
    rcases (Set.mem_Ici.1 h2).eq_or_lt with h | h
    · rw [← h, v2]
    · exact vr t h
  have e1 := (uniqueDiffWithinAt_Iic (2 : ℝ)).eq_deriv _ dl hD.hasDerivWithinAt
  have e2 := (uniqueDiffWithinAt_Ici (2 : ℝ)).eq_deriv _ dr hD.hasDerivWithinAt
  linarith

/-- **C112** At an interior point with a positive value and nonnegative neighbours, the logarithmic interpolation is switched off
precisely when the logarithmic slope exceeds three times the logarithmic secant on one of the sides where the neighbour
is positive (a zero neighbour does not count). -/
theorem C112_excluded {x f d : ℕ → ℝ} {n i : ℕ} (h0 : 0 < i) (h1 : i + 1 < n) (hl : 0 ≤ f (i - 1)) (hi : 0 < f i) (hr : 0 ≤ f (i + 1)) :
    excluded x f d n i ↔
      (0 < f (i - 1) ∧ 3 * |secant x f (i - 1)| < |x i * d i / f i|) ∨ (0 < f (i + 1) ∧ 3 * |secant x f i| < |x i * d i / f i|) := by
  have top : fabs ⊤ = ⊤ := by rw [fabs, if_neg (by simp)]
  have bot : fabs ⊥ = ⊤ := by rw [fabs, if_pos (by simp)]; simp
  have ei : i - 1 + 1 = i := by omega
  have c3 : ∀ s a : ℝ, 3 * ((|s| : ℝ) : EReal) < ((|a| : ℝ) : EReal) ↔ 3 * |s| < |a| := by
    intro s a
    rw [show (3 : EReal) = ((3 : ℝ) : EReal) from rfl, ← EReal.coe_mul, EReal.coe_lt_coe_iff]
  have ct : ∀ a : ℝ, ¬ 3 * (⊤ : EReal) < ((|a| : ℝ) : EReal) := by
    intro a
    rw [EReal.mul_top_of_pos (by norm_num)]
    exact not_top_lt
  have L : (logSlope x f (i - 1)).map fabs = some (if 0 < f (i - 1) then ((|secant x f (i - 1)| : ℝ) : EReal) else ⊤) := by
    unfold logSlope
    rw [ei, if_neg (by push Not; exact ⟨hl, hi.le⟩)]
    by_cases h : f (i - 1) = 0
    · rw [if_pos h, if_neg hi.ne', if_neg (by rw [h]; exact lt_irrefl _)]
      simp [top]
    · have hp : 0 < f (i - 1) := lt_of_le_of_ne hl (Ne.symm h)
      rw [if_neg h, if_neg hi.ne', if_pos hp, Option.map_some, fabs_coe]
      simp only [secant, ei]
  have R : (logSlope x f i).map fabs = some (if 0 < f (i + 1) then ((|secant x f i| : ℝ) : EReal) else ⊤) := by
    unfold logSlope
    rw [if_neg (by push Not; exact ⟨hi.le, hr⟩), if_neg hi.ne']
    by_cases h : f (i + 1) = 0
    · rw [if_pos h, if_neg (by rw [h]; exact lt_irrefl _)]
      simp [bot]
    · have hp : 0 < f (i + 1) := lt_of_le_of_ne hr (Ne.symm h)
      rw [if_neg h, if_pos hp, Option.map_some, fabs_coe]
      simp only [secant]
  rw [excluded.eq_def]
  simp only
  rw [if_pos (show i > 0 from h0), if_pos h1, L, R]
  simp only [stdMin, Option.some.injEq, exists_eq_left']
  have n1 : ¬ (i = 0 ∧ ∃ s, logSlope x f i = some s ∧ ((x i * d i / f i : ℝ) : EReal) * s < 0) := fun h => by omega
  have n2 : ¬ (i + 1 = n ∧ ∃ s, logSlope x f (i - 1) = some s ∧ ((x i * d i / f i : ℝ) : EReal) * s < 0) := fun h => by omega
  simp only [hi, not_true_eq_false, n1, n2, false_or]
  by_cases a : 0 < f (i - 1) <;> by_cases b : 0 < f (i + 1)
  · simp only [a, b, if_true, true_and]
    by_cases hlt : ((|secant x f i| : ℝ) : EReal) < ((|secant x f (i - 1)| : ℝ) : EReal)
    · rw [if_pos hlt, c3]
      rw [EReal.coe_lt_coe_iff] at hlt
      constructor
      · exact Or.inr
      · rintro (h | h)
        · linarith
        · exact h
    · rw [if_neg hlt, c3]
      rw [EReal.coe_lt_coe_iff, not_lt] at hlt
      constructor
      · exact Or.inl
      · rintro (h | h)
        · exact h
        · linarith
  · simp only [a, b, if_true, if_false, true_and, false_and, or_false]
    rw [if_neg not_top_lt, c3]
  · simp only [a, b, if_true, if_false, true_and, false_and, false_or]
    rw [if_pos (EReal.coe_lt_top _), c3]
  · simp only [a, b, if_false, false_and, or_false]
    rw [if_neg (lt_irrefl _)]
    exact iff_false_intro (ct _)

example : (0 : ℝ) ≤ (fun i : ℕ => (i : ℝ)) (1 - 1) ∧ (0 : ℝ) < (fun i : ℕ => (i : ℝ)) 1 ∧ (0 : ℝ) ≤ (fun i : ℕ => (i : ℝ)) (1 + 1) := by norm_num

end

end Verif.Spline.LogLog
