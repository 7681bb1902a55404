import Mathlib.Analysis.SpecialFunctions.Log.Deriv
import Mathlib.Analysis.SpecialFunctions.Pow.Real
import Verif.Spline.LogLogBase

/-! C111, C112: the doubly-logarithmic spline (/repo/src/math_spline.cpp:1489-1720). Exact real arithmetic. -/
namespace Verif.Spline.LogLog

open Verif.BSpline (Grid)
open Verif.Spline

noncomputable section

/-! ## Specification -/

/-- What a user of the interpolator of positive data relies on, for positive arguments: it takes the given values at the nodes
and is positive; the reported first derivative is the derivative of the value and is continuous; between the nodes and outside
of the grid the reported second derivative is the derivative of the first one; outside of the grid the function is the power
law through the end point with the logarithmic slope that the interpolator has at this point. -/
structure PowerSpline (x f : ℕ → ℝ) (n : ℕ) (F : ℝ → Out) : Prop where
  nodes : ∀ i < n, (F (x i)).val = f i
  pos : ∀ t, 0 < t → 0 < (F t).val
  deriv : ∀ t, 0 < t → HasDerivAt (fun t => (F t).val) (F t).der t
  cont : ∀ t, 0 < t → ContinuousAt (fun t => (F t).der) t
  deriv2 : ∀ t, 0 < t → (∀ i < n, t ≠ x i) → HasDerivAt (fun t => (F t).der) (F t).der2 t
  left : ∀ t, 0 < t → t ≤ x 0 → (F t).val = f 0 * (t / x 0) ^ (x 0 * (F (x 0)).der / f 0)
  right : ∀ t, x (n - 1) ≤ t → (F t).val = f (n - 1) * (t / x (n - 1)) ^ (x (n - 1) * (F (x (n - 1))).der / f (n - 1))

/-! ## Evaluation -/

/-- The function exp(S(ln t)) and its derivatives. -/
def expOut (t : ℝ) (j : Jet3) : Out :=
  ⟨Real.exp j.val, j.der * Real.exp j.val / t, (j.der2 + j.der * (j.der - 1)) * Real.exp j.val / t ^ 2⟩

theorem extrapolate_eq {L : LogLogSpline} {i : ℕ} {s t : ℝ} (hs : L.logfder i = some s) (hf : 0 < L.fval i) (ht : 0 < t) :
    L.extrapolate i t = some (expOut t ⟨Real.log (L.fval i) + (if s = 0 then 0 else s * (Real.log t - Real.log (L.xval i))), s, 0, 0⟩) := by
  rw [LogLogSpline.extrapolate]
  simp only [hs]
  by_cases h : s = 0
  · rw [if_pos h, if_pos h, h, expOut]
    simp [Real.exp_log hf]
  · rw [if_neg h, if_neg (not_le.2 ht), if_neg h, expOut]
    simp only [Real.exp_add, Real.exp_log hf, Option.some.injEq, Out.mk.injEq]
    refine ⟨by rw [mul_comm s], by rw [mul_comm s (Real.log t - _)]; ring, by rw [mul_comm s (Real.log t - _)]; ring⟩

theorem cubic_eval {x f d : ℕ → ℝ} {n : ℕ} (hg : Grid x n) (hx : ∀ i < n, 0 < x i) (hf : ∀ i < n, 0 < f i) (hn : 0 < n)
    {L : LogLogSpline} (h1 : L.n = n) (h2 : L.xval = x) (h3 : L.fval = f) (h4 : L.logfder2 = none)
    (h5 : ∀ i < n, L.logfder i = some (d i)) {t : ℝ} (ht : 0 < t) :
    L.evalDeriv t = (CubicSpline.evalDeriv (fun k => Real.log (x k)) (fun k => Real.log (f k)) d n (Real.log t)).map (expOut t) := by
  rw [LogLogSpline.evalDeriv, CubicSpline.evalDeriv, bin_log hg hx hn ht, h1, h2, if_neg hn.ne', if_neg hn.ne']
  simp only
  rcases bin_cases hg hn t with ⟨h, hb⟩ | ⟨h, hb⟩ | ⟨g1, g2, hb⟩ | ⟨k, hk, g1, g2, _, hb⟩ <;> rw [hb]
  · simp only [if_pos (show (-1 : ℤ) < 0 by omega), extrapolate_eq (h5 0 hn) (by rw [h3]; exact hf 0 hn) ht, h2, h3]; rfl
  · simp only [if_neg (show ¬ ((n : ℤ) - 1 < 0) by omega), if_pos (show (n : ℤ) - 1 ≥ n - 1 by omega),
      extrapolate_eq (h5 (n - 1) (by omega)) (by rw [h3]; exact hf _ (by omega)) ht, h2, h3]; rfl
  · simp only [lt_irrefl, if_false, if_pos (show (0 : ℤ) ≥ n - 1 by omega),
      extrapolate_eq (h5 (n - 1) (by omega)) (by rw [h3]; exact hf _ (by omega)) ht, h2, h3]; rfl
  · simp only [if_neg (show ¬ ((k : ℤ) < 0) by omega), if_neg (show ¬ ((k : ℤ) ≥ n - 1) by omega), LogLogSpline.interpolate]
    simp only [Int.toNat_natCast, h5 k (by omega), h5 (k + 1) hk, h4, h2, h3]
    rfl

theorem quintic_eval {x f d e e' : ℕ → ℝ} {n : ℕ} (hg : Grid x n) (hx : ∀ i < n, 0 < x i) (hf : ∀ i < n, 0 < f i) (hn : 0 < n)
    {L : LogLogSpline} (h1 : L.n = n) (h2 : L.xval = x) (h3 : L.fval = f) (h4 : L.logfder2 = some e') (he : ∀ i < n, e' i = e i)
    (h5 : ∀ i < n, L.logfder i = some (d i)) {t : ℝ} (ht : 0 < t) :
    L.evalDeriv t = (QuinticSpline.evalDeriv (fun k => Real.log (x k)) (fun k => Real.log (f k)) d e n (Real.log t)).map (expOut t) := by
  rw [LogLogSpline.evalDeriv, QuinticSpline.evalDeriv, bin_log hg hx hn ht, h1, h2, if_neg hn.ne', if_neg hn.ne']
  simp only
  rcases bin_cases hg hn t with ⟨h, hb⟩ | ⟨h, hb⟩ | ⟨g1, g2, hb⟩ | ⟨k, hk, g1, g2, _, hb⟩ <;> rw [hb]
  · simp only [if_pos (show (-1 : ℤ) < 0 by omega), extrapolate_eq (h5 0 hn) (by rw [h3]; exact hf 0 hn) ht, h2, h3]; rfl
  · simp only [if_neg (show ¬ ((n : ℤ) - 1 < 0) by omega), if_pos (show (n : ℤ) - 1 ≥ n - 1 by omega),
      extrapolate_eq (h5 (n - 1) (by omega)) (by rw [h3]; exact hf _ (by omega)) ht, h2, h3]; rfl
  · simp only [lt_irrefl, if_false, if_pos (show (0 : ℤ) ≥ n - 1 by omega),
      extrapolate_eq (h5 (n - 1) (by omega)) (by rw [h3]; exact hf _ (by omega)) ht, h2, h3]; rfl
  · simp only [if_neg (show ¬ ((k : ℤ) < 0) by omega), if_neg (show ¬ ((k : ℤ) ≥ n - 1) by omega), LogLogSpline.interpolate]
    simp only [Int.toNat_natCast, h5 k (by omega), h5 (k + 1) hk, h4, h2, h3, he k (by omega), he (k + 1) hk]
    rfl

/-! ## From the spline of the logarithms to the function -/

theorem expOut_deriv {S : ℝ → Jet3} {t : ℝ} (ht : 0 < t) (h : HasDerivAt (fun u => (S u).val) (S (Real.log t)).der (Real.log t)) :
    HasDerivAt (fun t => (expOut t (S (Real.log t))).val) (expOut t (S (Real.log t))).der t := by
  have h1 := (h.comp t (Real.hasDerivAt_log ht.ne')).exp
  refine h1.congr_deriv ?_
  simp only [expOut, Function.comp]
  field_simp

theorem expOut_deriv2 {S : ℝ → Jet3} {t : ℝ} (ht : 0 < t) (h : HasDerivAt (fun u => (S u).val) (S (Real.log t)).der (Real.log t))
    (h' : HasDerivAt (fun u => (S u).der) (S (Real.log t)).der2 (Real.log t)) :
    HasDerivAt (fun t => (expOut t (S (Real.log t))).der) (expOut t (S (Real.log t))).der2 t := by
  have h1 := (h.comp t (Real.hasDerivAt_log ht.ne')).exp
  have h2 := h'.comp t (Real.hasDerivAt_log ht.ne')
  have h3 := (h2.mul h1).div (hasDerivAt_id t) ht.ne'
  refine h3.congr_deriv ?_
  simp only [expOut, Function.comp, id, Pi.mul_apply]
  field_simp
  ring

theorem powerSpline_of {x f d : ℕ → ℝ} {n deg : ℕ} (hg : Grid x n) (hx : ∀ i < n, 0 < x i) (hf : ∀ i < n, 0 < f i) (hn : 0 < n)
    {S : ℝ → Jet3} (hI : Interpolates (fun k => Real.log (x k)) (fun k => Real.log (f k)) d n deg S)
    (hc : ∀ u, ContinuousAt (fun u => (S u).der) u) {F : ℝ → Out} (hF : ∀ t, 0 < t → F t = expOut t (S (Real.log t))) :
    PowerSpline x f n F ∧ ∀ i < n, x i * (F (x i)).der / f i = d i := by
  have near : ∀ t, 0 < t → ∀ᶠ s in nhds t, F s = expOut s (S (Real.log s)) := fun t ht => by
    filter_upwards [lt_mem_nhds ht] with s hs using hF s hs
  have hval : ∀ i < n, (F (x i)).val = f i := by
    intro i hi
    rw [hF _ (hx i hi), expOut]
    simp only [(hI.nodes i hi).1, Real.exp_log (hf i hi)]
  have hder : ∀ i < n, x i * (F (x i)).der / f i = d i := by
    intro i hi
    have h1 := hx i hi
    have h2 := hf i hi
    rw [hF _ h1, expOut]
    simp only [(hI.nodes i hi).1, (hI.nodes i hi).2, Real.exp_log h2]
    field_simp
  have ext : ∀ i < n, ∀ t, 0 < t → (S (Real.log t)).val = Real.log (f i) + d i * (Real.log t - Real.log (x i)) →
      (F t).val = f i * (t / x i) ^ (x i * (F (x i)).der / f i) := by
    intro i hi t ht h
    have h1 := hx i hi
    rw [hder i hi, hF t ht, expOut]
    simp only [h, Real.exp_add, Real.exp_log (hf i hi)]
    rw [Real.rpow_def_of_pos (div_pos ht h1), Real.log_div ht.ne' h1.ne', mul_comm (d i)]
  refine ⟨⟨hval, ?_, ?_, ?_, ?_, ?_, ?_⟩, hder⟩
  · intro t ht; rw [hF t ht, expOut]; exact Real.exp_pos _
  · intro t ht
    have h := expOut_deriv ht (hI.deriv (Real.log t))
    rw [← hF t ht] at h
    exact h.congr_of_eventuallyEq ((near t ht).mono fun s hs => by simp only [hs])
  · intro t ht
    have h1 : ContinuousAt (fun t => (S (Real.log t)).der) t := (hc (Real.log t)).comp (Real.continuousAt_log ht.ne')
    have h2 : ContinuousAt (fun t => (S (Real.log t)).val) t :=
      (hI.deriv (Real.log t)).continuousAt.comp (Real.continuousAt_log ht.ne')
    have h3 : ContinuousAt (fun t => (expOut t (S (Real.log t))).der) t :=
      (h1.mul h2.rexp).div continuousAt_id ht.ne'
    exact h3.congr ((near t ht).mono fun s hs => by simp only [hs])
  · intro t ht hne
    have h := expOut_deriv2 ht (hI.deriv (Real.log t)) (hI.deriv2 (Real.log t) (fun i hi h => hne i hi
      (Real.log_injOn_pos (Set.mem_Ioi.2 ht) (Set.mem_Ioi.2 (hx i hi)) h))).1
    rw [← hF t ht] at h
    exact h.congr_of_eventuallyEq ((near t ht).mono fun s hs => by simp only [hs])
  · intro t ht h
    exact ext 0 hn t ht (hI.left _ (Real.log_le_log ht h))
  · intro t h
    have h1 := hx (n - 1) (by omega)
    exact ext (n - 1) (by omega) t (by linarith) (hI.right _ (Real.log_le_log h1 h))

/-- Continuity of the first derivative of a cubic spline. -/
theorem cubic_der_continuous {x f d : ℕ → ℝ} {n : ℕ} (hg : Grid x n) (hn : 0 < n) {S : ℝ → Jet3}
    (hS : ∀ t, CubicSpline.evalDeriv x f d n t = some (S t)) (t : ℝ) : ContinuousAt (fun t => (S t).der) t := by
  obtain ⟨S', hS', hp⟩ := getS (cubic_piece hg hn f d)
  obtain rfl : S' = S := by funext t; exact Option.some.inj ((hS' t).symm.trans (hS t))
  refine glue_continuous hg hn hp Jet3.der ?_ ?_
  · rintro i hi rfl; have := cubic_node hg f d hi; rw [this.2.1, this.2.2.2]
  · intro k hk; exact (cubicPiece_hasDeriv hg f d k hk.1 t).2.1.continuousAt

theorem quintic_der_continuous {x f d e : ℕ → ℝ} {n : ℕ} (hg : Grid x n) (hn : 0 < n) {S : ℝ → Jet3}
    (hS : ∀ t, QuinticSpline.evalDeriv x f d e n t = some (S t)) (t : ℝ) : ContinuousAt (fun t => (S t).der) t := by
  obtain ⟨S', hS', hp⟩ := getS (quintic_piece hg hn f d e)
  obtain rfl : S' = S := by funext t; exact Option.some.inj ((hS' t).symm.trans (hS t))
  refine glue_continuous hg hn hp Jet3.der ?_ ?_
  · rintro i hi rfl; have := quintic_node hg f d e hi; rw [this.1.2.1, this.2.2.1]
  · intro k hk; exact (quinticPiece_hasDeriv hg f d e k hk.1 t).2.1.continuousAt

/-! ## C111 -/

/-- Everything about the first constructor with positive data. -/
theorem cubic_main {x f : ℕ → ℝ} {n : ℕ} (hg : Grid x n) (hx : ∀ i < n, 0 < x i) (hf : ∀ i < n, 0 < f i) (hn : 2 ≤ n)
    (dl dr : Option ℝ) : ∃ L d, ∃ S : ℝ → Jet3, ∃ F : ℝ → Out, create x f n dl dr = some L ∧
      CubicSpline.create (fun k => Real.log (x k)) (fun k => Real.log (f k)) n true (dl.map (fun v => v * x 0 / f 0))
        (dr.map (fun v => v * x (n - 1) / f (n - 1))) = some d ∧
      (∀ t, CubicSpline.evalDeriv (fun k => Real.log (x k)) (fun k => Real.log (f k)) d n t = some (S t)) ∧
      (∀ t, 0 < t → L.evalDeriv t = some (F t)) ∧ (∀ t, F t = expOut t (S (Real.log t))) ∧ PowerSpline x f n F ∧
      ∀ i < n, x i * (F (x i)).der / f i = d i := by
  obtain ⟨L, d, hL, h1, h2, h3, h4, hd, h5⟩ := cubic_positive hg hx hf hn dl dr
  have hg' := grid_log hg hx
  obtain ⟨S, hS, hI⟩ := C69_cubic (fun k => Real.log (x k)) (fun k => Real.log (f k)) d n hg' (by omega)
  refine ⟨L, d, S, fun t => expOut t (S (Real.log t)), hL, hd, hS, ?_, fun _ => rfl,
    powerSpline_of hg hx hf (by omega) hI (fun u => cubic_der_continuous hg' (by omega) hS u) (fun _ _ => rfl)⟩
  intro t ht
  rw [cubic_eval hg hx hf (by omega) h1 h2 h3 h4 h5 ht, hS]; rfl

/-- C111: for positive data the interpolator is a positive continuously differentiable function through the points, with exact
derivatives and power-law extrapolation; it is monotone if the values are, on all positive arguments. -/
theorem C111_positive (x f : ℕ → ℝ) (n : ℕ) (hg : Grid x n) (hx : ∀ i < n, 0 < x i) (hf : ∀ i < n, 0 < f i) (hn : 2 ≤ n)
    (dl dr : Option ℝ) : ∃ L, create x f n dl dr = some L ∧ ∃ F : ℝ → Out, (∀ t, 0 < t → L.evalDeriv t = some (F t)) ∧
      PowerSpline x f n F ∧
      ((∀ i, i + 1 < n → f i ≤ f (i + 1)) → MonotoneOn (fun t => (F t).val) (Set.Ioi 0)) ∧
      ((∀ i, i + 1 < n → f (i + 1) ≤ f i) → AntitoneOn (fun t => (F t).val) (Set.Ioi 0)) := by
  obtain ⟨L, d, S, F, hL, hd, hS, hE, hF, hP, _⟩ := cubic_main hg hx hf hn dl dr
  obtain ⟨d', hd', S', hS', m1, m2⟩ := C71_monotone (fun k => Real.log (x k)) (fun k => Real.log (f k)) n (grid_log hg hx) hn
    (dl.map (fun v => v * x 0 / f 0)) (dr.map (fun v => v * x (n - 1) / f (n - 1)))
  rw [hd, Option.some.injEq] at hd'
  subst hd'
  obtain rfl : S' = S := by funext t; exact Option.some.inj ((hS' t).symm.trans (hS t))
  refine ⟨L, hL, F, hE, hP, ?_, ?_⟩
  · intro h a ha b hb hab
    simp only [hF, expOut]
    exact Real.exp_le_exp.2 (m1 (fun i hi => Real.log_le_log (hf i (by omega)) (h i hi)) (Real.log_le_log ha hab))
  · intro h a ha b hb hab
    simp only [hF, expOut]
    exact Real.exp_le_exp.2 (m2 (fun i hi => Real.log_le_log (hf (i + 1) hi) (h i hi)) (Real.log_le_log ha hab))

/-- C111: the slope supplied at an end of the grid is the derivative of the interpolator there, if the corresponding
logarithmic slope lies between zero and three times (less 3e-15) the secant of the adjacent segment, and the points are not
symmetric in the sense of C70. -/
theorem C111_endSlopes (x f : ℕ → ℝ) (n : ℕ) (hg : Grid x n) (hx : ∀ i < n, 0 < x i) (hf : ∀ i < n, 0 < f i) (hn : 2 ≤ n)
    (dl dr : Option ℝ) (hs : ¬ ∀ i < n, x i * x (n - 1 - i) = 1 ∧ f i = f (n - 1 - i)) :
    ∃ L, create x f n dl dr = some L ∧ ∃ F : ℝ → Out, (∀ t, 0 < t → L.evalDeriv t = some (F t)) ∧
      (∀ v, dl = some v → (∃ r, 0 ≤ r ∧ r ≤ THREE ∧ x 0 * v / f 0 = r * secant x f 0) → (F (x 0)).der = v) ∧
      ∀ v, dr = some v → (∃ r, 0 ≤ r ∧ r ≤ THREE ∧ x (n - 1) * v / f (n - 1) = r * secant x f (n - 2)) → (F (x (n - 1))).der = v := by
  obtain ⟨L, d, S, F, hL, hd, hS, hE, hF, hP, hD⟩ := cubic_main hg hx hf hn dl dr
  obtain ⟨d0, c0, sm⟩ := construct_smooth (grid_log hg hx) hn (fun k => Real.log (f k)) (dl.map (fun v => v * x 0 / f 0))
    (dr.map (fun v => v * x (n - 1) / f (n - 1))) (by
      intro h
      exfalso; apply hs
      intro i hi
      have p1 := hx i hi
      have p2 := hx (n - 1 - i) (by omega)
      obtain ⟨a, b⟩ := h i hi
      refine ⟨?_, Real.log_injOn_pos (hf i hi) (hf _ (by omega)) b⟩
      have : Real.log (x i * x (n - 1 - i)) = 0 := by
        rw [Real.log_mul p1.ne' p2.ne']; linarith
      rcases Real.log_eq_zero.1 this with h | h | h
      · have := mul_pos p1 p2; linarith
      · exact h
      · have := mul_pos p1 p2; linarith)
  have hd' : d = regularizeSpline (fun k => Real.log (x k)) (fun k => Real.log (f k)) n d0 := by
    simp only [CubicSpline.create, c0, Option.bind_eq_bind, Option.bind_some, Option.pure_def, if_true, Option.some.injEq] at hd
    exact hd.symm
  have lim : ∀ a s r : ℝ, 0 ≤ r → r ≤ THREE → a = r * s →
      (if s ≥ 0 then clip a 0 (THREE * s) else clip a (THREE * s) 0) = a := by
    intro a s r r0 r1 h
    split_ifs with hs0
    · rw [clip, if_neg (by rw [h]; push Not; exact mul_le_mul_of_nonneg_right r1 hs0)]
      split_ifs with h1
      · rfl
      · exact le_antisymm (by rw [h]; exact mul_nonneg r0 hs0) (not_lt.1 h1)
    · push Not at hs0
      rw [clip, if_neg (by rw [h]; push Not; nlinarith)]
      split_ifs with h1
      · rfl
      · exact le_antisymm (by rw [h]; nlinarith) (not_lt.1 h1)
  have fin : ∀ i < n, ∀ v, d i = v * x i / f i → (F (x i)).der = v := by
    intro i hi v h
    have h1 := hx i hi
    have h2 := hf i hi
    have := hD i hi
    rw [h] at this
    field_simp at this
    linarith
  refine ⟨L, hL, F, hE, ?_, ?_⟩
  · rintro v rfl ⟨r, r0, r1, hr⟩
    refine fin 0 (by omega) v ?_
    have e0 : d0 0 = v * x 0 / f 0 := sm.left
    rw [hd', regularizeSpline, if_neg (by omega), if_pos (Or.inl rfl)]
    simp only [if_true]
    rw [lim _ _ r r0 r1 (by rw [e0, mul_comm v]; exact hr), e0]
  · rintro v rfl ⟨r, r0, r1, hr⟩
    refine fin (n - 1) (by omega) v ?_
    have e0 : d0 (n - 1) = v * x (n - 1) / f (n - 1) := sm.right
    rw [hd', regularizeSpline, if_neg (by omega), if_pos (Or.inr rfl)]
    simp only [show ¬ n - 1 = 0 by omega, if_false]
    rw [lim _ _ r r0 r1 (by rw [e0, mul_comm v]; exact hr), e0]

/-- C111: a power law is reproduced exactly, for all positive arguments. -/
theorem C111_powerLaw (x : ℕ → ℝ) (n : ℕ) (hg : Grid x n) (hx : ∀ i < n, 0 < x i) (hn : 2 ≤ n) (A s : ℝ) (hA : 0 < A) :
    ∃ L, create x (fun i => A * x i ^ s) n none none = some L ∧
      ∀ t, 0 < t → ∃ o, L.evalDeriv t = some o ∧ o.val = A * t ^ s ∧ o.der = A * s * t ^ (s - 1) ∧
        o.der2 = A * s * (s - 1) * t ^ (s - 2) := by
  have hf : ∀ i < n, 0 < A * x i ^ s := fun i hi => mul_pos hA (Real.rpow_pos_of_pos (hx i hi) _)
  have hg' := grid_log hg hx
  obtain ⟨L, d, S, F, hL, hd, hS, hE, hF, hP, hD⟩ := cubic_main (f := fun i => A * x i ^ s) hg hx hf hn none none
  refine ⟨L, hL, ?_⟩
  set X := fun k => Real.log (x k) with hX
  set G := fun k => Real.log (A * x k ^ s) with hG
  have lin : ∀ i < n, G i = Real.log A + s * X i := by
    intro i hi
    simp only [hG, hX]
    rw [Real.log_mul hA.ne' (Real.rpow_pos_of_pos (hx i hi) _).ne', Real.log_rpow (hx i hi)]
  have sec : ∀ i j, i < n → j < n → i ≠ j → (G i - G j) / (X i - X j) = s := by
    intro i j hi hj hij
    have : X i - X j ≠ 0 := by
      rcases Nat.lt_or_gt_of_ne hij with h | h
      · have := hg' i j h hj; exact sub_ne_zero.2 this.ne
      · have := hg' j i h hi; exact sub_ne_zero.2 this.ne'
    rw [lin i hi, lin j hj]; field_simp; ring
  -- the spline slopes
  obtain ⟨d0, c0, sm⟩ := construct_smooth hg' hn G none none (fun _ => rfl)
  obtain ⟨_, _, _, hu⟩ := solve_spec hg' hn G none none
  have smc : Smooth X G (fun _ => s) n none none := by
    have cv : ∀ i, i + 1 < n → curvL X G (fun _ => s) i = 0 ∧ curvR X G (fun _ => s) i = 0 := by
      intro i hi
      have h1 := curv_eq hg' G (fun _ => s) hi
      have h2 := sec (i + 1) i hi (by omega) (by omega)
      have hne : X (i + 1) - X i ≠ 0 := sub_ne_zero.2 (hg' i (i + 1) (by omega) hi).ne'
      rw [h1.1, h1.2, slope2, hinv]
      rw [div_eq_iff hne] at h2
      rw [h2]
      constructor <;> (field_simp; ring)
    refine ⟨fun i hi => ?_, ?_, ?_⟩
    · rw [(cv i (by omega)).2, (cv (i + 1) (by omega)).1]
    · exact (cv 0 (by omega)).1
    · exact (cv (n - 2) (by omega)).2
  have d0s : ∀ i < n, d0 i = s := fun i hi => by
    rw [hu d0 sm i hi, ← hu _ smc i hi]
  have hd' : d = regularizeSpline X G n d0 := by
    simp only [CubicSpline.create, Option.map_none] at hd
    rw [c0] at hd
    simp only [Option.bind_eq_bind, Option.bind_some, Option.pure_def, if_true, Option.some.injEq] at hd
    exact hd.symm
  have hT := three_pos
  have T1 : 1 ≤ THREE := by unfold THREE; norm_num
  have ds : ∀ i < n, d i = s := by
    intro i hi
    rw [hd']
    rcases le_total 0 s with h0 | h0
    · rw [C71_untouched X G d0 n i hn hi, d0s i hi]
      · intro h
        rw [sec i (i - 1) hi (by omega) (by omega), d0s i hi]
        exact ⟨h0, by nlinarith⟩
      · intro h
        rw [sec (i + 1) i h hi (by omega), d0s i hi]
        exact ⟨h0, by nlinarith⟩
    · have e := regularize_neg X G n d0 i
      have secn : ∀ i j, i < n → j < n → i ≠ j → (-G i - -G j) / (X i - X j) = -s := by
        intro i j hi hj hij
        rw [← sec i j hi hj hij]; ring
      have e2 : regularizeSpline X (fun j => -G j) n (fun j => -d0 j) i = -d0 i := by
        apply C71_untouched X (fun j => -G j) (fun j => -d0 j) n i hn hi
        · intro h
          rw [secn i (i - 1) hi (by omega) (by omega), d0s i hi]
          exact ⟨by linarith, by nlinarith⟩
        · intro h
          rw [secn (i + 1) i h hi (by omega), d0s i hi]
          exact ⟨by linarith, by nlinarith⟩
      rw [e2, d0s i hi] at e
      linarith
  have hval : ∀ u, S u = ⟨Real.log A + s * u, s, 0, 0⟩ := by
    intro u
    obtain ⟨k, hk, hp⟩ := cubic_piece hg' (by omega) G d u
    rw [hS u, Option.some.injEq] at hp
    rw [hp, cubicPiece]
    split_ifs with h1 h2
    · rw [linPiece, ds 0 (by omega), lin 0 (by omega)]
      simp only [Jet3.mk.injEq, and_true]; ring
    · rw [linPiece, ds (n - 1) (by omega), lin (n - 1) (by omega)]
      simp only [Jet3.mk.injEq, and_true]; ring
    · have kn : k < n := by have := hk.1; omega
      have hne : X k - X (k - 1) ≠ 0 := sub_ne_zero.2 (hg' (k - 1) k (by omega) kn).ne'
      rw [ds k kn, ds (k - 1) (by omega), lin k kn, lin (k - 1) (by omega), evalCubic]
      simp only [Jet3.mk.injEq]
      refine ⟨?_, ?_, ?_, ?_⟩ <;> (field_simp; ring)
  intro t ht
  refine ⟨F t, hE t ht, ?_⟩
  have ep : Real.exp (Real.log A + s * Real.log t) = A * t ^ s := by
    rw [Real.exp_add, Real.exp_log hA, Real.rpow_def_of_pos ht, mul_comm s]
  rw [hF, hval, expOut]
  simp only [ep]
  refine ⟨trivial, ?_, ?_⟩
  · rw [Real.rpow_sub ht, Real.rpow_one]; ring
  · rw [Real.rpow_sub ht, Real.rpow_two]; ring

/-! ### Arbitrary data -/

theorem ext_node {x f : ℕ → ℝ} {n : ℕ} (hx : ∀ i < n, 0 < x i) {L : LogLogSpline} (hL : Built L x f n) : ∀ j < n, ∃ o, L.extrapolate j (x j) = some o ∧ o.val = f j := by
  intro j hj
  rw [LogLogSpline.extrapolate]
  cases h : L.logfder j with
  | none => exact ⟨_, rfl, by rw [hL.ef]⟩
  | some s =>
    simp only
    split_ifs with h1 h2
    · exact ⟨_, rfl, by rw [hL.ef]⟩
    · exact absurd (hx j hj) (not_lt.2 h2)
    · exact ⟨_, rfl, by simp only [hL.ef, hL.ex, sub_self, zero_mul, Real.exp_zero, mul_one]⟩

open Classical in
theorem seg_node {x f : ℕ → ℝ} {n : ℕ} (hg : Grid x n) (hx : ∀ i < n, 0 < x i) {L : LogLogSpline} (hL : Built L x f n) : ∀ k, k + 1 < n → (L.interpolate k (x k)).val = f k ∧ (L.interpolate k (x (k + 1))).val = f (k + 1) := by
  intro k hk
  have hne := (hg k (k + 1) (by omega) hk).ne
  have hlne := (grid_log hg hx k (k + 1) (by omega) hk).ne
  have plain : ∀ j, (j = k ∨ j = k + 1) → ∀ (d0 d1 : ℝ),
      (if L.nonnegative ∧ (evalCubic (x j) (x k) (x (k + 1)) (f k) (f (k + 1)) d0 d1).val ≤ 0 then (⟨0, 0, 0⟩ : Out)
      else ⟨(evalCubic (x j) (x k) (x (k + 1)) (f k) (f (k + 1)) d0 d1).val, (evalCubic (x j) (x k) (x (k + 1)) (f k) (f (k + 1)) d0 d1).der,
        (evalCubic (x j) (x k) (x (k + 1)) (f k) (f (k + 1)) d0 d1).der2⟩).val = f j := by
    intro j hj d0 d1
    have e : (evalCubic (x j) (x k) (x (k + 1)) (f k) (f (k + 1)) d0 d1).val = f j := by
      rcases hj with rfl | rfl
      · exact (cubic_ends _ _ _ _ _ _ hne).1
      · exact (cubic_ends _ _ _ _ _ _ hne).2.2.1
    rw [e]
    split_ifs with h
    · have := h.1 j (by rw [hL.en]; omega)
      rw [hL.ef] at this
      exact le_antisymm this h.2
    · rfl
  constructor
  all_goals
    rw [LogLogSpline.interpolate]
    cases h0 : L.logfder k with
    | none => simp only [hL.ex, hL.ef]; first | exact plain k (Or.inl rfl) _ _ | exact plain (k + 1) (Or.inr rfl) _ _
    | some s0 =>
      cases h1 : L.logfder (k + 1) with
      | none => simp only [hL.ex, hL.ef]; first | exact plain k (Or.inl rfl) _ _ | exact plain (k + 1) (Or.inr rfl) _ _
      | some s1 =>
        simp only [hL.ex, hL.ef]
        cases L.logfder2 with
        | none =>
          simp only
          first
          | rw [(cubic_ends _ _ _ _ _ _ hlne).1, Real.exp_log (hL.pos _ _ h0)]
          | rw [(cubic_ends _ _ _ _ _ _ hlne).2.2.1, Real.exp_log (hL.pos _ _ h1)]
        | some e =>
          simp only
          first
          | rw [(quintic_ends _ _ _ _ _ _ _ _ hlne).1, Real.exp_log (hL.pos _ _ h0)]
          | rw [(quintic_ends _ _ _ _ _ _ _ _ hlne).2.2.2.1, Real.exp_log (hL.pos _ _ h1)]

theorem built_nodes {x f : ℕ → ℝ} {n : ℕ} (hg : Grid x n) (hx : ∀ i < n, 0 < x i) (hn : 0 < n) {L : LogLogSpline}
    (hL : Built L x f n) {i : ℕ} (hi : i < n) : ∃ o, L.evalDeriv (x i) = some o ∧ o.val = f i := by
  have ext := ext_node hx hL
  have seg := seg_node hg hx hL
  rw [LogLogSpline.evalDeriv, hL.en, hL.ex, if_neg hn.ne']
  simp only
  have inj : ∀ a b, a < n → b < n → x a = x b → a = b := by
    intro a b ha hb h
    rcases Nat.lt_trichotomy a b with h' | h' | h'
    · have := hg a b h' hb; linarith
    · exact h'
    · have := hg b a h' ha; linarith
  have mono : ∀ i j, i ≤ j → j < n → x i ≤ x j := fun i j h hj => by
    rcases h.eq_or_lt with h | h
    · rw [h]
    · exact (hg i j h hj).le
  rcases bin_cases hg hn (x i) with ⟨h, hb⟩ | ⟨h, hb⟩ | ⟨g1, g2, hb⟩ | ⟨k, hk, g1, g2, _, hb⟩ <;> rw [hb]
  · have := mono 0 i (by omega) hi; linarith
  · have := mono i (n - 1) (by omega) (by omega); linarith
  · have : i = 0 := by omega
    subst this
    rw [if_neg (by omega), if_pos (by omega), show n - 1 = 0 by omega]
    exact ext 0 hn
  · rw [if_neg (by omega), if_neg (by omega)]
    refine ⟨_, rfl, ?_⟩
    rw [Int.toNat_natCast]
    have hik : i = k ∨ i = k + 1 := by
      by_contra hc
      push Not at hc
      rcases Nat.lt_or_gt_of_ne hc.1 with h | h
      · have := hg i k h (by omega); linarith
      · have := hg (k + 1) i (by omega) hi; linarith
    rcases hik with rfl | rfl
    · exact (seg i hk).1
    · exact (seg k hk).2

open Classical in
theorem built_nonneg {x f : ℕ → ℝ} {n : ℕ} (hg : Grid x n) (hn : 0 < n) {L : LogLogSpline}
    (hL : Built L x f n) (h0 : ∀ i < n, 0 ≤ f i) {t : ℝ} (ht : 0 < t) : ∃ o, L.evalDeriv t = some o ∧ 0 ≤ o.val := by
  have nn : L.nonnegative := by
    intro i hi
    rw [hL.en] at hi; rw [hL.ef]; exact h0 i hi
  have ext : ∀ j < n, ∃ o, L.extrapolate j t = some o ∧ 0 ≤ o.val := by
    intro j hj
    have := h0 j hj
    rw [LogLogSpline.extrapolate]
    cases h : L.logfder j with
    | none => exact ⟨_, rfl, by rw [hL.ef]; exact this⟩
    | some s =>
      simp only
      split_ifs with h1 h2
      · exact ⟨_, rfl, by rw [hL.ef]; exact this⟩
      · exact absurd ht (not_lt.2 h2)
      · exact ⟨_, rfl, by rw [hL.ef]; positivity⟩
  have seg : ∀ k, 0 ≤ (L.interpolate k t).val := by
    intro k
    have plain : ∀ j : Jet3, 0 ≤ (if L.nonnegative ∧ j.val ≤ 0 then (⟨0, 0, 0⟩ : Out) else ⟨j.val, j.der, j.der2⟩).val := by
      intro j
      split_ifs with h
      · exact le_rfl
      · push Not at h; exact (h nn).le
    rw [LogLogSpline.interpolate]
    cases h0 : L.logfder k with
    | none => exact plain _
    | some s0 =>
      cases h1 : L.logfder (k + 1) with
      | none => exact plain _
      | some s1 => exact (Real.exp_pos _).le
  rw [LogLogSpline.evalDeriv, hL.en, hL.ex, if_neg hn.ne']
  simp only
  split_ifs
  · exact ext 0 hn
  · exact ext (n - 1) (by omega)
  · exact ⟨_, rfl, seg _⟩

/-- C111: whatever the values (also zero and negative), both constructors produce a function through the points; if no value is
negative then it is nowhere negative. -/
theorem C111_any (x f d : ℕ → ℝ) (n : ℕ) (hg : Grid x n) (hx : ∀ i < n, 0 < x i) (hn : 0 < n) (dl dr : Option ℝ) :
    ∃ L M, create x f n dl dr = some L ∧ createQuintic x f d n = some M ∧
      (∀ i < n, ∃ o p, L.evalDeriv (x i) = some o ∧ o.val = f i ∧ M.evalDeriv (x i) = some p ∧ p.val = f i) ∧
      ((∀ i < n, 0 ≤ f i) → ∀ t, 0 < t → ∃ o p, L.evalDeriv t = some o ∧ 0 ≤ o.val ∧ M.evalDeriv t = some p ∧ 0 ≤ p.val) := by
  obtain ⟨L, hL, bL⟩ := create_built hg hx f dl dr
  obtain ⟨M, hM, bM⟩ := createQuintic_built hg hx f d
  refine ⟨L, M, hL, hM, ?_, ?_⟩
  · intro i hi
    obtain ⟨o, h1, h2⟩ := built_nodes hg hx hn bL hi
    obtain ⟨p, h3, h4⟩ := built_nodes hg hx hn bM hi
    exact ⟨o, p, h1, h2, h3, h4⟩
  · intro h t ht
    obtain ⟨o, h1, h2⟩ := built_nonneg hg hn bL h ht
    obtain ⟨p, h3, h4⟩ := built_nonneg hg hn bM h ht
    exact ⟨o, p, h1, h2, h3, h4⟩

/-! ## C112 -/

/-- C112: with positive values and derivatives that are moderate in the logarithmic sense, the second constructor gives a
positive function through the points with the given derivatives at the nodes, exact derivatives, and power-law
extrapolation; inside the grid it is twice continuously differentiable. -/
theorem C112_positive (x f d : ℕ → ℝ) (n : ℕ) (hg : Grid x n) (hx : ∀ i < n, 0 < x i) (hf : ∀ i < n, 0 < f i) (hn : 2 ≤ n)
    (hm : Moderate x f d n) : ∃ L, createQuintic x f d n = some L ∧ ∃ F : ℝ → Out, (∀ t, 0 < t → L.evalDeriv t = some (F t)) ∧
      PowerSpline x f n F ∧ (∀ i < n, (F (x i)).der = d i) ∧
      ∀ t, x 0 < t → t < x (n - 1) → HasDerivAt (fun t => (F t).der) (F t).der2 t ∧ ContinuousAt (fun t => (F t).der2) t := by
  obtain ⟨L, e, e', hL, h1, h2, h3, h4, he, hc, h5⟩ := quintic_positive hg hx hf hn hm
  have hg' := grid_log hg hx
  obtain ⟨S, hS, hI, hI2, _⟩ := C69_quintic (fun k => Real.log (x k)) (fun k => Real.log (f k)) (fun k => x k * d k / f k) e n hg' (by omega)
  obtain ⟨hP, hD⟩ := powerSpline_of hg hx hf (by omega) hI (fun u => quintic_der_continuous hg' (by omega) hS u)
    (F := fun t => expOut t (S (Real.log t))) (fun _ _ => rfl)
  refine ⟨L, hL, fun t => expOut t (S (Real.log t)), ?_, hP, ?_, ?_⟩
  · intro t ht
    rw [quintic_eval hg hx hf (by omega) h1 h2 h3 h4 he h5 ht, hS]; rfl
  · intro i hi
    have := hD i hi
    have p1 := hx i hi
    have p2 := hf i hi
    field_simp at this
    exact this
  · intro t t0 t1
    have x0 := hx 0 (by omega)
    have ht : 0 < t := by linarith
    obtain ⟨a, b⟩ := hI2 (Real.log t) (Real.log_lt_log x0 t0) (Real.log_lt_log ht t1)
    refine ⟨expOut_deriv2 ht (hI.deriv _) a, ?_⟩
    have cl := Real.continuousAt_log ht.ne'
    have c1 : ContinuousAt (fun t => (S (Real.log t)).der) t :=
      (quintic_der_continuous hg' (by omega) hS (Real.log t)).comp (f := Real.log) cl
    have c2 : ContinuousAt (fun t => (S (Real.log t)).val) t := (hI.deriv (Real.log t)).continuousAt.comp (f := Real.log) cl
    have c3 : ContinuousAt (fun t => (S (Real.log t)).der2) t := b.comp (f := Real.log) cl
    exact ((c3.add (c1.mul (c1.sub continuousAt_const))).mul c2.rexp).div (continuousAt_id.pow 2) (pow_pos ht 2).ne'

end

end Verif.Spline.LogLog
