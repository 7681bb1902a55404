import Verif.Spline.Construct

/-! C70: natural and clamped cubic splines (/repo/src/math_spline.cpp:417-468). Exact real arithmetic. -/
namespace Verif.Spline

open Verif.BSpline (Grid)

noncomputable section

/-! ## Specification -/

open Polynomial in
/-- G is a cubic spline through the points (x i, f i): on each segment it is a polynomial P i of degree at most 3, the
polynomials on two adjacent segments have the same slope and the same second derivative at the common node; at each of
the ends, it has the given slope, or vanishing second derivative if no slope is given. -/
structure IsCubicSpline (x f : ℕ → ℝ) (n : ℕ) (dl dr : Option ℝ) (G : ℝ → ℝ) : Prop where
  nodes : ∀ i < n, G (x i) = f i
  pieces : ∃ P : ℕ → ℝ[X], (∀ i, i + 1 < n → (P i).natDegree ≤ 3 ∧ ∀ t, x i ≤ t → t ≤ x (i + 1) → G t = (P i).eval t) ∧
    (∀ i, i + 2 < n → (P i).derivative.eval (x (i + 1)) = (P (i + 1)).derivative.eval (x (i + 1)) ∧
      (P i).derivative.derivative.eval (x (i + 1)) = (P (i + 1)).derivative.derivative.eval (x (i + 1))) ∧
    (match dl with
      | some v => (P 0).derivative.eval (x 0) = v
      | none => (P 0).derivative.derivative.eval (x 0) = 0) ∧
    (match dr with
      | some v => (P (n - 2)).derivative.eval (x (n - 1)) = v
      | none => (P (n - 2)).derivative.derivative.eval (x (n - 1)) = 0)

/-- What a user of the interpolator relies on: the given ends, and the smoothness. -/
structure SmoothSpline (x f : ℕ → ℝ) (n : ℕ) (dl dr : Option ℝ) (S : ℝ → Jet3) : Prop where
  spline : IsCubicSpline x f n dl dr (fun t => (S t).val)
  deriv : ∀ t, HasDerivAt (fun t => (S t).val) (S t).der t
  deriv2 : ∀ t, x 0 < t → t < x (n - 1) → HasDerivAt (fun t => (S t).der) (S t).der2 t ∧ ContinuousAt (fun t => (S t).der2) t
  slopeLeft : ∀ v, dl = some v → (S (x 0)).der = v
  slopeRight : ∀ v, dr = some v → (S (x (n - 1))).der = v
  natural : dl = none → dr = none → ∀ t, HasDerivAt (fun t => (S t).der) (S t).der2 t ∧ ContinuousAt (fun t => (S t).der2) t

/-! ## Hermite form of a polynomial -/

open Polynomial in
theorem poly3_eval (p : ℝ[X]) (hp : p.natDegree ≤ 3) (t : ℝ) :
    p.eval t = p.coeff 0 + p.coeff 1 * t + p.coeff 2 * t ^ 2 + p.coeff 3 * t ^ 3 ∧
    p.derivative.eval t = p.coeff 1 + 2 * p.coeff 2 * t + 3 * p.coeff 3 * t ^ 2 ∧
    p.derivative.derivative.eval t = 2 * p.coeff 2 + 6 * p.coeff 3 * t := by
  have e : p = C (p.coeff 0) + C (p.coeff 1) * X + C (p.coeff 2) * X ^ 2 + C (p.coeff 3) * X ^ 3 := by
    conv_lhs => rw [p.as_sum_range' 4 (by omega)]
    simp [Finset.sum_range_succ, ← C_mul_X_pow_eq_monomial]
  generalize p.coeff 0 = c0 at *
  generalize p.coeff 1 = c1 at *
  generalize p.coeff 2 = c2 at *
  generalize p.coeff 3 = c3 at *
  subst e
  refine ⟨by simp, by simp; ring, by simp; ring⟩

open Polynomial in
theorem hermite_of_poly (p : ℝ[X]) (hp : p.natDegree ≤ 3) (a b : ℝ) (hab : a ≠ b) (t : ℝ) :
    (evalCubic t a b (p.eval a) (p.eval b) (p.derivative.eval a) (p.derivative.eval b)).val = p.eval t ∧
    (evalCubic t a b (p.eval a) (p.eval b) (p.derivative.eval a) (p.derivative.eval b)).der = p.derivative.eval t ∧
    (evalCubic t a b (p.eval a) (p.eval b) (p.derivative.eval a) (p.derivative.eval b)).der2 = p.derivative.derivative.eval t := by
  obtain ⟨a0, a1, a2⟩ := poly3_eval p hp a
  obtain ⟨b0, b1, b2⟩ := poly3_eval p hp b
  obtain ⟨t0, t1, t2⟩ := poly3_eval p hp t
  rw [a0, a1, b0, b1, t0, t1, t2]
  have hne : b - a ≠ 0 := sub_ne_zero.2 hab.symm
  obtain ⟨u, hu⟩ : ∃ u, u = b - a := ⟨_, rfl⟩
  have hb : b = a + u := by rw [hu]; ring
  rw [← hu] at hne
  subst hb
  simp only [evalCubic, add_sub_cancel_left]
  refine ⟨?_, ?_, ?_⟩
  · field_simp; ring
  · field_simp; ring
  · field_simp; ring

open Polynomial in
/-- The polynomial on a segment. -/
theorem cubic_polyJet (xl xh fl fh dl dh : ℝ) (h : xl ≠ xh) :
    ∃ p : ℝ[X], p.natDegree ≤ 3 ∧ ∀ t, p.eval t = (evalCubic t xl xh fl fh dl dh).val ∧
      p.derivative.eval t = (evalCubic t xl xh fl fh dl dh).der ∧
      p.derivative.derivative.eval t = (evalCubic t xl xh fl fh dl dh).der2 := by
  set a := (dl + dh - 2 * (fh - fl) / (xh - xl)) / (xh - xl) ^ 2
  set b := (3 * (fh - fl) / (xh - xl) - 2 * dl - dh) / (xh - xl)
  refine ⟨C fl + C dl * (X - C xl) + C b * (X - C xl) ^ 2 + C a * (X - C xl) ^ 3, ?_, ?_⟩
  · compute_degree
  · intro t
    have := cubic_poly t xl xh fl fh dl dh h
    simp only at this
    rw [this]
    refine ⟨by simp [a, b], ?_, ?_⟩
    · simp [derivative_pow]; ring
    · simp [derivative_pow]; ring

/-! ## Existence, smoothness, uniqueness -/

/-- Slopes with a continuous second derivative give a smooth spline. -/
theorem smooth_spline {x f d : ℕ → ℝ} {n : ℕ} {dl dr : Option ℝ} (hg : Grid x n) (hn : 2 ≤ n) (h : Smooth x f d n dl dr) :
    ∃ S : ℝ → Jet3, (∀ t, CubicSpline.evalDeriv x f d n t = some (S t)) ∧ SmoothSpline x f n dl dr S := by
  obtain ⟨S, hS, hI⟩ := C69_cubic x f d n hg (by omega)
  obtain ⟨S', hS', hp⟩ := getS (cubic_piece hg (by omega) f d)
  obtain rfl : S' = S := by funext t; exact Option.some.inj ((hS' t).symm.trans (hS t))
  have ad : ∀ t, ∀ i < n, t = x i → (cubicPiece x f d n i t).der = (cubicPiece x f d n (i + 1) t).der := by
    rintro t i hi rfl; have := cubic_node hg f d hi; rw [this.2.1, this.2.2.2]
  have mid : ∀ t, ∀ i, 0 < i → i + 1 < n → t = x i → (cubicPiece x f d n i t).der2 = (cubicPiece x f d n (i + 1) t).der2 := by
    rintro t i h0 hi rfl
    have := h.interior (i - 1) (by omega)
    rw [curvR, curvL, show i - 1 + 1 = i by omega] at this
    rw [cubicPiece, if_neg (by omega), if_neg (by omega), cubicPiece, if_neg (by omega), if_neg (by omega), this]
    simp
  have d2 : ∀ t, (∀ i < n, t = x i → (cubicPiece x f d n i t).der2 = (cubicPiece x f d n (i + 1) t).der2) →
      HasDerivAt (fun t => (S' t).der) (S' t).der2 t ∧ ContinuousAt (fun t => (S' t).der2) t := by
    intro t ht
    constructor
    · refine glue hg (by omega) hp Jet3.der (ad t) ?_
      intro k hk
      rw [agree hg hp Jet3.der2 ht hk]
      exact (cubicPiece_hasDeriv hg f d k hk.1 t).2.1
    · refine glue_continuous hg (by omega) hp Jet3.der2 ht ?_
      intro k hk
      exact (cubicPiece_hasDeriv hg f d k hk.1 t).2.2.continuousAt
  refine ⟨S', hS, ?_, hI.deriv, ?_, ?_, ?_, ?_⟩
  · refine ⟨fun i hi => (hI.nodes i hi).1, ?_⟩
    have ex : ∀ i, ∃ p : Polynomial ℝ, i + 1 < n → p.natDegree ≤ 3 ∧
        ∀ t, p.eval t = (evalCubic t (x i) (x (i + 1)) (f i) (f (i + 1)) (d i) (d (i + 1))).val ∧
        p.derivative.eval t = (evalCubic t (x i) (x (i + 1)) (f i) (f (i + 1)) (d i) (d (i + 1))).der ∧
        p.derivative.derivative.eval t = (evalCubic t (x i) (x (i + 1)) (f i) (f (i + 1)) (d i) (d (i + 1))).der2 := by
      intro i
      by_cases hi : i + 1 < n
      · obtain ⟨p, h1, h2⟩ := cubic_polyJet (x i) (x (i + 1)) (f i) (f (i + 1)) (d i) (d (i + 1)) (hg _ _ (by omega) hi).ne
        exact ⟨p, fun _ => ⟨h1, h2⟩⟩
      · exact ⟨0, fun h => absurd h hi⟩
    choose P hP using ex
    have av : ∀ t, ∀ i < n, t = x i → (cubicPiece x f d n i t).val = (cubicPiece x f d n (i + 1) t).val := by
      rintro t i hi rfl; have := cubic_node hg f d hi; rw [this.1, this.2.2.1]
    have ends := fun i (hi : i + 1 < n) => cubic_ends (x i) (x (i + 1)) (f i) (f (i + 1)) (d i) (d (i + 1)) (hg _ _ (by omega) hi).ne
    refine ⟨P, ?_, ?_, ?_, ?_⟩
    · intro i hi
      refine ⟨(hP i hi).1, fun t t1 t2 => ?_⟩
      rw [((hP i hi).2 t).1]
      show (S' t).val = _
      rw [agree hg hp Jet3.val (av t) (k := i + 1) ⟨by omega, fun _ => t1, fun _ => t2⟩]
      rw [cubicPiece, if_neg (by omega), if_neg (by omega)]; simp
    · intro i hi
      rw [((hP i (by omega)).2 _).2.1, ((hP i (by omega)).2 _).2.2, ((hP (i + 1) (by omega)).2 _).2.1,
        ((hP (i + 1) (by omega)).2 _).2.2]
      refine ⟨?_, h.interior i hi⟩
      rw [(ends i (by omega)).2.2.2, (ends (i + 1) (by omega)).2.1]
    · have := h.left
      cases dl with
      | none => simp only [EndCond] at this; simp only [((hP 0 (by omega)).2 _).2.2]; exact this
      | some v => simp only [EndCond] at this; simp only [((hP 0 (by omega)).2 _).2.1]; rw [(ends 0 (by omega)).2.1]; exact this
    · have := h.right
      have e : n - 2 + 1 = n - 1 := by omega
      cases dr with
      | none =>
        simp only [EndCond, curvR, e] at this
        simp only [((hP (n - 2) (by omega)).2 _).2.2, e]; exact this
      | some v =>
        simp only [EndCond] at this
        have e2 := (ends (n - 2) (by omega)).2.2.2
        rw [e] at e2
        simp only [((hP (n - 2) (by omega)).2 _).2.1, e, e2]; exact this
  · intro t h0 h1
    apply d2
    intro i hi e
    refine mid t i ?_ ?_ e
    · by_contra hc
      have : i = 0 := by omega
      subst this; rw [e] at h0; exact lt_irrefl _ h0
    · by_contra hc
      have : i = n - 1 := by omega
      subst this; rw [e] at h1; exact lt_irrefl _ h1
  · rintro v rfl
    rw [(hI.nodes 0 (by omega)).2]; exact h.left
  · rintro v rfl
    rw [(hI.nodes (n - 1) (by omega)).2]; exact h.right
  · rintro rfl rfl t
    apply d2
    intro i hi e
    by_cases i0 : i = 0
    · subst i0
      rw [cubicPiece, if_pos rfl, cubicPiece, if_neg (by omega), if_neg (by omega), e]
      have := h.left
      simp only [EndCond, curvL] at this
      simp only [linPiece]
      simpa using this.symm
    · by_cases i1 : i = n - 1
      · subst i1
        rw [cubicPiece, if_neg (by omega), if_neg (by omega), cubicPiece, if_neg (by omega), if_pos (by omega), e]
        have := h.right
        simp only [EndCond, curvR, show n - 2 + 1 = n - 1 by omega] at this
        simp only [linPiece]
        rw [show n - 1 - 1 = n - 2 by omega]
        exact this
      · exact mid t i (by omega) (by omega) e

/-- The slopes of any cubic spline through the points satisfy the same system. -/
theorem spline_slopes {x f : ℕ → ℝ} {n : ℕ} {dl dr : Option ℝ} (hg : Grid x n) (hn : 2 ≤ n) {G : ℝ → ℝ}
    (h : IsCubicSpline x f n dl dr G) : ∃ d, Smooth x f d n dl dr ∧
      ∀ i, i + 1 < n → ∀ t, x i ≤ t → t ≤ x (i + 1) → G t = (evalCubic t (x i) (x (i + 1)) (f i) (f (i + 1)) (d i) (d (i + 1))).val := by
  obtain ⟨P, h1, h2, h3, h4⟩ := h.pieces
  set d : ℕ → ℝ := fun i => if i + 1 < n then (P i).derivative.eval (x i) else (P (n - 2)).derivative.eval (x (n - 1)) with hd
  have dL : ∀ i, i + 1 < n → d i = (P i).derivative.eval (x i) := fun i hi => by simp only [hd]; rw [if_pos hi]
  have dR : ∀ i, i + 1 < n → d (i + 1) = (P i).derivative.eval (x (i + 1)) := by
    intro i hi
    simp only [hd]
    by_cases hh : i + 1 + 1 < n
    · rw [if_pos hh, (h2 i (by omega)).1]
    · rw [if_neg hh]
      have : n - 2 = i := by omega
      rw [this, show n - 1 = i + 1 by omega]
  have fL : ∀ i, i + 1 < n → f i = (P i).eval (x i) := fun i hi => by
    rw [← h.nodes i (by omega), (h1 i hi).2 _ le_rfl (hg i (i + 1) (by omega) hi).le]
  have fR : ∀ i, i + 1 < n → f (i + 1) = (P i).eval (x (i + 1)) := fun i hi => by
    rw [← h.nodes (i + 1) (by omega), (h1 i hi).2 _ (hg i (i + 1) (by omega) hi).le le_rfl]
  have seg : ∀ i, i + 1 < n → ∀ t, (evalCubic t (x i) (x (i + 1)) (f i) (f (i + 1)) (d i) (d (i + 1))).val = (P i).eval t ∧
      (evalCubic t (x i) (x (i + 1)) (f i) (f (i + 1)) (d i) (d (i + 1))).der2 = (P i).derivative.derivative.eval t := by
    intro i hi t
    rw [dL i hi, dR i hi, fL i hi, fR i hi]
    have := hermite_of_poly (P i) (h1 i hi).1 (x i) (x (i + 1)) (hg i (i + 1) (by omega) hi).ne t
    exact ⟨this.1, this.2.2⟩
  refine ⟨d, ⟨?_, ?_, ?_⟩, ?_⟩
  · intro i hi
    rw [curvR, curvL, (seg i (by omega) _).2, (seg (i + 1) (by omega) _).2, (h2 i hi).2]
  · cases dl with
    | none => simp only [EndCond]; rw [curvL, (seg 0 (by omega) _).2]; exact h3
    | some v => simp only [EndCond]; rw [dL 0 (by omega)]; exact h3
  · have e : n - 2 + 1 = n - 1 := by omega
    cases dr with
    | none => simp only [EndCond]; rw [curvR, (seg (n - 2) (by omega) _).2, e]; exact h4
    | some v =>
      simp only [EndCond]
      have := dR (n - 2) (by omega)
      rw [e] at this
      rw [this]; exact h4
  · intro i hi t t1 t2
    rw [(seg i hi t).1, (h1 i hi).2 t t1 t2]

theorem segment_of {x : ℕ → ℝ} {n : ℕ} (hg : Grid x n) (hn : 2 ≤ n) {t : ℝ} (h0 : x 0 ≤ t) (h1 : t ≤ x (n - 1)) :
    ∃ i, i + 1 < n ∧ x i ≤ t ∧ t ≤ x (i + 1) := by
  rcases bin_cases hg (by omega) t with ⟨h, _⟩ | ⟨h, _⟩ | ⟨h1, h2, _⟩ | ⟨k, hk, h1, h2, _, _⟩
  · linarith
  · linarith
  · omega
  · exact ⟨k, hk, h1, h2⟩

/-- Reflection of symmetric data. -/
theorem smooth_reflect {x f d : ℕ → ℝ} {n : ℕ} {dl dr : Option ℝ} (hg : Grid x n) (hn : 2 ≤ n)
    (hs : ∀ i < n, x i = -x (n - 1 - i) ∧ f i = f (n - 1 - i)) (h : Smooth x f d n dl dr) :
    Smooth x f (fun i => -d (n - 1 - i)) n (dr.map (- ·)) (dl.map (- ·)) := by
  have hh : ∀ i, i + 1 < n → hinv x i = hinv x (n - 2 - i) ∧ slope2 x f i = -slope2 x f (n - 2 - i) := by
    intro i hi
    have e0 := hs i (by omega)
    have e1 := hs (i + 1) (by omega)
    rw [show n - 1 - i = n - 2 - i + 1 by omega] at e0
    rw [show n - 1 - (i + 1) = n - 2 - i by omega] at e1
    have : hinv x i = hinv x (n - 2 - i) := by rw [hinv, hinv, e0.1, e1.1]; ring_nf
    refine ⟨this, ?_⟩
    rw [slope2, slope2, this, e0.2, e1.2]; ring
  have cL : ∀ i, i + 1 < n → curvL x f (fun i => -d (n - 1 - i)) i = curvR x f d (n - 2 - i) ∧
      curvR x f (fun i => -d (n - 1 - i)) i = curvL x f d (n - 2 - i) := by
    intro i hi
    rw [(curv_eq hg f (fun i => -d (n - 1 - i)) hi).1, (curv_eq hg f (fun i => -d (n - 1 - i)) hi).2,
      (curv_eq hg f d (show n - 2 - i + 1 < n by omega)).1, (curv_eq hg f d (show n - 2 - i + 1 < n by omega)).2]
    rw [(hh i hi).1, (hh i hi).2, show n - 1 - i = n - 2 - i + 1 by omega, show n - 1 - (i + 1) = n - 2 - i by omega]
    constructor <;> ring
  refine ⟨?_, ?_, ?_⟩
  · intro i hi
    rw [(cL i (by omega)).2, (cL (i + 1) (by omega)).1]
    have := h.interior (n - 2 - (i + 1)) (by omega)
    rw [show n - 2 - (i + 1) + 1 = n - 2 - i by omega] at this
    exact this.symm
  · have := h.right
    rw [(cL 0 (by omega)).1]
    cases dr with
    | none => simpa [EndCond] using this
    | some v => simpa [EndCond] using this
  · have := h.left
    rw [(cL (n - 2) (by omega)).2, Nat.sub_self]
    cases dl with
    | none => simpa [EndCond] using this
    | some v => simpa [EndCond] using this

/-- the construction gives the unique slopes with the required smoothness -/
theorem construct_smooth {x : ℕ → ℝ} {n : ℕ} (hg : Grid x n) (hn : 2 ≤ n) (f : ℕ → ℝ) (dl dr : Option ℝ)
    (hs : (∀ i < n, x i = -x (n - 1 - i) ∧ f i = f (n - 1 - i)) → dr = dl.map (- ·)) :
    ∃ d, constructCubicSpline x f n dl dr = some d ∧ Smooth x f d n dl dr := by
  classical
  obtain ⟨s, e, hsm, hu⟩ := solve_spec hg hn f dl dr
  have main : ∃ d, constructCubicSpline x f n dl dr = some d ∧ ∀ i < n, d i = Verif.Band.solveBand s.1 s.2 i := by
    rw [constructCubicSpline.eq_def, if_neg (by omega), e]
    refine ⟨_, rfl, ?_⟩
    intro i hi
    by_cases hsym : symmetric x f n
    · have hsym' : ∀ i < n, x i = -x (n - 1 - i) ∧ f i = f (n - 1 - i) := by
        intro j hj
        by_cases hj2 : j < (n + 1) / 2
        · exact hsym j hj2
        · have := hsym (n - 1 - j) (by omega)
          rw [show n - 1 - (n - 1 - j) = j by omega] at this
          exact ⟨by rw [this.1]; ring, this.2.symm⟩
      have hr := smooth_reflect hg hn hsym' hsm
      have hdr := hs hsym'
      have e1 : dr.map (- ·) = dl := by rw [hdr]; cases dl <;> simp
      rw [e1, ← hdr] at hr
      have anti := fun i hi => hu _ hr i hi
      rw [if_pos hsym]
      split_ifs with h1 h2
      · exact anti i hi
      · have := anti i hi
        rw [show n - 1 - i = i by omega] at this
        linarith
      · rfl
    · rw [if_neg hsym]
  obtain ⟨d, hd, hd'⟩ := main
  have hsm' : Smooth x f d n dl dr := by
    refine ⟨?_, ?_, ?_⟩
    · intro i hi
      have := hsm.interior i hi
      rw [curvR, curvL] at this ⊢
      rw [hd' i (by omega), hd' (i + 1) (by omega), hd' (i + 1 + 1) (by omega)]; exact this
    · have := hsm.left
      rw [curvL] at this ⊢
      rw [hd' 0 (by omega), hd' (0 + 1) (by omega)]; exact this
    · have := hsm.right
      rw [curvR] at this ⊢
      rw [hd' (n - 1) (by omega), hd' (n - 2) (by omega), hd' (n - 2 + 1) (by omega)]; exact this
  exact ⟨d, hd, hsm'⟩

/-- C70: for all strictly increasing nodes and all values, and for boundary conditions that are consistent with the
symmetry of the data if the data are symmetric, the construction succeeds; the spline is twice continuously
differentiable, has the required end conditions, and is the only cubic spline with these properties. -/
theorem C70_construct (x f : ℕ → ℝ) (n : ℕ) (hg : Grid x n) (hn : 2 ≤ n) (dl dr : Option ℝ)
    (hs : (∀ i < n, x i = -x (n - 1 - i) ∧ f i = f (n - 1 - i)) → dr = dl.map (- ·)) :
    ∃ d, constructCubicSpline x f n dl dr = some d ∧
    ∃ S : ℝ → Jet3, (∀ t, CubicSpline.evalDeriv x f d n t = some (S t)) ∧ SmoothSpline x f n dl dr S ∧
    ∀ G, IsCubicSpline x f n dl dr G → ∀ t, x 0 ≤ t → t ≤ x (n - 1) → G t = (S t).val := by
  obtain ⟨s, e, hsm, hu⟩ := solve_spec hg hn f dl dr
  obtain ⟨d, hd, hsm'⟩ := construct_smooth hg hn f dl dr hs
  refine ⟨d, hd, ?_⟩
  obtain ⟨S, hS, hI⟩ := smooth_spline hg hn hsm'
  refine ⟨S, hS, hI, ?_⟩
  intro G hG t h0 h1
  obtain ⟨i, hi, ht1, ht2⟩ := segment_of hg hn h0 h1
  obtain ⟨dG, g1, g2⟩ := spline_slopes hg hn hG
  obtain ⟨dS, s1, s2⟩ := spline_slopes hg hn hI.spline
  have u1 := hu dG g1
  have u2 := hu dS s1
  rw [g2 i hi t ht1 ht2]
  have := s2 i hi t ht1 ht2
  rw [this, u1 i (by omega), u1 (i + 1) (by omega), u2 i (by omega), u2 (i + 1) (by omega)]

/-- C70: the natural spline through the points of a straight line is this line, and the spline with the end slopes of a
cubic polynomial through its points is this polynomial (unless the symmetric case changes the slopes). -/
theorem C70_reproduces (x f : ℕ → ℝ) (n : ℕ) (hg : Grid x n) (hn : 2 ≤ n) (dl dr : Option ℝ)
    (hs : (∀ i < n, x i = -x (n - 1 - i) ∧ f i = f (n - 1 - i)) → dr = dl.map (- ·)) (p : Polynomial ℝ) (hp : p.natDegree ≤ 3)
    (hf : ∀ i < n, f i = p.eval (x i))
    (hl : match dl with | some v => v = p.derivative.eval (x 0) | none => p.derivative.derivative.eval (x 0) = 0)
    (hr : match dr with | some v => v = p.derivative.eval (x (n - 1)) | none => p.derivative.derivative.eval (x (n - 1)) = 0) :
    ∃ d, constructCubicSpline x f n dl dr = some d ∧ ∀ t, x 0 ≤ t → t ≤ x (n - 1) →
      ∃ j, CubicSpline.evalDeriv x f d n t = some j ∧ j.val = p.eval t := by
  obtain ⟨d, hd, S, hS, _, hu⟩ := C70_construct x f n hg hn dl dr hs
  refine ⟨d, hd, fun t h0 h1 => ⟨S t, hS t, ?_⟩⟩
  refine (hu (fun t => p.eval t) ⟨fun i hi => (hf i hi).symm, fun _ => p, ?_, ?_, ?_, ?_⟩ t h0 h1).symm
  · intro i _; exact ⟨hp, fun _ _ _ => rfl⟩
  · intro i _; exact ⟨rfl, rfl⟩
  · cases dl with
    | none => exact hl
    | some v => exact hl.symm
  · cases dr with
    | none => exact hr
    | some v => exact hr.symm

/-- The exceptional case is real: for data that are symmetric with respect to the centre of the grid, a prescribed slope
at the left end is replaced by minus the slope at the right end. With nodes -1, 1, values 0, 0 and both slopes set to 1 the
result has slope -1 at the left end (the correct spline is the odd cubic (t^3-t)/2). -/
theorem C70_refuted_symmetric_clamped :
    ∃ d, constructCubicSpline (fun i => if i = 0 then -1 else 1) (fun _ => 0) 2 (some 1) (some 1) = some d ∧ d 0 = -1 ∧ d 1 = 1 ∧
      IsCubicSpline (fun i => if i = 0 then -1 else 1) (fun _ => 0) 2 (some 1) (some 1) (fun t => (t ^ 3 - t) / 2) := by
  classical
  have hg : Grid (fun i => if i = 0 then -1 else 1 : ℕ → ℝ) 2 := by
    intro i j hij hj
    have h0 : i = 0 := by omega
    have h1 : j = 1 := by omega
    subst h0; subst h1; norm_num
  obtain ⟨s, e, hsm, hu⟩ := solve_spec hg le_rfl (fun _ => 0) (some 1) (some 1)
  have e1 : Verif.Band.solveBand s.1 s.2 1 = 1 := by
    have := hsm.right; simpa [EndCond] using this
  rw [constructCubicSpline.eq_def, if_neg (by omega), e]
  refine ⟨_, rfl, ?_, ?_, ?_⟩
  · rw [if_pos]
    · simp [e1]
    · intro i hi
      have : i = 0 := by omega
      subst this; simp
  · split_ifs with h
    · simp [e1]
    · exact e1
  · constructor
    · intro i hi
      have : i = 0 ∨ i = 1 := by omega
      rcases this with rfl | rfl <;> norm_num
    · refine ⟨fun _ => Polynomial.C (1 / 2) * Polynomial.X ^ 3 - Polynomial.C (1 / 2) * Polynomial.X, ?_, ?_, ?_, ?_⟩
      · intro i _
        refine ⟨by show (Polynomial.C (1 / 2 : ℝ) * Polynomial.X ^ 3 - Polynomial.C (1 / 2 : ℝ) * Polynomial.X).natDegree ≤ 3; compute_degree, fun t _ _ => ?_⟩
        simp; ring
      · intro i hi; omega
      · norm_num
      · norm_num

/-- C70 is not vacuous: three nodes, a natural left end and a slope at the right end. -/
example : ∃ d, constructCubicSpline (fun i => (i : ℝ)) (fun i => (i : ℝ) ^ 2) 3 none (some 4) = some d ∧
    ∃ S : ℝ → Jet3, (∀ t, CubicSpline.evalDeriv (fun i => (i : ℝ)) (fun i => (i : ℝ) ^ 2) d 3 t = some (S t)) ∧ (S 2).der = 4 ∧ (S 1).val = 1 := by
  have hg : Grid (fun i => (i : ℝ)) 3 := fun i j hij _ => by simpa using hij
  obtain ⟨d, hd, S, hS, hI, _⟩ := C70_construct _ (fun i => (i : ℝ) ^ 2) 3 hg (by omega) none (some 4)
    (fun h => by have := (h 0 (by omega)).1; norm_num at this)
  refine ⟨d, hd, S, hS, ?_, ?_⟩
  · have := hI.slopeRight 4 rfl; norm_num at this; exact this
  · have := hI.spline.nodes 1 (by omega); norm_num at this; exact this

/-- C70, fewer than two nodes: a constant slope. -/
theorem C70_single (x f : ℕ → ℝ) (dl dr : Option ℝ) :
    ∃ d, constructCubicSpline x f 1 dl dr = some d ∧ d 0 = dl.getD (dr.getD 0) := by
  rw [constructCubicSpline.eq_def, if_pos (by omega)]
  refine ⟨_, rfl, ?_⟩
  cases dl <;> cases dr <;> simp

end
end Verif.Spline
