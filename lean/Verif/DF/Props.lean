import Verif.DF.Model

/-! # C98: action-based distribution functions -/

namespace Verif.DF

open Real Verif.Actions Filter Topology

/-! ### q-exponential -/

theorem qexp_eq_expq {x q : ℝ} (hq : q = 0 ∨ 1e-7 < q) : qexp (-x) (-q) = expq (-x) (-q) := by
  rcases hq with rfl | hq
  · norm_num [qexp, expq]
  · have h1 : |(-q)| > 1e-7 := by rw [abs_neg, abs_of_pos (by norm_num at hq; linarith)]; exact hq
    have h2 : -q ≠ 0 := by norm_num at hq; linarith
    simp only [qexp, expq, if_pos h1, if_neg h2]

/-- the q-exponential of a non-positive number is not negative, for any admissible q including the range in which a series is used -/
theorem qexp_pos {x q : ℝ} (hx : 0 ≤ x) (hq : 0 ≤ q) : 0 < qexp (-x) (-q) := by
  simp only [qexp]
  split_ifs with h1 h2
  · have : 0 < 1 + -q * -x := by nlinarith
    positivity
  · have hq1 : q ≤ 1e-7 := by rw [abs_neg, abs_of_nonneg hq] at h1; exact not_lt.mp h1
    refine mul_pos (exp_pos _) ?_
    have e : 1 + -q * -x * -x * (-0.5 + -q * -x * (1 / 3 + 1 / 8 * -x)) = 1 + q * x ^ 2 / 2 + q ^ 2 * x ^ 3 * (x / 8 - 1 / 3) := by ring
    rw [e]
    by_cases hx8 : 8 / 3 ≤ x
    · have : 0 ≤ q ^ 2 * x ^ 3 * (x / 8 - 1 / 3) := mul_nonneg (by positivity) (by linarith)
      have : 0 ≤ q * x ^ 2 / 2 := by positivity
      linarith
    · push Not at hx8
      have a1 : q ^ 2 ≤ 1 / 100 := by norm_num at hq1; nlinarith
      have a2 : x ^ 3 ≤ (8 / 3) ^ 3 := pow_le_pow_left₀ hx hx8.le 3
      have a3 : q ^ 2 * x ^ 3 ≤ 1 / 100 * (8 / 3) ^ 3 := mul_le_mul a1 a2 (by positivity) (by norm_num)
      have a4 : 0 ≤ q ^ 2 * x ^ 3 := by positivity
      have : 0 ≤ q * x ^ 2 / 2 := by positivity
      have a5 : q ^ 2 * x ^ 3 * (x / 8 - 1 / 3) ≥ -(1 / 100 * (8 / 3) ^ 3 * (1 / 3)) := by nlinarith
      norm_num at a5
      linarith
  · simp; positivity

theorem qexp_deriv {u : ℝ → ℝ} {u' t q : ℝ} {S : Set ℝ} (hu : HasDerivWithinAt u u' S t) (hq : q = 0 ∨ 1e-7 < q) (h0 : 0 ≤ u t) :
    HasDerivWithinAt (fun s => qexp (-u s) (-q)) (-(qexp (-u t) (-q)) * (u' / (1 + q * u t))) S t := by
  rcases hq with rfl | hq
  · have e : ∀ x, qexp (-x) (-0) = exp (-x) := fun x => by norm_num [qexp]
    simp only [e]
    refine hu.neg.exp.congr_deriv ?_
    simp
  · have hq0 : 0 < q := by norm_num at hq; linarith
    have h1 : |(-q)| > 1e-7 := by rw [abs_neg, abs_of_pos hq0]; exact hq
    have e : ∀ x, qexp (-x) (-q) = (1 + q * x) ^ (-(1 / q)) := fun x => by simp only [qexp, if_pos h1]; congr 1 <;> [ring; field_simp]
    simp only [e]
    have hp : 0 < 1 + q * u t := by positivity
    have h2 := ((hu.const_mul q).const_add 1).rpow_const (p := -(1 / q)) (Or.inl hp.ne')
    refine h2.congr_deriv ?_
    rw [rpow_sub_one hp.ne']
    field_simp

/-! ### exponential disk -/

/-- C98 (exponential): the value is the documented one whenever q-parameters are zero or not too small; it is never negative -/
theorem C98_exp_value (P : ExponentialParam) (hP : P.accepted) (J : Act) (hJ : Phys J) :
    ((P.qJr = 0 ∨ 1e-7 < P.qJr) → (P.qJz = 0 ∨ 1e-7 < P.qJz) → (P.qJphi = 0 ∨ 1e-7 < P.qJphi) → (P.evalDeriv J).1 = expSpec P J) ∧ 0 ≤ (P.evalDeriv J).1 := by
  obtain ⟨h1, ⟨h2, h3, h4⟩, ⟨h5, h6⟩, ⟨h7, h8⟩, q1, q2, q3, q4, q5, q6⟩ := hP
  constructor
  · intro a1 a2 a3
    simp only [ExponentialParam.evalDeriv, expSpec]
    rw [qexp_eq_expq a1, qexp_eq_expq a2, qexp_eq_expq a3]
    have e1 : (if J.Jphi ≥ 0 then (1:ℝ) else -1) * J.Jphi = |J.Jphi| := by
      split_ifs with h
      · rw [abs_of_nonneg h]; ring
      · rw [abs_of_neg (not_le.mp h)]; ring
    have e2 : J.Jr - (if J.Jphi ≥ 0 then 0 else J.Jphi) = J.Jr + max 0 (-J.Jphi) := by
      split_ifs with h
      · rw [max_eq_left (by linarith)]; ring
      · rw [max_eq_right (by linarith [not_le.mp h])]; ring
    rw [e1, e2]
    have e3 : ∀ a b : ℝ, expq (-(a * b / P.Jr0 ^ 2)) (-P.qJr) = expq (-(b * a / P.Jr0 ^ 2)) (-P.qJr) := fun a b => by rw [mul_comm]
    have e4 : ∀ a b : ℝ, expq (-(a * b / P.Jz0 ^ 2)) (-P.qJz) = expq (-(b * a / P.Jz0 ^ 2)) (-P.qJz) := fun a b => by rw [mul_comm]
    rw [e3 (J.Jr + max 0 (-J.Jphi)), e4 J.Jz, ← neg_div]
    field_simp
  · simp only [ExponentialParam.evalDeriv]
    have hn : 0 ≤ J.Jr - (if J.Jphi ≥ 0 then 0 else J.Jphi) := by
      have := hJ.1
      split_ifs with h <;> linarith
    have s1 := sqrt_nonneg (((if J.Jphi ≥ 0 then (1:ℝ) else -1) * J.Jphi + P.coefJr * J.Jr + P.coefJz * J.Jz) ^ 2 + P.addJvel ^ 2)
    have s2 := sqrt_nonneg (((if J.Jphi ≥ 0 then (1:ℝ) else -1) * J.Jphi + P.coefJr * J.Jr + P.coefJz * J.Jz) ^ 2 + P.addJden ^ 2)
    have p1 := qexp_pos (x := √(((if J.Jphi ≥ 0 then (1:ℝ) else -1) * J.Jphi + P.coefJr * J.Jr + P.coefJz * J.Jz) ^ 2 + P.addJden ^ 2) / P.Jphi0) (by positivity) q5
    have p2 := qexp_pos (x := √(((if J.Jphi ≥ 0 then (1:ℝ) else -1) * J.Jphi + P.coefJr * J.Jr + P.coefJz * J.Jz) ^ 2 + P.addJvel ^ 2) * (J.Jr - (if J.Jphi ≥ 0 then 0 else J.Jphi)) / P.Jr0 ^ 2) (by positivity) q1
    have p3 := qexp_pos (x := √(((if J.Jphi ≥ 0 then (1:ℝ) else -1) * J.Jphi + P.coefJr * J.Jr + P.coefJz * J.Jz) ^ 2 + P.addJvel ^ 2) * J.Jz / P.Jz0 ^ 2) (by have := hJ.2; positivity) q3
    positivity

/-- C98 (exponential, derivatives): the derivatives reported are those of the value, wherever the combinations of actions entering the formula do not vanish -/
theorem C98_exp_deriv (P : ExponentialParam) (hP : P.accepted) (hr : P.qJr = 0 ∨ 1e-7 < P.qJr) (hz : P.qJz = 0 ∨ 1e-7 < P.qJz)
    (hphi : P.qJphi = 0 ∨ 1e-7 < P.qJphi) (J : Act)
    (h0 : 0 < (|J.Jphi| + P.coefJr * J.Jr + P.coefJz * J.Jz) ^ 2 + P.addJden ^ 2) (h0' : 0 < (|J.Jphi| + P.coefJr * J.Jr + P.coefJz * J.Jz) ^ 2 + P.addJvel ^ 2) :
    IsDerivDF (fun J => (P.evalDeriv J).1) (P.evalDeriv J).2 J := by
  obtain ⟨h1, ⟨h2, h3, h4⟩, ⟨h5, h6⟩, ⟨h7, h8⟩, q1, q2, q3, q4, q5, q6⟩ := hP
  intro S a b c a' b' c' t ht ha hb hc hJ hS
  subst hJ
  simp only at h0 h0' hS
  have sgn : ∀ s ∈ S, (if c s ≥ 0 then (1:ℝ) else -1) = (if c t ≥ 0 then 1 else -1) ∧ (if c s ≥ 0 then 0 else c s) = (if c t ≥ 0 then 0 else 1) * c s := by
    intro s hs
    have := (hS s hs).2
    by_cases h : 0 ≤ c t
    · have h' := this.mpr h
      simp [h, h']
    · have h' : ¬ 0 ≤ c s := fun x => h (this.mp x)
      simp [h, h']
  -- on this side, everything is a smooth function
  set σ : ℝ := if c t ≥ 0 then 1 else -1 with hσ
  set τ : ℝ := if c t ≥ 0 then 0 else 1 with hτ
  set C := 1 / (2 * π) ^ 3 * P.norm / (P.Jr0 * P.Jz0 * P.Jphi0) ^ 2 with hC
  let X : ℝ → ℝ := fun s => σ * c s + P.coefJr * a s + P.coefJz * b s
  have hX : HasDerivWithinAt X (σ * c' + P.coefJr * a' + P.coefJz * b') S t := ((hc.const_mul σ).add (ha.const_mul P.coefJr)).add (hb.const_mul P.coefJz)
  have eX : X t = |c t| + P.coefJr * a t + P.coefJz * b t := by
    simp only [X, hσ]
    split_ifs with h
    · rw [abs_of_nonneg h]; ring
    · rw [abs_of_neg (not_le.mp h)]; ring
  rw [← eX] at h0 h0'
  have hsq : ∀ A : ℝ, 0 < X t ^ 2 + A ^ 2 → HasDerivWithinAt (fun s => √(X s ^ 2 + A ^ 2)) (X t * (σ * c' + P.coefJr * a' + P.coefJz * b') / √(X t ^ 2 + A ^ 2)) S t := by
    intro A hA
    refine (((hX.pow 2).add_const (A ^ 2)).sqrt hA.ne').congr_deriv ?_
    simp only [Pi.pow_apply]
    have := (sqrt_pos.mpr hA).ne'
    field_simp
    push_cast; ring
  have hD := hsq _ h0
  have hV := hsq _ h0'
  have pD := sqrt_pos.mpr h0
  have pV := sqrt_pos.mpr h0'
  have hn : HasDerivWithinAt (fun s => a s - τ * c s) (a' - τ * c') S t := ha.sub (hc.const_mul τ)
  have hphys := (hS t ht).1
  have hnn : 0 ≤ a t - τ * c t := by
    have := hphys.1
    simp only at this
    rw [hτ]; split_ifs with h <;> [linarith; nlinarith [not_le.mp h]]
  have A1 : HasDerivWithinAt (fun s => √(X s ^ 2 + P.addJden ^ 2) / P.Jphi0) _ S t := hD.div_const P.Jphi0
  have A2 : HasDerivWithinAt (fun s => √(X s ^ 2 + P.addJvel ^ 2) * (a s - τ * c s) / P.Jr0 ^ 2) _ S t := (hV.mul hn).div_const (P.Jr0 ^ 2)
  have A3 : HasDerivWithinAt (fun s => √(X s ^ 2 + P.addJvel ^ 2) * b s / P.Jz0 ^ 2) _ S t := (hV.mul hb).div_const (P.Jz0 ^ 2)
  have n1 : 0 ≤ √(X t ^ 2 + P.addJden ^ 2) / P.Jphi0 := by positivity
  have n2 : 0 ≤ √(X t ^ 2 + P.addJvel ^ 2) * (a t - τ * c t) / P.Jr0 ^ 2 := by positivity
  have n3 : 0 ≤ √(X t ^ 2 + P.addJvel ^ 2) * b t / P.Jz0 ^ 2 := by have := hphys.2; simp only at this; positivity
  have Q1 := qexp_deriv A1 hphi n1
  have Q2 := qexp_deriv A2 hr n2
  have Q3 := qexp_deriv A3 hz n3
  have H := (((((((hV.const_mul C)).mul hV).mul hD).mul Q1).mul Q2).mul Q3)
  have form : ∀ s ∈ S, (P.evalDeriv ⟨a s, b s, c s⟩).1 = C * √(X s ^ 2 + P.addJvel ^ 2) * √(X s ^ 2 + P.addJvel ^ 2) * √(X s ^ 2 + P.addJden ^ 2) *
      qexp (-(√(X s ^ 2 + P.addJden ^ 2) / P.Jphi0)) (-P.qJphi) * qexp (-(√(X s ^ 2 + P.addJvel ^ 2) * (a s - τ * c s) / P.Jr0 ^ 2)) (-P.qJr) *
      qexp (-(√(X s ^ 2 + P.addJvel ^ 2) * b s / P.Jz0 ^ 2)) (-P.qJz) := by
    intro s hs
    obtain ⟨e1, e2⟩ := sgn s hs
    simp only [ExponentialParam.evalDeriv, e1, e2, X, hC]
  refine (H.congr_deriv ?_).congr (fun s hs => form s hs) (form t ht)
  obtain ⟨e1, e2⟩ := sgn t ht
  have form2 : (P.evalDeriv ⟨a t, b t, c t⟩).2.dbyJr * a' + (P.evalDeriv ⟨a t, b t, c t⟩).2.dbyJz * b' + (P.evalDeriv ⟨a t, b t, c t⟩).2.dbyJphi * c' =
      (P.evalDeriv ⟨a t, b t, c t⟩).1 * ((X t * ((1 - √(X t ^ 2 + P.addJden ^ 2) / P.Jphi0 / (1 + P.qJphi * (√(X t ^ 2 + P.addJden ^ 2) / P.Jphi0))) / √(X t ^ 2 + P.addJden ^ 2) ^ 2 +
        (1 - √(X t ^ 2 + P.addJvel ^ 2) * (a t - τ * c t) / P.Jr0 ^ 2 / (1 + P.qJr * (√(X t ^ 2 + P.addJvel ^ 2) * (a t - τ * c t) / P.Jr0 ^ 2)) + 1 -
          √(X t ^ 2 + P.addJvel ^ 2) * b t / P.Jz0 ^ 2 / (1 + P.qJz * (√(X t ^ 2 + P.addJvel ^ 2) * b t / P.Jz0 ^ 2))) / √(X t ^ 2 + P.addJvel ^ 2) ^ 2)) *
        (σ * c' + P.coefJr * a' + P.coefJz * b') - √(X t ^ 2 + P.addJvel ^ 2) / P.Jr0 ^ 2 / (1 + P.qJr * (√(X t ^ 2 + P.addJvel ^ 2) * (a t - τ * c t) / P.Jr0 ^ 2)) * (a' - τ * c') -
        √(X t ^ 2 + P.addJvel ^ 2) / P.Jz0 ^ 2 / (1 + P.qJz * (√(X t ^ 2 + P.addJvel ^ 2) * b t / P.Jz0 ^ 2)) * b') := by
    rw [form t ht]
    by_cases h : c t ≥ 0
    · simp only [ExponentialParam.evalDeriv, hσ, hτ, X, if_pos h, hC]
      rw [if_neg (by simp)]
      simp only [zero_mul, sub_zero]
      ring
    · simp only [ExponentialParam.evalDeriv, hσ, hτ, X, if_neg h, hC]
      rw [if_pos (show c t ≠ 0 by intro h'; exact h h'.ge)]
      simp only [one_mul]
      ring
  rw [form2, form t ht]
  have m1 : 1 + P.qJphi * (√(X t ^ 2 + P.addJden ^ 2) / P.Jphi0) ≠ 0 := by positivity
  have m2 : 1 + P.qJr * (√(X t ^ 2 + P.addJvel ^ 2) * (a t - τ * c t) / P.Jr0 ^ 2) ≠ 0 := by positivity
  have m3 : 1 + P.qJz * (√(X t ^ 2 + P.addJvel ^ 2) * b t / P.Jz0 ^ 2) ≠ 0 := by positivity
  simp only [Pi.mul_apply]
  generalize √(X t ^ 2 + P.addJden ^ 2) = D at *
  generalize √(X t ^ 2 + P.addJvel ^ 2) = V at *
  generalize qexp (-(D / P.Jphi0)) (-P.qJphi) = E1
  generalize qexp (-(V * (a t - τ * c t) / P.Jr0 ^ 2)) (-P.qJr) = E2
  generalize qexp (-(V * b t / P.Jz0 ^ 2)) (-P.qJz) = E3
  generalize 1 + P.qJphi * (D / P.Jphi0) = M1 at *
  generalize 1 + P.qJr * (V * (a t - τ * c t) / P.Jr0 ^ 2) = M2 at *
  generalize 1 + P.qJz * (V * b t / P.Jz0 ^ 2) = M3 at *
  generalize a t - τ * c t = n at *
  generalize a' - τ * c' = n' at *
  generalize σ * c' + P.coefJr * a' + P.coefJz * b' = x' at *
  generalize X t = x at *
  have := pD.ne'
  have := pV.ne'
  field_simp
  ring

end Verif.DF
