import Verif.SphHarm.Legendre

/-! C48: the arrays computed by `sphHarmArray` are the derivatives of each other, and W_l^m has the parity (-1)^(l+m). -/
namespace Verif.SphHarm
open Real

/-- sin^m Q(cos). -/
noncomputable def G (m n : ℕ) (t : ℝ) : ℝ := sin t ^ m * Q m (cos t) n

noncomputable def dG (m n : ℕ) (t : ℝ) : ℝ :=
  m * sin t ^ (m - 1) * cos t * Q m (cos t) n - sin t ^ (m + 1) * dQ m (cos t) n

theorem hasDerivAt_G (m n : ℕ) (t : ℝ) : HasDerivAt (G m n) (dG m n t) t := by
  have h1 := (hasDerivAt_sin t).pow m
  have h2 := HasDerivAt.comp t (hasDerivAt_Q m (cos t) n) (hasDerivAt_cos t)
  have := h1.mul h2
  refine (this.congr_of_eventuallyEq ?_).congr_deriv ?_
  · exact Filter.Eventually.of_forall fun y => rfl
  · simp only [Function.comp, Pi.pow_apply, dG]; ring

theorem sin_dG (m n : ℕ) (t : ℝ) : sin t * dG m (n + 1) t =
    (m + n + 1) * cos t * G m (n + 1) t - (m + n + 1 + m) * G m n t := by
  have h := (dQ_ident m (cos t) n).1
  have hs := sin_sq_add_cos_sq t
  have e : (cos t) ^ 2 - 1 = -(sin t) ^ 2 := by linarith
  rw [e] at h
  rw [dG, G, G]
  rcases m with _ | m
  · simp only [Nat.cast_zero, zero_mul, pow_zero, one_mul, zero_add, mul_zero, add_zero] at h ⊢
    linear_combination h
  · rw [Nat.add_sub_cancel]
    push_cast at h ⊢
    linear_combination (sin t) ^ (m + 1) * h

theorem sin_dG' (m n : ℕ) (t : ℝ) : sin t * dG m n t =
    (n + 1) * G m (n + 1) t - (m + n + 1) * cos t * G m n t := by
  have h := (dQ_ident m (cos t) n).2
  have hs := sin_sq_add_cos_sq t
  have e : (cos t) ^ 2 - 1 = -(sin t) ^ 2 := by linarith
  rw [e] at h
  rw [dG, G, G]
  rcases m with _ | m
  · simp only [Nat.cast_zero, zero_mul, pow_zero, one_mul, zero_add, mul_zero, add_zero] at h ⊢
    linear_combination h
  · rw [Nat.add_sub_cancel]
    push_cast at h ⊢
    linear_combination (sin t) ^ (m + 1) * h

/-- The second derivative away from the poles: Legendre's equation. -/
theorem hasDerivAt_dG (m n : ℕ) (t : ℝ) (hs : sin t ≠ 0) :
    HasDerivAt (dG m n) (-(cos t / sin t) * dG m n t -
      (((m + n : ℕ) : ℝ) * ((m + n : ℕ) + 1) - (m / sin t) ^ 2) * G m n t) t := by
  have e : dG m n =ᶠ[nhds t] fun y =>
      ((n + 1) * G m (n + 1) y - (m + n + 1) * cos y * G m n y) / sin y := by
    filter_upwards [(continuous_sin.continuousAt (x := t)).eventually_ne hs] with y hy
    rw [eq_div_iff hy, mul_comm, sin_dG']
  have d := (((hasDerivAt_G m (n + 1) t).const_mul ((n : ℝ) + 1)).sub
    (((hasDerivAt_cos t).const_mul ((m : ℝ) + n + 1)).mul (hasDerivAt_G m n t))).div (hasDerivAt_sin t) hs
  refine (d.congr_of_eventuallyEq e).congr_deriv ?_
  have h1 := sin_dG m n t
  have h2 := sin_dG' m n t
  have sq := sin_sq_add_cos_sq t
  have h1' : dG m (n + 1) t = ((m + n + 1) * cos t * G m (n + 1) t - (m + n + 1 + m) * G m n t) / sin t := by
    rw [eq_div_iff hs, mul_comm, h1]
  have h2' : dG m n t = ((n + 1) * G m (n + 1) t - (m + n + 1) * cos t * G m n t) / sin t := by
    rw [eq_div_iff hs, mul_comm, h2]
  simp only [Pi.sub_apply, Pi.mul_apply]
  rw [h1', h2']
  push_cast
  have c2 : cos t ^ 2 = 1 - sin t ^ 2 := by linarith
  field_simp
  ring_nf
  simp only [show cos t ^ 2 = 1 - sin t ^ 2 from c2]
  ring

/-- The second derivative at the poles. -/
theorem hasDerivAt_dG_pole (m n : ℕ) (t : ℝ) (hs : sin t = 0) :
    HasDerivAt (dG m n) (if m = 0 then -(cos t * dQ 0 (cos t) n) else if m = 2 then 2 * Q 2 (cos t) n else 0) t := by
  have sq := sin_sq_add_cos_sq t
  have c2 : cos t ^ 2 = 1 := by rw [hs] at sq; linarith
  have hQ := HasDerivAt.comp t (hasDerivAt_Q m (cos t) n) (hasDerivAt_cos t)
  have hD := HasDerivAt.comp t (differentiable_dQ m (cos t) n).hasDerivAt (hasDerivAt_cos t)
  have d := (((((hasDerivAt_sin t).pow (m - 1)).const_mul (m : ℝ)).mul (hasDerivAt_cos t)).mul hQ).sub
    (((hasDerivAt_sin t).pow (m + 1)).mul hD)
  refine (d.congr_of_eventuallyEq (Filter.Eventually.of_forall fun y => rfl)).congr_deriv ?_
  simp only [Pi.mul_apply, Pi.pow_apply, Function.comp, hs]
  rcases m with _ | _ | _ | m
  · simp
  · simp
  · simp
    left; linear_combination 2 * c2
  · simp

/-! ## The arrays -/

/-- Normalisation factor after n steps. -/
noncomputable def pre (m : ℕ) : ℕ → ℝ
  | 0 => prefact0 m
  | n + 1 => pre m n * √((2 * (m + n + 1 : ℕ) + 1) / (2 * (m + n + 1 : ℕ) - 1) * ((m + n + 1 : ℕ) - m) /
      ((m + n + 1 : ℕ) + m))

/-- (-1)^m (2m-1)!!. -/
noncomputable def cm (m : ℕ) : ℝ := (-1) ^ m * (Nat.doubleFactorial (2 * m - 1) : ℝ)

theorem prefact0_pos (m : ℕ) : 0 < prefact0 m := by
  rw [prefact0]
  have : 0 < √π := sqrt_pos.2 pi_pos
  have : 0 < √((2 * (m : ℝ) + 1) / ((Nat.factorial (2 * m) : ℕ) : ℝ)) := by
    apply sqrt_pos.2
    have : (0 : ℝ) < ((Nat.factorial (2 * m) : ℕ) : ℝ) := by exact_mod_cast Nat.factorial_pos _
    positivity
  positivity

theorem pre_pos (m : ℕ) : ∀ n, 0 < pre m n
  | 0 => prefact0_pos m
  | n + 1 => by
    rw [pre]
    apply mul_pos (pre_pos m n)
    apply sqrt_pos.2
    push_cast
    have a : (0 : ℝ) ≤ m := Nat.cast_nonneg m
    have b : (0 : ℝ) ≤ n := Nat.cast_nonneg n
    have h1 : (0 : ℝ) < 2 * (m + n + 1) - 1 := by linarith
    have h2 : (0 : ℝ) < (m + n + 1) - m := by linarith
    positivity

theorem cm_ne_zero (m : ℕ) : cm m ≠ 0 := by
  rw [cm]
  have : (0 : ℝ) < (Nat.doubleFactorial (2 * m - 1) : ℝ) := by exact_mod_cast Nat.doubleFactorial_pos _
  have : ((-1 : ℝ)) ^ m ≠ 0 := pow_ne_zero _ (by norm_num)
  positivity

theorem legendrePmm_val (m : ℕ) (ct st : ℝ) : (legendrePmm m ct st).val = prefact0 m * (cm m * st ^ m) := by
  rw [legendrePmm, cm]
  rcases m with _ | _ | m
  · simp
  · simp; ring
  · have h0 : m + 1 + 1 ≠ 0 := by omega
    have h1 : m + 1 + 1 ≠ 1 := by omega
    simp only [if_neg h0, if_neg h1]
    have e : (if (m + 1 + 1) % 2 = 1 then (-1 : ℝ) else 1) = (-1) ^ (m + 1 + 1) := by
      rcases Nat.even_or_odd (m + 1 + 1) with h | h
      · rw [h.neg_one_pow, if_neg (by rw [Nat.even_iff] at h; omega)]
      · rw [h.neg_one_pow, if_pos (Nat.odd_iff.1 h)]
    rw [e, show m + 1 + 1 - 2 = m by omega]
    ring

/-- What the loop variables hold on entry to iteration l = m+n+1. -/
structure Inv (m : ℕ) (ct st : ℝ) (n : ℕ) (s : LegState) : Prop where
  pre : s.prefact = pre m n
  p1 : s.plm1 = cm m * st ^ m * Q m ct n
  p2 : ∀ k, n = k + 1 → s.plm2 = cm m * st ^ m * Q m ct k
  p0 : n = 0 → s.plm = cm m * st ^ m * Q m ct 1
  d : st = 0 → m = 1 → s.d2plm = 0 ∧ s.d2plm1 = 0 ∧ s.d2plm2 = 0

theorem step_plm {m : ℕ} {ct st : ℝ} {n : ℕ} {s : LegState} (h : Inv m ct st n s) :
    (if m + n + 1 > m + 1 then
      (ct * (2 * ((m + n + 1 : ℕ) : ℝ) - 1) * s.plm1 - (((m + n + 1 : ℕ) : ℝ) + m - 1) * s.plm2) /
        (((m + n + 1 : ℕ) : ℝ) - m)
      else s.plm) = cm m * st ^ m * Q m ct (n + 1) := by
  rcases n with _ | n
  · rw [if_neg (by omega), h.p0 rfl]
  · rw [if_pos (by omega), h.p1, h.p2 n rfl]
    have r := Q_rec m ct n
    have hn : ((n : ℝ) + 2) ≠ 0 := by positivity
    have hd : (((m + (n + 1) + 1 : ℕ) : ℝ) - m) = n + 2 := by push_cast; ring
    rw [hd, div_eq_iff hn]
    push_cast
    linear_combination (-(cm m * st ^ m)) * r

theorem step_inv {m : ℕ} {ct st : ℝ} {n : ℕ} {s : LegState} (h : Inv m ct st n s) :
    Inv m ct st (n + 1) (legStep (m + n + 1) m ct st s).1 := by
  have hp := step_plm h
  have hpre : s.prefact * √((2 * ((m + n + 1 : ℕ) : ℝ) + 1) / (2 * ((m + n + 1 : ℕ) : ℝ) - 1) *
      (((m + n + 1 : ℕ) : ℝ) - m) / (((m + n + 1 : ℕ) : ℝ) + m)) = pre m (n + 1) := by
    rw [h.pre, pre]
  rw [legStep]
  simp only
  rw [hpre, hp]
  by_cases hb : ¬ (st ≥ EPS ∨ (m > 2 ∧ st > 0)) ∧ m = 1
  · rw [if_pos hb]
    refine ⟨rfl, rfl, ?_, fun h => by omega, ?_⟩
    · intro k hk
      have : n = k := by omega
      subst this; exact h.p1
    · intro h0 h1
      obtain ⟨a, b, c⟩ := h.d h0 h1
      have hpl : s.plm1 = 0 := by rw [h.p1, h0, h1]; ring
      simp only [a, b, c, hpl, h0]
      refine ⟨?_, ?_, by trivial⟩
      · by_cases hh : m + n + 1 > m + 1
        · rw [if_pos hh]; ring
        · rw [if_neg hh]
      · by_cases hh : m + n + 1 > m + 1
        · rw [if_pos hh]; ring
        · rw [if_neg hh]
  · rw [if_neg hb]
    refine ⟨rfl, rfl, ?_, fun h => by omega, h.d⟩
    intro k hk
    have : n = k := by omega
    subst this; exact h.p1

theorem legLoop_get {m : ℕ} {ct st : ℝ} : ∀ (k n : ℕ) (s : LegState), Inv m ct st n s → ∀ i < k,
    ∃ s', Inv m ct st (n + i) s' ∧
      (legLoop m ct st k (m + n + 1) s)[i]? = some (legStep (m + (n + i) + 1) m ct st s').2
  | 0, _, _, _, i, hi => by omega
  | k + 1, n, s, h, 0, _ => ⟨s, by simpa using h, by rw [legLoop]; simp⟩
  | k + 1, n, s, h, i + 1, hi => by
    obtain ⟨s', h1, h2⟩ := legLoop_get k (n + 1) _ (step_inv h) i (by omega)
    refine ⟨s', by rwa [show n + (i + 1) = n + 1 + i by omega], ?_⟩
    rw [legLoop, List.getElem?_cons_succ, show n + (i + 1) = n + 1 + i by omega]
    exact h2

theorem length_legLoop (m : ℕ) (ct st : ℝ) : ∀ k l s, (legLoop m ct st k l s).length = k
  | 0, _, _ => rfl
  | k + 1, l, s => by rw [legLoop, List.length_cons, length_legLoop]

/-- tau as a function of theta (math_sphharm.h:20). -/
noncomputable def tauOf (t : ℝ) : ℝ := cos t / (sin t + 1)

theorem tau_ct {t : ℝ} (h : sin t + 1 ≠ 0) :
    2 * tauOf t / (1 + tauOf t * tauOf t) = cos t ∧ (1 - tauOf t * tauOf t) / (1 + tauOf t * tauOf t) = sin t := by
  have sq := sin_sq_add_cos_sq t
  have e : 1 + tauOf t * tauOf t = 2 / (sin t + 1) := by
    rw [tauOf]; field_simp; linear_combination sq
  have hp : 2 / (sin t + 1) ≠ 0 := div_ne_zero two_ne_zero h
  rw [e]
  constructor
  · rw [tauOf]; field_simp
  · rw [div_eq_iff hp, tauOf]; field_simp; linear_combination (-1 : ℝ) * sq

/-- The output at index n in terms of the recurrence. -/
theorem array_get {lmax m n : ℕ} (hm : m + n ≤ lmax) {t : ℝ} (ht : sin t + 1 ≠ 0) :
    ∃ a, sphHarmArray lmax m (tauOf t) = some a ∧ a.length = lmax - m + 1 ∧
      ∃ o, a[n]? = some o ∧
      ((n = 0 ∧ o = legendrePmm m (cos t) (sin t)) ∨
       ∃ k s, n = k + 1 ∧ Inv m (cos t) (sin t) k s ∧ o = (legStep (m + k + 1) m (cos t) (sin t) s).2) := by
  obtain ⟨hc, hs⟩ := tau_ct ht
  rw [sphHarmArray]
  rw [if_neg (by omega)]
  simp only [hc, hs]
  by_cases h0 : lmax = 0
  · rw [if_pos h0]
    refine ⟨_, rfl, by simp; omega, ?_⟩
    have hn : n = 0 := by omega
    have hm0 : m = 0 := by omega
    subst hn; subst hm0
    refine ⟨_, rfl, Or.inl ⟨rfl, ?_⟩⟩
    rw [legendrePmm]
    simp [prefact0]
  rw [if_neg h0]
  by_cases h1 : lmax = m
  · rw [if_pos h1]
    have hn : n = 0 := by omega
    subst hn
    exact ⟨_, rfl, by simp; omega, _, rfl, Or.inl ⟨rfl, rfl⟩⟩
  rw [if_neg h1]
  refine ⟨_, rfl, by rw [List.length_cons, length_legLoop], ?_⟩
  rcases n with _ | k
  · exact ⟨_, rfl, Or.inl ⟨rfl, rfl⟩⟩
  · have hp : (legendrePmm m (cos t) (sin t)).val / prefact0 m = cm m * sin t ^ m := by
      rw [legendrePmm_val, mul_div_cancel_left₀ _ (prefact0_pos m).ne']
    have inv : Inv m (cos t) (sin t) 0 ⟨prefact0 m, cos t * (2 * m + 1) * ((legendrePmm m (cos t) (sin t)).val /
        prefact0 m), (legendrePmm m (cos t) (sin t)).val / prefact0 m, 0, 12 * cos t * sin t, sin t, 0⟩ := by
      rw [hp]
      refine ⟨rfl, ?_, fun k hk => by omega, fun _ => ?_, fun h _ => ?_⟩
      · simp [Q]
      · simp only [Q]; ring
      · simp [h]
    obtain ⟨s', hi, hg⟩ := legLoop_get (lmax - m) 0 _ inv k (by omega)
    simp only [zero_add] at hi hg
    refine ⟨_, ?_, Or.inr ⟨k, s', rfl, hi, rfl⟩⟩
    rw [List.getElem?_cons_succ]
    exact hg

/-- All values in terms of the polynomials. -/
theorem array_val {lmax m n : ℕ} (hm : m + n ≤ lmax) {t : ℝ} (ht : sin t + 1 ≠ 0) :
    ∃ a o, sphHarmArray lmax m (tauOf t) = some a ∧ a[n]? = some o ∧ o.val = pre m n * cm m * G m n t := by
  obtain ⟨a, h, -, o, ho, hc⟩ := array_get hm ht
  refine ⟨a, o, h, ho, ?_⟩
  rcases hc with ⟨rfl, rfl⟩ | ⟨k, s, rfl, inv, rfl⟩
  · rw [legendrePmm_val, pre, G, Q]; ring
  · have hp := step_plm inv
    rw [legStep]
    simp only
    rw [hp, inv.pre, pre, G]; ring

/-- Where the derivatives are exact: away from the z axis by the code's threshold, or exactly on the axis. -/
def Exact (m : ℕ) (t : ℝ) : Prop := sin t ≥ EPS ∨ (m > 2 ∧ sin t > 0) ∨ sin t = 0

theorem EPS_pos : 0 < EPS := by rw [EPS]; positivity

theorem Exact.cases {m : ℕ} {t : ℝ} (h : Exact m t) :
    ((sin t ≥ EPS ∨ (m > 2 ∧ sin t > 0)) ∧ sin t ≠ 0) ∨
    (sin t = 0 ∧ ¬ (sin t ≥ EPS ∨ (m > 2 ∧ sin t > 0)) ∧ ((cos t = 1) ∨ (cos t = -1 ∧ ¬ cos t > 0))) := by
  have hE := EPS_pos
  rcases h with h | h | h
  · exact Or.inl ⟨Or.inl h, by linarith⟩
  · exact Or.inl ⟨Or.inr h, by linarith [h.2]⟩
  · refine Or.inr ⟨h, ?_, ?_⟩
    · rw [h]; push Not; exact ⟨hE, fun _ => le_rfl⟩
    · have sq := sin_sq_add_cos_sq t
      rw [h] at sq
      have : cos t ^ 2 = 1 := by linarith
      rcases mul_self_eq_one_iff.1 (by rw [← pow_two]; exact this : cos t * cos t = 1) with h' | h'
      all_goals first | exact Or.inl h' | exact Or.inr ⟨h', by rw [h']; norm_num⟩

theorem choose_three (n : ℕ) : ((2 * 1 + n).choose (2 * 1) : ℝ) = ((n : ℝ) + 1) * (n + 2) / 2 := by
  have := Nat.triangle_succ (n + 1)
  have h : (2 * 1 + n).choose (2 * 1) = (n + 2) * (n + 1) / 2 := by
    rw [show 2 * 1 + n = n + 2 by ring, show 2 * 1 = 2 by ring, Nat.choose_two_right]; simp
  have h2 : 2 ∣ (n + 2) * (n + 1) := by
    rcases Nat.even_or_odd n with h | h
    · exact Dvd.dvd.mul_right (by obtain ⟨k, rfl⟩ := h; exact ⟨k + 1, by ring⟩) _
    · exact Dvd.dvd.mul_left (by obtain ⟨k, rfl⟩ := h; exact ⟨k + 1, by ring⟩) _
  rw [h, Nat.cast_div h2 (by norm_num)]; push_cast; ring

theorem choose_four (n : ℕ) : ((2 * 2 + n).choose (2 * 2) : ℝ) =
    ((n : ℝ) + 1) * (n + 2) * (n + 3) * (n + 4) / 24 := by
  have e := Nat.choose_symm_add (a := n) (b := 4)
  rw [show 2 * 2 + n = n + 4 by ring, show 2 * 2 = 4 by ring]
  have h := Nat.descFactorial_eq_factorial_mul_choose (n + 4) 4
  have h2 : (Nat.descFactorial (n + 4) 4 : ℝ) = ((n : ℝ) + 1) * (n + 2) * (n + 3) * (n + 4) := by
    simp [Nat.descFactorial_succ]
    ring
  rw [h] at h2
  push_cast [Nat.factorial] at h2
  linarith

theorem neg_one_pow_ite (l : ℕ) : ((-1 : ℝ)) ^ l = if l % 2 = 0 then 1 else -1 := by
  rcases Nat.even_or_odd l with h | h
  · rw [h.neg_one_pow, if_pos (Nat.even_iff.1 h)]
  · rw [h.neg_one_pow, if_neg (by rw [Nat.odd_iff] at h; omega)]

theorem cm_zero : cm 0 = 1 := by simp [cm]
theorem cm_one : cm 1 = -1 := by simp [cm]
theorem cm_two : cm 2 = 3 := by simp [cm, Nat.doubleFactorial]

/-- The un-normalised derivative computed by the code is the derivative. -/
theorem dPlm_eq (m n : ℕ) (t : ℝ) (hx : Exact m t) :
    dPlm (m + n + 1) m (cos t) (sin t) (cm m * sin t ^ m * Q m (cos t) (n + 1)) (cm m * sin t ^ m * Q m (cos t) n) =
    cm m * dG m (n + 1) t := by
  rw [dPlm]
  rcases hx.cases with ⟨h, h0⟩ | ⟨h0, h, hc⟩
  · rw [if_pos h, div_eq_iff h0]
    have := sin_dG m n t
    rw [G, G] at this
    push_cast
    linear_combination (-cm m) * this
  · rw [if_neg h]
    rw [dG]
    rcases m with _ | _ | _ | m
    · simp [h0]
    · have q := Q_one 1 (n + 1)
      rw [choose_three] at q
      simp only [zero_add, if_neg one_ne_zero, if_true, h0, Nat.sub_self, pow_zero, cm_one]
      rcases hc with hc | ⟨hc, hg⟩
      · rw [hc, if_pos (Or.inl one_pos), q]; push_cast; ring
      · have e : cos t = -1 := hc
        rw [e, Q_neg, q]
        have p := neg_one_pow_ite (1 + n + 1)
        have p2 : ((-1 : ℝ)) ^ (n + 1) = -((-1) ^ (1 + n + 1)) := by rw [pow_succ', show 1 + n = n + 1 by ring]; ring
        rw [p2, p]
        have : ¬ ((-1 : ℝ) > 0) := by norm_num
        simp only [this, false_or]
        push_cast; ring
    · simp [h0]
    · have a1 : m + 1 + 1 + 1 ≠ 0 := by omega
      have a2 : m + 1 + 1 + 1 ≠ 1 := by omega
      have a3 : m + 1 + 1 + 1 ≠ 2 := by omega
      rw [if_neg a1, if_neg a2, if_neg a3, h0]
      simp

/-- C48: at every angle where the code does not use its small-angle asymptotics, and exactly on the axis, the
derivative arrays of `sphHarmArray` hold the first and second derivative by theta of the value array, for every l and
m. The functions are extended to theta < 0 by the same formula so that derivatives at the pole make sense. -/
theorem C48_derivatives (lmax m n : ℕ) (hm : m + n ≤ lmax) (t : ℝ) (hx : Exact m t) :
    ∃ W : ℝ → ℝ, (∀ y, sin y + 1 ≠ 0 → ∃ a o, sphHarmArray lmax m (tauOf y) = some a ∧ a[n]? = some o ∧ o.val = W y) ∧
    ∃ a o, sphHarmArray lmax m (tauOf t) = some a ∧ a.length = lmax - m + 1 ∧ a[n]? = some o ∧ o.val = W t ∧
      HasDerivAt W o.der t ∧ HasDerivAt (deriv W) o.der2 t := by
  refine ⟨fun y => pre m n * cm m * G m n y, fun y hy => array_val hm hy, ?_⟩
  have hE := EPS_pos
  have ht : sin t + 1 ≠ 0 := by
    rcases hx with h | h | h
    · linarith
    · linarith [h.2]
    · rw [h]; norm_num
  obtain ⟨a, h, hlen, o, ho, hc⟩ := array_get hm ht
  obtain ⟨a', o', h', ho', hv⟩ := array_val hm ht
  rw [h] at h'
  cases h'
  rw [ho] at ho'
  cases ho'
  refine ⟨a, o, h, hlen, ho, hv, ?_⟩
  have hd : deriv (fun y => pre m n * cm m * G m n y) = fun y => pre m n * cm m * dG m n y := by
    funext y
    exact ((hasDerivAt_G m n y).const_mul _).deriv
  rw [hd]
  have g1 := (hasDerivAt_G m n t).const_mul (pre m n * cm m)
  rcases hc with ⟨rfl, rfl⟩ | ⟨k, s, rfl, inv, rfl⟩
  · -- l = m
    constructor
    · refine g1.congr_deriv ?_
      rw [dG, legendrePmm, pre, cm]
      rcases m with _ | _ | m
      · simp [dQ]
      · simp [dQ, Q]; ring
      · have h0 : m + 1 + 1 ≠ 0 := by omega
        have h1 : m + 1 + 1 ≠ 1 := by omega
        simp only [if_neg h0, if_neg h1, Q, dQ]
        have e : (if (m + 1 + 1) % 2 = 1 then (-1 : ℝ) else 1) = (-1) ^ (m + 1 + 1) := by
          rcases Nat.even_or_odd (m + 1 + 1) with h | h
          · rw [h.neg_one_pow, if_neg (by rw [Nat.even_iff] at h; omega)]
          · rw [h.neg_one_pow, if_pos (Nat.odd_iff.1 h)]
        rw [e, show m + 1 + 1 - 2 = m by omega, show m + 1 + 1 - 1 = m + 1 by omega]
        push_cast
        ring
    · have sq := sin_sq_add_cos_sq t
      have key : HasDerivAt (dG m 0) (if m = 0 then 0 else if m = 1 then -sin t else
          m * sin t ^ (m - 2) * (m * cos t ^ 2 - 1)) t := by
        have e : dG m 0 = fun y => m * sin y ^ (m - 1) * cos y := by
          funext y; simp [dG, Q, dQ]
        rw [e]
        have := (((hasDerivAt_sin t).pow (m - 1)).const_mul (m : ℝ)).mul (hasDerivAt_cos t)
        refine (this.congr_of_eventuallyEq (Filter.Eventually.of_forall fun y => rfl)).congr_deriv ?_
        simp only [Pi.pow_apply]
        rcases m with _ | _ | m
        · simp
        · simp
        · have h0 : m + 1 + 1 ≠ 0 := by omega
          have h1 : m + 1 + 1 ≠ 1 := by omega
          rw [if_neg h0, if_neg h1, show m + 1 + 1 - 2 = m by omega, show m + 1 + 1 - 1 = m + 1 by omega]
          have c2 : sin t ^ 2 = 1 - cos t ^ 2 := by linarith
          push_cast
          linear_combination (-((m : ℝ) + 2) * sin t ^ m) * c2
      refine (key.const_mul (pre m 0 * cm m)).congr_deriv ?_
      rw [legendrePmm, pre, cm]
      rcases m with _ | _ | m
      · simp
      · simp; ring
      · have h0 : m + 1 + 1 ≠ 0 := by omega
        have h1 : m + 1 + 1 ≠ 1 := by omega
        simp only [if_neg h0, if_neg h1]
        have e : (if (m + 1 + 1) % 2 = 1 then (-1 : ℝ) else 1) = (-1) ^ (m + 1 + 1) := by
          rcases Nat.even_or_odd (m + 1 + 1) with h | h
          · rw [h.neg_one_pow, if_neg (by rw [Nat.even_iff] at h; omega)]
          · rw [h.neg_one_pow, if_pos (Nat.odd_iff.1 h)]
        rw [e]
        ring
  · have hp := step_plm inv
    have hpre : s.prefact * √((2 * ((m + k + 1 : ℕ) : ℝ) + 1) / (2 * ((m + k + 1 : ℕ) : ℝ) - 1) *
        (((m + k + 1 : ℕ) : ℝ) - m) / (((m + k + 1 : ℕ) : ℝ) + m)) = pre m (k + 1) := by
      rw [inv.pre, pre]
    have hder : (legStep (m + k + 1) m (cos t) (sin t) s).2.der = pre m (k + 1) * (cm m * dG m (k + 1) t) := by
      rw [legStep]
      simp only
      rw [hpre, hp, inv.p1, dPlm_eq m k t hx]
    constructor
    · exact g1.congr_deriv (by rw [hder]; ring)
    · have hder2 := hder
      rw [legStep] at hder2 ⊢
      simp only at hder2 ⊢
      rw [hpre, hp] at hder2 ⊢
      rw [hder2]
      rcases hx.cases with ⟨hb, h0⟩ | ⟨h0, hb, hc⟩
      · rw [if_pos (not_not.2 hb)]
        refine ((hasDerivAt_dG m (k + 1) t h0).const_mul (pre m (k + 1) * cm m)).congr_deriv ?_
        rw [G, show m + (k + 1) = m + k + 1 by ring]
        rw [div_neg]
        ring
      · rw [if_neg (not_not.2 hb)]
        refine ((hasDerivAt_dG_pole m (k + 1) t h0).const_mul (pre m (k + 1) * cm m)).congr_deriv ?_
        rcases m with _ | _ | _ | m
        · simp only [if_true, cm_zero, zero_add]
          have q := dQ_one_zero (k + 1)
          rcases hc with hc | ⟨hc, hg⟩
          · rw [hc, if_pos (Or.inl one_pos), q]; push_cast; ring
          · rw [hc, dQ_neg, q]
            have p := neg_one_pow_ite (k + 1)
            rw [pow_succ, p]
            have : ¬ ((-1 : ℝ) > 0) := by norm_num
            simp only [this, false_or]
            push_cast; ring
        · simp only [zero_add, if_neg one_ne_zero, if_true]
          obtain ⟨a, b, c⟩ := inv.d h0 rfl
          have hpl : s.plm1 = 0 := by rw [inv.p1, h0]; ring
          rw [a, b, c, hpl, h0]
          have e : ¬ ((1 : ℕ) = 2) := by norm_num
          rw [if_neg e]
          by_cases hh : 1 + k + 1 > 1 + 1
          · rw [if_pos hh]; ring
          · rw [if_neg hh]; ring
        · have q := Q_one 2 (k + 1)
          rw [choose_four] at q
          have e0 : ¬ ((0 + 1 + 1 : ℕ) = 0) := by norm_num
          have e1 : ¬ ((0 + 1 + 1 : ℕ) = 1) := by norm_num
          simp only [if_neg e0, if_neg e1]
          simp only [if_true]
          rw [show cm (0 + 1 + 1) = 3 from cm_two]
          rcases hc with hc | ⟨hc, hg⟩
          · rw [hc, if_pos (Or.inl one_pos), q]; push_cast; ring
          · rw [hc, Q_neg, q]
            have p := neg_one_pow_ite (0 + 1 + 1 + k + 1)
            have p2 : ((-1 : ℝ)) ^ (k + 1) = (-1) ^ (0 + 1 + 1 + k + 1) := by
              rw [show 0 + 1 + 1 + k + 1 = k + 1 + 2 by ring, pow_add (-1 : ℝ) (k + 1) 2]; norm_num
            rw [p2, p]
            have : ¬ ((-1 : ℝ) > 0) := by norm_num
            simp only [this, false_or]
            push_cast; ring
        · have a1 : m + 1 + 1 + 1 ≠ 0 := by omega
          have a2 : m + 1 + 1 + 1 ≠ 1 := by omega
          have a3 : m + 1 + 1 + 1 ≠ 2 := by omega
          simp only [if_neg a1, if_neg a2, if_neg a3]
          ring

/-- The equator is a non-trivial angle satisfying the hypothesis. -/
example : Exact 2 (π / 2) := Or.inl (by rw [sin_pi_div_two, EPS]; norm_num)

/-- C48: parity about the equator. -/
theorem C48_parity (lmax m n : ℕ) (hm : m + n ≤ lmax) (t : ℝ) (ht : sin t + 1 ≠ 0) :
    ∃ a o a' o', sphHarmArray lmax m (tauOf t) = some a ∧ a[n]? = some o ∧
      sphHarmArray lmax m (tauOf (π - t)) = some a' ∧ a'[n]? = some o' ∧ o'.val = (-1) ^ n * o.val := by
  obtain ⟨a, o, h1, h2, h3⟩ := array_val hm ht
  obtain ⟨a', o', h1', h2', h3'⟩ := array_val hm (t := π - t) (by rwa [sin_pi_sub])
  refine ⟨a, o, a', o', h1, h2, h1', h2', ?_⟩
  rw [h3, h3', G, G, sin_pi_sub, cos_pi_sub, Q_neg]; ring

end Verif.SphHarm
