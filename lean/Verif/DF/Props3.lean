import Verif.DF.Props2

/-! # C98: quasi-isothermal distribution function; behaviour of the double power law at the origin -/

namespace Verif.DF

open Real Verif.Actions Filter Topology

/-- specification: the functions of radius and angular momentum supplied by the caller are positive, and the derivatives reported for them are right -/
structure FreqsOK (F : Freqs) : Prop where
  R_pos : ∀ L, 0 < L → 0 < F.R_from_Lz L
  dR : ∀ L, 0 < L → HasDerivAt F.R_from_Lz (F.dR_from_Lz L) L
  pos : ∀ R, 0 < R → 0 < F.kappa R ∧ 0 < F.nu R ∧ 0 < F.Omega R
  dkappa : ∀ R, 0 < R → HasDerivAt F.kappa (F.dkappa R) R
  dnu : ∀ R, 0 < R → HasDerivAt F.nu (F.dnu R) R
  dOmega : ∀ R, 0 < R → HasDerivAt F.Omega (F.dOmega R) R

noncomputable section

/-- specification, df_disk.h:44-70 (with the prefactor and the plain exponentials in the velocity dispersions as in the code): the q-exponentials of R/Rdisk, of (kappa Jr + 2 Omega max(0,-Jphi))/sigma_r^2, and of nu Jz/sigma_z^2 -/
def qiSpec (P : QuasiIsothermalParam) (F : Freqs) (J : Act) : ℝ :=
  let R := F.R_from_Lz (√((|J.Jphi| + P.coefJr * J.Jr + P.coefJz * J.Jz) ^ 2 + P.Jmin ^ 2))
  let sr2 := (P.sigmar0 * exp (-(R / P.Rsigmar))) ^ 2 + P.sigmamin ^ 2
  let sz2 := (if P.Hdisk > 0 then 2 * (P.Hdisk * F.nu R) ^ 2 else (P.sigmaz0 * exp (-(R / P.Rsigmaz))) ^ 2) + P.sigmamin ^ 2
  P.Sigma0 * F.Omega R * F.nu R / (2 * π ^ 2 * F.kappa R * sr2 * sz2) * ((1 - P.qJr) * (1 - P.qJz) * (1 - P.qJphi)) *
    expq (-(R / P.Rdisk)) (-P.qJphi) * expq (-((F.kappa R * J.Jr + 2 * F.Omega R * max 0 (-J.Jphi)) / sr2)) (-P.qJr) * expq (-(F.nu R * J.Jz / sz2)) (-P.qJz)

end

theorem sr_pos {P : QuasiIsothermalParam} (hP : P.accepted) (R : ℝ) : 0 < (P.sigmar0 * exp (-R / P.Rsigmar)) ^ 2 + P.sigmamin ^ 2 := by
  have := hP.2.2.1
  positivity

theorem sz_pos {P : QuasiIsothermalParam} (hP : P.accepted) {R nu : ℝ} (hnu : 0 < nu) :
    0 < P.sigmamin ^ 2 + (if P.Hdisk > 0 then 2 * (nu * P.Hdisk) ^ 2 else (P.sigmaz0 * exp (-R / P.Rsigmaz)) ^ 2) := by
  obtain ⟨-, -, -, -, hx, -⟩ := hP
  split_ifs with h
  · positivity
  · rcases hx with ⟨h1, -⟩ | ⟨⟨h1, -⟩, -⟩
    · exact absurd h1 h
    · positivity

/-- C98 (quasi-isothermal): the value is the documented one and is not negative -/
theorem C98_qi_value (P : QuasiIsothermalParam) (hP : P.accepted) (F : Freqs) (hF : FreqsOK F) (J : Act) (hJ : Phys J)
    (h0 : 0 < (|J.Jphi| + P.coefJr * J.Jr + P.coefJz * J.Jz) ^ 2 + P.Jmin ^ 2) :
    ((P.qJr = 0 ∨ 1e-7 < P.qJr) → (P.qJz = 0 ∨ 1e-7 < P.qJz) → (P.qJphi = 0 ∨ 1e-7 < P.qJphi) → (P.evalDeriv F J).1 = qiSpec P F J) ∧ 0 < (P.evalDeriv F J).1 := by
  have hP' := hP
  obtain ⟨s1, s2, s3, s4, s5, s6, s7, q1, q2, q3, q4, q5, q6⟩ := hP
  have e1 : (if J.Jphi ≥ 0 then (1:ℝ) else -1) * J.Jphi = |J.Jphi| := by
    split_ifs with h
    · rw [abs_of_nonneg h]; ring
    · rw [abs_of_neg (not_le.mp h)]; ring
  have e2 : ∀ w : ℝ, (if J.Jphi > 0 then 0 else 2 * w * J.Jphi) = -(2 * w * max 0 (-J.Jphi)) := by
    intro w
    split_ifs with h
    · rw [max_eq_left (by linarith)]; ring
    · rw [max_eq_right (by linarith)]; ring
  have hJhat := sqrt_pos.mpr h0
  have hR := hF.R_pos _ hJhat
  obtain ⟨k1, k2, k3⟩ := hF.pos _ hR
  simp only [QuasiIsothermalParam.evalDeriv, qiSpec, e1, e2]
  generalize F.R_from_Lz √((|J.Jphi| + P.coefJr * J.Jr + P.coefJz * J.Jz) ^ 2 + P.Jmin ^ 2) = R at *
  have hsr := sr_pos hP' R
  have hsz := sz_pos hP' (R := R) k2
  constructor
  · intro a1 a2 a3
    rw [qexp_eq_expq a1, qexp_eq_expq a2, qexp_eq_expq a3]
    have d1 : (P.sigmar0 * exp (-(R / P.Rsigmar))) ^ 2 + P.sigmamin ^ 2 = (P.sigmar0 * exp (-R / P.Rsigmar)) ^ 2 + P.sigmamin ^ 2 := by rw [neg_div]
    have d2 : (if P.Hdisk > 0 then 2 * (P.Hdisk * F.nu R) ^ 2 else (P.sigmaz0 * exp (-(R / P.Rsigmaz))) ^ 2) + P.sigmamin ^ 2 =
        P.sigmamin ^ 2 + (if P.Hdisk > 0 then 2 * (F.nu R * P.Hdisk) ^ 2 else (P.sigmaz0 * exp (-R / P.Rsigmaz)) ^ 2) := by
      rw [neg_div, mul_comm P.Hdisk]; ring
    rw [d1, d2]
    generalize (P.sigmar0 * exp (-R / P.Rsigmar)) ^ 2 + P.sigmamin ^ 2 = sr at *
    generalize P.sigmamin ^ 2 + (if P.Hdisk > 0 then 2 * (F.nu R * P.Hdisk) ^ 2 else (P.sigmaz0 * exp (-R / P.Rsigmaz)) ^ 2) = sz at *
    rw [sub_neg_eq_add, mul_one_div, mul_one_div]
    have := hsr.ne'
    have := hsz.ne'
    have := k1.ne'
    field_simp
  · have p1 := qexp_pos (x := R / P.Rdisk) (by positivity) q5
    have m0 : 0 ≤ max 0 (-J.Jphi) := le_max_left _ _
    have j1 := hJ.1
    have j2 := hJ.2
    generalize (P.sigmar0 * exp (-R / P.Rsigmar)) ^ 2 + P.sigmamin ^ 2 = sr at *
    generalize P.sigmamin ^ 2 + (if P.Hdisk > 0 then 2 * (F.nu R * P.Hdisk) ^ 2 else (P.sigmaz0 * exp (-R / P.Rsigmaz)) ^ 2) = sz at *
    have p2 := qexp_pos (x := (F.kappa R * J.Jr - -(2 * F.Omega R * max 0 (-J.Jphi))) * (1 / sr)) (by rw [sub_neg_eq_add]; positivity) q1
    have p3 := qexp_pos (x := F.nu R * J.Jz * (1 / sz)) (by positivity) q3
    have r1 : 0 < 1 - P.qJphi := by linarith
    have r2 : 0 < 1 - P.qJr := by linarith
    have r3 : 0 < 1 - P.qJz := by linarith
    positivity

/-- C98 (quasi-isothermal, derivatives): the reported derivatives are those of the value -/
theorem C98_qi_deriv (P : QuasiIsothermalParam) (hP : P.accepted) (F : Freqs) (hF : FreqsOK F) (hr : P.qJr = 0 ∨ 1e-7 < P.qJr) (hz : P.qJz = 0 ∨ 1e-7 < P.qJz)
    (hphi : P.qJphi = 0 ∨ 1e-7 < P.qJphi) (J : Act) (h0 : 0 < (|J.Jphi| + P.coefJr * J.Jr + P.coefJz * J.Jz) ^ 2 + P.Jmin ^ 2) :
    IsDerivDF (fun J => (P.evalDeriv F J).1) (P.evalDeriv F J).2 J := by
  have hP' := hP
  obtain ⟨s1, s2, s3, s4, s5, s6, s7, q1, q2, q3, q4, q5, q6⟩ := hP
  intro S a b c a' b' c' t ht ha hb hc hJ hS
  subst hJ
  simp only at h0 hS
  have hphys := (hS t ht).1
  have sgn : ∀ s ∈ S, (if c s ≥ 0 then (1:ℝ) else -1) = (if c t ≥ 0 then 1 else -1) ∧ ∀ w : ℝ, (if c s > 0 then 0 else 2 * w * c s) = 2 * w * ((if c t ≥ 0 then 0 else 1) * c s) := by
    intro s hs
    have := (hS s hs).2
    by_cases h : 0 ≤ c t
    · have h' := this.mpr h
      simp only [ge_iff_le, h, h', if_true, gt_iff_lt]
      refine ⟨trivial, fun w => ?_⟩
      rcases eq_or_lt_of_le h' with h2 | h2
      · rw [← h2]; simp
      · rw [if_pos h2]; simp
    · have h' : ¬ 0 ≤ c s := fun x => h (this.mp x)
      have h2 : ¬ 0 < c s := fun x => h' x.le
      simp [h, h', h2]
  set σ : ℝ := if c t ≥ 0 then 1 else -1 with hσ
  set τ : ℝ := if c t ≥ 0 then 0 else 1 with hτ
  set C := 1 / (2 * π * π) * P.Sigma0 * (1 - P.qJphi) * (1 - P.qJr) * (1 - P.qJz) with hC
  set X : ℝ → ℝ := fun s => σ * c s + P.coefJr * a s + P.coefJz * b s with hXd
  set x' := σ * c' + P.coefJr * a' + P.coefJz * b' with hx'
  have hX : HasDerivWithinAt X x' S t := ((hc.const_mul σ).add (ha.const_mul P.coefJr)).add (hb.const_mul P.coefJz)
  have eX : X t = |c t| + P.coefJr * a t + P.coefJz * b t := by
    simp only [hXd, hσ]
    split_ifs with h
    · rw [abs_of_nonneg h]; ring
    · rw [abs_of_neg (not_le.mp h)]; ring
  rw [← eX] at h0
  have hJhat := sqrt_pos.mpr h0
  have dJ : HasDerivWithinAt (fun s => √(X s ^ 2 + P.Jmin ^ 2)) (X t * x' / √(X t ^ 2 + P.Jmin ^ 2)) S t := by
    refine (((hX.fun_pow 2).add_const (P.Jmin ^ 2)).sqrt h0.ne').congr_deriv ?_
    field_simp
    push_cast; ring
  set R : ℝ → ℝ := fun s => F.R_from_Lz √(X s ^ 2 + P.Jmin ^ 2) with hRd
  set r' := F.dR_from_Lz √(X t ^ 2 + P.Jmin ^ 2) * (X t * x' / √(X t ^ 2 + P.Jmin ^ 2)) with hr'
  have dR : HasDerivWithinAt R r' S t := (hF.dR _ hJhat).comp_hasDerivWithinAt t dJ
  have hR : 0 < R t := hF.R_pos _ hJhat
  obtain ⟨k1, k2, k3⟩ := hF.pos _ hR
  have dk : HasDerivWithinAt (fun s => F.kappa (R s)) (F.dkappa (R t) * r') S t := (hF.dkappa _ hR).comp_hasDerivWithinAt t dR
  have dn : HasDerivWithinAt (fun s => F.nu (R s)) (F.dnu (R t) * r') S t := (hF.dnu _ hR).comp_hasDerivWithinAt t dR
  have dO : HasDerivWithinAt (fun s => F.Omega (R s)) (F.dOmega (R t) * r') S t := (hF.dOmega _ hR).comp_hasDerivWithinAt t dR
  set sr : ℝ → ℝ := fun s => (P.sigmar0 * exp (-R s / P.Rsigmar)) ^ 2 + P.sigmamin ^ 2 with hsr
  set sz : ℝ → ℝ := fun s => P.sigmamin ^ 2 + (if P.Hdisk > 0 then 2 * (F.nu (R s) * P.Hdisk) ^ 2 else (P.sigmaz0 * exp (-R s / P.Rsigmaz)) ^ 2) with hsz
  have psr : 0 < sr t := sr_pos hP' _
  have psz : 0 < sz t := sz_pos hP' k2
  set lr := -2 / P.Rsigmar * (1 - P.sigmamin ^ 2 * (1 / sr t)) with hlr
  set lz := -(if P.Hdisk > 0 then -(2 * F.nu (R t) * P.Hdisk) ^ 2 * (1 / sz t) * (F.dnu (R t) / F.nu (R t)) else 2 / P.Rsigmaz * (1 - P.sigmamin ^ 2 * (1 / sz t))) with hlz
  have lsr : LD sr (lr * r') S t := by
    have e := ((((dR.neg.div_const P.Rsigmar).exp).const_mul P.sigmar0).fun_pow 2).add_const (P.sigmamin ^ 2)
    refine HasDerivWithinAt.congr_deriv e ?_
    have e2 : sr t = (P.sigmar0 * exp (-R t / P.Rsigmar)) ^ 2 + P.sigmamin ^ 2 := rfl
    have e3 : sr t * (1 - P.sigmamin ^ 2 * (1 / sr t)) = (P.sigmar0 * exp (-R t / P.Rsigmar)) ^ 2 := by
      rw [mul_sub, mul_one, e2] at *
      field_simp
      ring
    rw [hlr]
    simp only [Pi.neg_apply]
    linear_combination (2 * r' / P.Rsigmar) * e3
  have lsz : LD sz (lz * r') S t := by
    by_cases h : P.Hdisk > 0
    · simp only [hsz, hlz, if_pos h]
      have e := (((dn.mul_const P.Hdisk).fun_pow 2).const_mul 2).const_add (P.sigmamin ^ 2)
      refine HasDerivWithinAt.congr_deriv e ?_
      have e2 : 0 < P.sigmamin ^ 2 + 2 * (F.nu (R t) * P.Hdisk) ^ 2 := by have := psz; simp only [hsz, if_pos h] at this; exact this
      have := e2.ne'
      field_simp
      push_cast; ring
    · simp only [hsz, hlz, if_neg h]
      have hz0 : P.Rsigmaz > 0 := by
        rcases s5 with ⟨h1, -⟩ | ⟨⟨-, h1⟩, -⟩
        · exact absurd h1 h
        · exact h1
      have e := ((((dR.neg.div_const P.Rsigmaz).exp).const_mul P.sigmaz0).fun_pow 2).const_add (P.sigmamin ^ 2)
      refine HasDerivWithinAt.congr_deriv e ?_
      have e2 : 0 < P.sigmamin ^ 2 + (P.sigmaz0 * exp (-R t / P.Rsigmaz)) ^ 2 := by have := psz; simp only [hsz, if_neg h] at this; exact this
      have e3 : (P.sigmamin ^ 2 + (P.sigmaz0 * exp (-R t / P.Rsigmaz)) ^ 2) * (1 - P.sigmamin ^ 2 * (1 / (P.sigmamin ^ 2 + (P.sigmaz0 * exp (-R t / P.Rsigmaz)) ^ 2))) = (P.sigmaz0 * exp (-R t / P.Rsigmaz)) ^ 2 := by
        have gen : ∀ x y : ℝ, 0 < x + y → (x + y) * (1 - x * (1 / (x + y))) = y := fun x y h => by
          have := h.ne'
          field_simp
          ring
        exact gen _ _ e2
      simp only [Pi.neg_apply]
      linear_combination (2 * r' / P.Rsigmaz) * e3
  -- arguments of the q-exponentials
  have n1 : 0 ≤ R t / P.Rdisk := by positivity
  have hnn : 0 ≤ F.kappa (R t) * a t - 2 * F.Omega (R t) * (τ * c t) := by
    have := hphys.1
    simp only at this
    have h1 : 0 ≤ F.kappa (R t) * a t := by positivity
    have h2 : τ * c t ≤ 0 := by rw [hτ]; split_ifs with h <;> [simp; (simp; linarith [not_le.mp h])]
    nlinarith
  have n2 : 0 ≤ (F.kappa (R t) * a t - 2 * F.Omega (R t) * (τ * c t)) * (1 / sr t) := by positivity
  have n3 : 0 ≤ F.nu (R t) * b t * (1 / sz t) := by have := hphys.2; simp only at this; positivity
  have A1 : HasDerivWithinAt (fun s => R s / P.Rdisk) (r' / P.Rdisk) S t := dR.div_const P.Rdisk
  have A2 := ((dk.fun_mul ha).fun_sub ((dO.const_mul 2).fun_mul (hc.const_mul τ))).fun_mul (lsr.inv psr.ne')
  have A3 := (dn.fun_mul hb).fun_mul (lsz.inv psz.ne')
  have Q1 := qexp_deriv A1 hphi n1
  have Q2 := qexp_deriv A2 hr n2
  have Q3 := qexp_deriv A3 hz n3
  have toLD : ∀ {f : ℝ → ℝ} {w : ℝ}, HasDerivWithinAt f (-f t * w) S t → LD f (-w) S t := fun {f w} h => h.congr_deriv (by ring)
  have L := (((((((((LD.const C).mul (LD.of dn k2.ne')).mul (LD.of dO k3.ne')).mul ((LD.of dk k1.ne').inv k1.ne')).mul (lsr.inv psr.ne')).mul (lsz.inv psz.ne')).mul (toLD Q1)).mul (toLD Q2)).mul (toLD Q3))
  have form : ∀ s ∈ S, (P.evalDeriv F ⟨a s, b s, c s⟩).1 = C * F.nu (R s) * F.Omega (R s) * (1 / F.kappa (R s)) * (1 / sr s) * (1 / sz s) *
      qexp (-(R s / P.Rdisk)) (-P.qJphi) * qexp (-((F.kappa (R s) * a s - 2 * F.Omega (R s) * (τ * c s)) * (1 / sr s))) (-P.qJr) * qexp (-(F.nu (R s) * b s * (1 / sz s))) (-P.qJz) := by
    intro s hs
    obtain ⟨e1, e2⟩ := sgn s hs
    simp only [QuasiIsothermalParam.evalDeriv, e1, e2, hXd, hC, hRd, hsr, hsz, mul_one_div]
  refine (HasDerivWithinAt.congr_deriv L ?_).congr (fun s hs => form s hs) (form t ht)
  have form2 : (P.evalDeriv F ⟨a t, b t, c t⟩).2.dbyJr * a' + (P.evalDeriv F ⟨a t, b t, c t⟩).2.dbyJz * b' + (P.evalDeriv F ⟨a t, b t, c t⟩).2.dbyJphi * c' =
      (P.evalDeriv F ⟨a t, b t, c t⟩).1 * (r' * (F.dnu (R t) / F.nu (R t) + F.dOmega (R t) / F.Omega (R t) - F.dkappa (R t) / F.kappa (R t) - lr - lz - 1 / (P.Rdisk + P.qJphi * R t) -
        F.kappa (R t) * (1 / sr t) * (F.dkappa (R t) / F.kappa (R t) - lr) * a t / (1 + P.qJr * ((F.kappa (R t) * a t - 2 * F.Omega (R t) * (τ * c t)) * (1 / sr t))) -
        F.nu (R t) * (1 / sz t) * (F.dnu (R t) / F.nu (R t) - lz) * b t / (1 + P.qJz * (F.nu (R t) * b t * (1 / sz t))) +
        τ * (2 * F.Omega (R t) * (1 / sr t) * (F.dOmega (R t) / F.Omega (R t) - lr) * c t / (1 + P.qJr * ((F.kappa (R t) * a t - 2 * F.Omega (R t) * (τ * c t)) * (1 / sr t))))) -
        F.kappa (R t) * (1 / sr t) / (1 + P.qJr * ((F.kappa (R t) * a t - 2 * F.Omega (R t) * (τ * c t)) * (1 / sr t))) * a' -
        F.nu (R t) * (1 / sz t) / (1 + P.qJz * (F.nu (R t) * b t * (1 / sz t))) * b' +
        τ * (2 * F.Omega (R t) * (1 / sr t) / (1 + P.qJr * ((F.kappa (R t) * a t - 2 * F.Omega (R t) * (τ * c t)) * (1 / sr t))) * c')) := by
    obtain ⟨e1, e2⟩ := sgn t ht
    by_cases h : c t ≥ 0
    · have z : τ = 0 := by rw [hτ, if_pos h]
      have zz : ∀ w : ℝ, 2 * w * (τ * c t) = 0 := fun w => by rw [z]; ring
      simp only [QuasiIsothermalParam.evalDeriv, e1, e2, zz, ne_eq, not_true_eq_false, if_false, hr', hx', hRd, hsr, hsz, hlr, hlz, hXd]
      rw [z]
      ring
    · have z : τ = 1 := by rw [hτ, if_neg h]
      have zz : ∀ w : ℝ, 2 * w * (τ * c t) = 2 * w * c t := fun w => by rw [z]; ring
      have nz : ∀ w : ℝ, 0 < w → ¬ 2 * w * c t = 0 := fun w hw => by
        have := (not_le.mp h).ne
        positivity
      simp only [QuasiIsothermalParam.evalDeriv, e1, e2, zz]
      rw [if_pos (nz _ k3), if_pos (nz _ k3)]
      simp only [hr', hx', hRd, hsr, hsz, hlr, hlz, hXd]
      rw [z]
      ring
  rw [form2, form t ht]
  have m2 : 1 + P.qJr * ((F.kappa (R t) * a t - 2 * F.Omega (R t) * (τ * c t)) * (1 / sr t)) ≠ 0 := by positivity
  have m3 : 1 + P.qJz * (F.nu (R t) * b t * (1 / sz t)) ≠ 0 := by positivity
  have m1 : P.Rdisk + P.qJphi * R t ≠ 0 := by positivity
  have m1' : r' / P.Rdisk / (1 + P.qJphi * (R t / P.Rdisk)) = r' * (1 / (P.Rdisk + P.qJphi * R t)) := by
    have : 1 + P.qJphi * (R t / P.Rdisk) ≠ 0 := by positivity
    field_simp
  rw [m1']
  beta_reduce
  congr 1
  generalize 1 / (P.Rdisk + P.qJphi * R t) = M1 at *
  generalize 1 + P.qJr * ((F.kappa (R t) * a t - 2 * F.Omega (R t) * (τ * c t)) * (1 / sr t)) = M2 at *
  generalize 1 + P.qJz * (F.nu (R t) * b t * (1 / sz t)) = M3 at *
  generalize sr t = SR at *
  generalize sz t = SZ at *
  generalize F.dkappa (R t) = dk' at *
  generalize F.dnu (R t) = dn' at *
  generalize F.dOmega (R t) = dO' at *
  generalize F.kappa (R t) = K at *
  generalize F.nu (R t) = Nu at *
  generalize F.Omega (R t) = Om at *
  clear_value r' lr lz
  have := k1.ne'
  have := k2.ne'
  have := k3.ne'
  have := psr.ne'
  have := psz.ne'
  field_simp
  ring

end Verif.DF
