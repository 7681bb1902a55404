import Verif.Coord.Axi

/-!
# C59: Axi coordinates — conversions of positions and velocities

`R = chi sin ν`, `z = psi cos ν`, where `chi = rho`, `psi = √(rho²+Δ²)` for `Δ² ≥ 0`, and `chi = √(rho²−Δ²)`, `psi = rho` for `Δ² < 0`.
-/

namespace Verif.Coord.Axi

open Real

theorem Cot.div_sin_cos {c s : ℝ} (hs : 0 ≤ s) (h : s ^ 2 + c ^ 2 = 1) :
    (Cot.div c s).sin = some s ∧ (Cot.div c s).cos = some c := by
  unfold Cot.div
  split_ifs with h1 h2 h3
  · have hs' : 0 < s := lt_of_le_of_ne hs (Ne.symm h1)
    have e : √(1 + (c / s) ^ 2) = 1 / s := by
      rw [show 1 + (c / s) ^ 2 = (1 / s) ^ 2 by field_simp; linarith]
      exact sqrt_sq (by positivity)
    simp only [Cot.sin, Cot.cos, e]
    constructor
    · congr 1; field_simp
    · congr 1; field_simp
  · push Not at h1
    have : c = 1 := by rw [h1] at h; nlinarith
    simp [Cot.sin, Cot.cos, h1, this]
  · push Not at h1
    have : c = -1 := by rw [h1] at h; nlinarith
    simp [Cot.sin, Cot.cos, h1, this]
  · push Not at h1
    have : c = 0 := by linarith
    rw [h1, this] at h; norm_num at h

/-- the sine and cosine recovered from a cotangent -/
theorem Cot.sin_cos_spec (k : Cot) (hk : k ≠ .nan) :
    ∃ s c, k.sin = some s ∧ k.cos = some c ∧ 0 ≤ s ∧ s ^ 2 + c ^ 2 = 1 ∧ Cot.div c s = k := by
  cases k with
  | nan => exact absurd rfl hk
  | posInf => exact ⟨0, 1, rfl, rfl, le_rfl, by norm_num, by simp [Cot.div]⟩
  | negInf => exact ⟨0, -1, rfl, rfl, le_rfl, by norm_num, by norm_num [Cot.div]⟩
  | fin x =>
    have hp : 0 < √(1 + x ^ 2) := sqrt_pos.mpr (by positivity)
    refine ⟨_, _, rfl, rfl, by positivity, ?_, ?_⟩
    · have := sq_sqrt (show 0 ≤ 1 + x ^ 2 by positivity)
      rw [mul_pow, div_pow, this]; field_simp
    · unfold Cot.div
      rw [if_pos (by positivity)]
      congr 1; field_simp

theorem chiOf_of {D2 chi psi : ℝ} (hc : 0 ≤ chi) (h : psi ^ 2 = chi ^ 2 + D2) :
    chiOf D2 (open Classical in if D2 ≥ 0 then chi else psi) = chi := by
  unfold chiOf
  split_ifs with h1
  · rfl
  · push Not at h1
    rw [abs_of_neg h1, h, show chi ^ 2 + D2 + -D2 = chi ^ 2 by ring, sqrt_sq hc]

theorem psiOf_of {D2 chi psi : ℝ} (hp : 0 ≤ psi) (h : psi ^ 2 = chi ^ 2 + D2) :
    psiOf D2 (open Classical in if D2 ≥ 0 then chi else psi) = psi := by
  unfold psiOf
  split_ifs with h1
  · rw [abs_of_nonneg h1, ← h, sqrt_sq hp]
  · rfl

/-- the properties of chi and psi computed from rho -/
theorem chiOf_psiOf (D2 rho : ℝ) (h : 0 ≤ rho) :
    0 ≤ chiOf D2 rho ∧ 0 ≤ psiOf D2 rho ∧ psiOf D2 rho ^ 2 = chiOf D2 rho ^ 2 + D2 ∧
    (open Classical in if D2 ≥ 0 then chiOf D2 rho else psiOf D2 rho) = rho := by
  unfold chiOf psiOf
  have a := sq_sqrt (show 0 ≤ rho ^ 2 + |D2| by positivity)
  split_ifs with h1
  · exact ⟨h, sqrt_nonneg _, by rw [a, abs_of_nonneg h1], rfl⟩
  · push Not at h1
    exact ⟨sqrt_nonneg _, h, by rw [a, abs_of_neg h1]; ring, rfl⟩

/-- **C59**: cylindrical → Axi → cylindrical is the identity, for every Δ² of either sign and every point (R ≥ 0) -/
theorem C59_cyl_axi_cyl (D2 : ℝ) (p : PosCyl) (hR : 0 ≤ p.R) (h0 : D2 = 0 → ¬ (p.R = 0 ∧ p.z = 0)) :
    axiToCyl D2 (cylToAxi D2 p) = some p ∧ 0 ≤ (cylToAxi D2 p).rho := by
  obtain ⟨e1, e2, e3, e4, hc, hp, hs, -⟩ := getPosAxi_spec D2 p hR h0
  obtain ⟨k1, k2⟩ := Cot.div_sin_cos hs e3
  constructor
  · unfold axiToCyl cylToAxi
    simp only [k1, k2, chiOf_of hc e4, psiOf_of hp e4, Option.pure_def, Option.bind_eq_bind, Option.bind_some]
    rw [← e1, ← e2]
  · unfold cylToAxi; dsimp only; split_ifs <;> assumption

example : axiToCyl (-4) (cylToAxi (-4) ⟨1, -1, 2⟩) = some ⟨1, -1, 2⟩ :=
  (C59_cyl_axi_cyl (-4) ⟨1, -1, 2⟩ (by norm_num) (by norm_num)).1

/-- chi, psi, sin ν, cos ν are determined by the point -/
theorem loc_unique {D2 chi psi s c chi' psi' s' c' : ℝ} (h1 : chi * s = chi' * s') (h2 : psi * c = psi' * c')
    (e : s ^ 2 + c ^ 2 = 1) (e' : s' ^ 2 + c' ^ 2 = 1) (f : psi ^ 2 = chi ^ 2 + D2) (f' : psi' ^ 2 = chi' ^ 2 + D2)
    (hc : 0 ≤ chi) (hp : 0 ≤ psi) (hs : 0 ≤ s) (hc' : 0 ≤ chi') (hp' : 0 ≤ psi') (hs' : 0 ≤ s')
    (h0 : psi' = 0 → 0 ≤ c ∧ 0 ≤ c') (hne : chi' ≠ 0 ∨ psi' ≠ 0) :
    chi = chi' ∧ psi = psi' ∧ s = s' ∧ c = c' := by
  have q1 : (chi * s) ^ 2 = (chi' * s') ^ 2 := by rw [h1]
  have q2 : (psi * c) ^ 2 = (psi' * c') ^ 2 := by rw [h2]
  -- r² = chi² + D c², R² = chi² s²
  have r : chi ^ 2 + D2 * c ^ 2 = chi' ^ 2 + D2 * c' ^ 2 := by
    have a : chi ^ 2 + D2 * c ^ 2 = (chi * s) ^ 2 + (psi * c) ^ 2 := by
      rw [mul_pow, mul_pow, f]; linear_combination -chi ^ 2 * e
    have b : chi' ^ 2 + D2 * c' ^ 2 = (chi' * s') ^ 2 + (psi' * c') ^ 2 := by
      rw [mul_pow, mul_pow, f']; linear_combination -chi' ^ 2 * e'
    rw [a, b, q1, q2]
  have g : chi ^ 2 - D2 * s ^ 2 = chi' ^ 2 - D2 * s' ^ 2 := by linear_combination r - D2 * e + D2 * e'
  have w0 : 0 ≤ chi ^ 2 + D2 * s ^ 2 := by
    have : chi ^ 2 + D2 * s ^ 2 = (chi * c) ^ 2 + (psi * s) ^ 2 := by
      rw [mul_pow, mul_pow, f]; linear_combination -chi ^ 2 * e
    rw [this]; positivity
  have w0' : 0 ≤ chi' ^ 2 + D2 * s' ^ 2 := by
    have : chi' ^ 2 + D2 * s' ^ 2 = (chi' * c') ^ 2 + (psi' * s') ^ 2 := by
      rw [mul_pow, mul_pow, f']; linear_combination -chi' ^ 2 * e'
    rw [this]; positivity
  have w : chi ^ 2 + D2 * s ^ 2 = chi' ^ 2 + D2 * s' ^ 2 := by
    have : (chi ^ 2 + D2 * s ^ 2) ^ 2 = (chi' ^ 2 + D2 * s' ^ 2) ^ 2 := by
      linear_combination (chi ^ 2 - D2 * s ^ 2 + (chi' ^ 2 - D2 * s' ^ 2)) * g + 4 * D2 * q1
    exact (sq_eq_sq₀ w0 w0').mp this
  have ec : chi = chi' := (sq_eq_sq₀ hc hc').mp (by linarith)
  have ep : psi = psi' := (sq_eq_sq₀ hp hp').mp (by rw [f, f', ec])
  subst ec ep
  by_cases hcz : chi = 0
  · have hpz : psi ≠ 0 := by rcases hne with h | h; exact absurd hcz h; exact h
    have ecc : c = c' := mul_left_cancel₀ hpz h2
    subst ecc
    exact ⟨rfl, rfl, (sq_eq_sq₀ hs hs').mp (by linarith), rfl⟩
  · have ess : s = s' := mul_left_cancel₀ hcz h1
    subst ess
    refine ⟨rfl, rfl, rfl, ?_⟩
    by_cases hpz : psi = 0
    · exact (sq_eq_sq₀ (h0 hpz).1 (h0 hpz).2).mp (by linarith)
    · exact mul_left_cancel₀ hpz h2

/-- **C59**: Axi → cylindrical → Axi is the identity.  The excluded cases are genuinely degenerate: at rho=0 with Δ²=0 all values of
cot ν are the same point, and with Δ²<0 the points ν and π−ν of the focal disk coincide (the conversion returns the one with cot ν ≥ 0). -/
theorem C59_axi_cyl_axi (D2 : ℝ) (q : PosAxi) (hq : q.cotnu ≠ .nan)
    (h : 0 < q.rho ∨ (q.rho = 0 ∧ (0 < D2 ∨ (D2 < 0 ∧ (q.cotnu = .posInf ∨ ∃ x ≥ 0, q.cotnu = .fin x))))) :
    ∃ p, axiToCyl D2 q = some p ∧ 0 ≤ p.R ∧ cylToAxi D2 p = q := by
  obtain ⟨rho, k, phi⟩ := q
  simp only at hq h
  obtain ⟨s, c, hs, hc, hs0, hsc, hdiv⟩ := Cot.sin_cos_spec k hq
  have hrho : 0 ≤ rho := by rcases h with h | h; exact h.le; exact h.1.ge
  obtain ⟨c0, p0, hpc, hsel⟩ := chiOf_psiOf D2 rho hrho
  refine ⟨⟨chiOf D2 rho * s, psiOf D2 rho * c, phi⟩, ?_, mul_nonneg c0 hs0, ?_⟩
  · unfold axiToCyl
    simp only [hs, hc, Option.pure_def, Option.bind_eq_bind, Option.bind_some]
  · have hne : chiOf D2 rho ≠ 0 ∨ psiOf D2 rho ≠ 0 := by
      by_contra hcon
      push Not at hcon
      have hD : D2 = 0 := by rw [hcon.1, hcon.2] at hpc; linarith
      rw [hcon.1, hcon.2, ite_self] at hsel
      rcases h with h | ⟨-, h | h⟩ <;> linarith
    have hcz : psiOf D2 rho = 0 → 0 ≤ c := by
      intro hz
      have hD : ¬ D2 > 0 := by intro hD; rw [hz] at hpc; nlinarith
      have hrho0 : rho = 0 := by
        by_cases hD0 : D2 = 0
        · rw [hz, hD0] at hpc
          have : chiOf D2 rho = 0 := by rw [hD0]; nlinarith
          exact absurd hz (by rcases hne with h | h; exact absurd this h; exact h)
        · rw [if_neg (by push Not; exact lt_of_le_of_ne (not_lt.mp hD) hD0), hz] at hsel; exact hsel.symm
      rcases h with h | ⟨-, h | ⟨-, h | ⟨x, hx, h⟩⟩⟩
      · linarith
      · exact absurd h hD
      · rw [h] at hc; simp only [Cot.cos, Option.some.injEq] at hc; rw [← hc]; norm_num
      · rw [h] at hc; simp only [Cot.cos, Option.some.injEq] at hc; rw [← hc]; positivity
    have h0 : D2 = 0 → ¬ (chiOf D2 rho * s = 0 ∧ psiOf D2 rho * c = 0) := by
      rintro hD ⟨a, b⟩
      have hcp : psiOf D2 rho = chiOf D2 rho := (sq_eq_sq₀ p0 c0).mp (by rw [hpc, hD, add_zero])
      rw [hcp] at b hne
      have hn : chiOf D2 rho ≠ 0 := by rcases hne with h | h <;> exact h
      have : s = 0 := by rcases mul_eq_zero.mp a with h | h; exact absurd h hn; exact h
      have : c = 0 := by rcases mul_eq_zero.mp b with h | h; exact absurd h hn; exact h
      simp_all
    obtain ⟨e1, e2, e3, e4, l1, l2, l3, l4⟩ :=
      getPosAxi_spec D2 ⟨chiOf D2 rho * s, psiOf D2 rho * c, phi⟩ (mul_nonneg c0 hs0) h0
    simp only at e1 e2 e3 e4 l1 l2 l3 l4
    have hfin : psiOf D2 rho = 0 → 0 ≤ (getPosAxi D2 ⟨chiOf D2 rho * s, psiOf D2 rho * c, phi⟩).cosnu ∧ 0 ≤ c := by
      intro hz
      refine ⟨?_, hcz hz⟩
      apply l4 (by rw [hz, zero_mul])
      -- psi of the computed location also vanishes
      by_contra hpn
      have hD : D2 ≤ 0 := by rw [hz] at hpc; nlinarith
      have z0 : (getPosAxi D2 ⟨chiOf D2 rho * s, psiOf D2 rho * c, phi⟩).cosnu = 0 := by
        rw [hz, zero_mul] at e2
        rw [hz, zero_mul] at hpn
        rcases mul_eq_zero.mp e2.symm with h | h
        · exact absurd h hpn
        · rw [hz, zero_mul]; exact h
      rw [z0] at e3
      have s1 : (getPosAxi D2 ⟨chiOf D2 rho * s, psiOf D2 rho * c, phi⟩).sinnu = 1 := by nlinarith
      rw [s1, mul_one] at e1
      rw [← e1, mul_pow] at e4
      rw [hz] at hpc
      have hc2 : chiOf D2 rho ^ 2 = -D2 := by linarith
      rw [hc2] at e4
      have : s ^ 2 ≤ 1 := by nlinarith
      have : (getPosAxi D2 ⟨chiOf D2 rho * s, psiOf D2 rho * c, phi⟩).psi ^ 2 ≤ 0 := by rw [e4]; nlinarith
      exact hpn (pow_eq_zero_iff two_ne_zero |>.mp (le_antisymm this (sq_nonneg _)))
    obtain ⟨u1, u2, u3, u4⟩ := loc_unique e1.symm e2.symm e3 hsc e4 hpc l1 l2 l3 c0 p0 hs0 hfin hne
    unfold cylToAxi
    simp only [u1, u2, u3, u4, hdiv]
    rw [hsel]

example : ∃ p, axiToCyl (-4) ⟨0, .fin 2, 1⟩ = some p ∧ 0 ≤ p.R ∧ cylToAxi (-4) p = ⟨0, .fin 2, 1⟩ :=
  C59_axi_cyl_axi _ _ (by simp) (Or.inr ⟨rfl, Or.inr ⟨by norm_num, Or.inr ⟨2, by norm_num, rfl⟩⟩⟩)

/-- on the focal disk of oblate coordinates ν and π−ν are the same point, so the round trip mirrors ν -/
theorem C59_disk_mirror {D2 : ℝ} (x phi : ℝ) :
    D2 < 0 → axiToCyl D2 ⟨0, .fin x, phi⟩ = axiToCyl D2 ⟨0, .fin (-x), phi⟩ := by
  intro h
  simp [axiToCyl, Cot.sin, Cot.cos, psiOf, not_le.mpr h, ge_iff_le]

/-- what the code does at the origin when Δ² = 0: cot ν is NaN (0/0) -/
theorem C59_refuted_origin (phi : ℝ) : (cylToAxi 0 ⟨0, 0, phi⟩).cotnu = .nan := by
  simp [cylToAxi, getPosAxi, Cot.div]

/-! ## velocities -/

/-- the factors `sinxi`, `cosxi` used in both directions form a reflection matrix -/
theorem xi_sq (a b : ℝ) :
    let d := √(a ^ 2 + b ^ 2)
    (open Classical in if d ≠ 0 then 1 / d * b else 1) ^ 2 + (open Classical in if d ≠ 0 then 1 / d * a else 0) ^ 2 = 1 := by
  intro d
  have hd : d ^ 2 = a ^ 2 + b ^ 2 := sq_sqrt (by positivity)
  split_ifs with h
  · have : (1 / d * b) ^ 2 + (1 / d * a) ^ 2 = (a ^ 2 + b ^ 2) / d ^ 2 := by field_simp; ring
    rw [this, ← hd]; field_simp
  · norm_num

/-- the returned position part is the same as in the conversion of positions -/
theorem C59_pos_part (D2 : ℝ) (p : PosVelCyl) (hR : 0 ≤ p.R) (h0 : D2 = 0 → ¬ (p.R = 0 ∧ p.z = 0)) :
    (⟨(vCylToAxi D2 p).rho, (vCylToAxi D2 p).cotnu, (vCylToAxi D2 p).phi⟩ : PosAxi) = cylToAxi D2 ⟨p.R, p.z, p.phi⟩ := by
  by_cases hD : D2 = 0
  · subst hD
    have hne := h0 rfl
    obtain ⟨e1, e2, e3, e4, hc, hp, hs, -⟩ := getPosAxi_spec 0 ⟨p.R, p.z, p.phi⟩ hR h0
    simp only at e1 e2
    have ecp : (getPosAxi 0 ⟨p.R, p.z, p.phi⟩).psi = (getPosAxi 0 ⟨p.R, p.z, p.phi⟩).chi := (sq_eq_sq₀ hp hc).mp (by rw [e4, add_zero])
    rw [ecp] at e2
    simp only [vCylToAxi, cylToAxi, hne, if_true, if_false, ge_iff_le, le_refl]
    generalize getPosAxi 0 ⟨p.R, p.z, p.phi⟩ = l at *
    have hr : √(p.R ^ 2 + p.z ^ 2) = l.chi := by
      rw [e1, e2, show (l.chi * l.sinnu) ^ 2 + (l.chi * l.cosnu) ^ 2 = l.chi ^ 2 by linear_combination l.chi ^ 2 * e3, sqrt_sq hc]
    have hn : l.chi ≠ 0 := by intro h; apply hne; rw [e1, e2, h]; simp
    rw [hr, e1, e2]
    congr 2 <;> field_simp
  · simp only [vCylToAxi, cylToAxi, hD, if_false, PosVelCyl.pos]

/-- **C59**: positions/velocities, cylindrical → Axi → cylindrical -/
theorem C59_vel_cyl_axi_cyl (D2 : ℝ) (p : PosVelCyl) (hR : 0 ≤ p.R) (h0 : D2 = 0 → ¬ (p.R = 0 ∧ p.z = 0)) :
    vAxiToCyl D2 (vCylToAxi D2 p) = some p := by
  by_cases hD : D2 = 0
  · subst hD
    have hne := h0 rfl
    obtain ⟨R, z, phi, vR, vz, vphi⟩ := p
    simp only at hR hne
    have hr0 : 0 < R ^ 2 + z ^ 2 := by
      by_contra h
      push Not at h
      exact hne ⟨by nlinarith [sq_nonneg R, sq_nonneg z], by nlinarith [sq_nonneg R, sq_nonneg z]⟩
    have hr := sqrt_pos.mpr hr0
    have hrr := sq_sqrt hr0.le
    have hsc : (R / √(R ^ 2 + z ^ 2)) ^ 2 + (z / √(R ^ 2 + z ^ 2)) ^ 2 = 1 := by
      rw [div_pow, div_pow, hrr]; field_simp
    obtain ⟨k1, k2⟩ := Cot.div_sin_cos (div_nonneg hR hr.le) hsc
    simp only [vCylToAxi, vAxiToCyl, hne, if_true, if_false, k1, k2, hr.ne', Option.pure_def, Option.bind_eq_bind, Option.bind_some]
    have eR : √(R ^ 2 + z ^ 2) * (R / √(R ^ 2 + z ^ 2)) = R := by field_simp
    have ez : √(R ^ 2 + z ^ 2) * (z / √(R ^ 2 + z ^ 2)) = z := by field_simp
    generalize R / √(R ^ 2 + z ^ 2) = s at *
    generalize z / √(R ^ 2 + z ^ 2) = c at *
    congr 1
    ext
    · exact eR
    · exact ez
    · rfl
    · linear_combination vR * hsc
    · linear_combination vz * hsc
    · rfl
  · obtain ⟨e1, e2, e3, e4, hc, hp, hs, -⟩ := getPosAxi_spec D2 p.pos hR h0
    simp only [vCylToAxi, vAxiToCyl, hD, if_false]
    generalize getPosAxi D2 p.pos = l at *
    obtain ⟨k1, k2⟩ := Cot.div_sin_cos hs e3
    have hx := xi_sq (l.chi * l.cosnu) (l.psi * l.sinnu)
    simp only [← mul_assoc] at hx
    simp only [k1, k2, chiOf_of hc e4, psiOf_of hp e4, Option.pure_def, Option.bind_eq_bind, Option.bind_some]
    generalize (open Classical in if √((l.chi * l.cosnu) ^ 2 + (l.psi * l.sinnu) ^ 2) ≠ 0 then
      1 / √((l.chi * l.cosnu) ^ 2 + (l.psi * l.sinnu) ^ 2) * l.psi * l.sinnu else 1) = sx at *
    generalize (open Classical in if √((l.chi * l.cosnu) ^ 2 + (l.psi * l.sinnu) ^ 2) ≠ 0 then
      1 / √((l.chi * l.cosnu) ^ 2 + (l.psi * l.sinnu) ^ 2) * l.chi * l.cosnu else 0) = cx at *
    obtain ⟨R, z, phi, vR, vz, vphi⟩ := p
    simp only [PosVelCyl.pos] at *
    congr 1
    ext
    · exact e1.symm
    · exact e2.symm
    · rfl
    · linear_combination vR * hx
    · linear_combination vz * hx
    · rfl

example : vAxiToCyl (-4) (vCylToAxi (-4) ⟨1, -1, 2, 3, 4, 5⟩) = some ⟨1, -1, 2, 3, 4, 5⟩ :=
  C59_vel_cyl_axi_cyl _ _ (by norm_num) (by norm_num)

/-- **C59**: Axi → cylindrical → Axi for positions/velocities -/
theorem C59_vel_axi_cyl_axi (D2 : ℝ) (q : PosVelAxi) (hq : q.cotnu ≠ .nan)
    (h : 0 < q.rho ∨ (q.rho = 0 ∧ (0 < D2 ∨ (D2 < 0 ∧ (q.cotnu = .posInf ∨ ∃ x ≥ 0, q.cotnu = .fin x))))) :
    ∃ p, vAxiToCyl D2 q = some p ∧ 0 ≤ p.R ∧ vCylToAxi D2 p = q := by
  obtain ⟨pp, hpp, hR, hback⟩ := C59_axi_cyl_axi D2 ⟨q.rho, q.cotnu, q.phi⟩ hq h
  obtain ⟨s, c, hs, hc, hs0, hsc, hdiv⟩ := Cot.sin_cos_spec q.cotnu hq
  have hrho : 0 ≤ q.rho := by rcases h with h | h; exact h.le; exact h.1.ge
  obtain ⟨c0, p0, hpc, hsel⟩ := chiOf_psiOf D2 q.rho hrho
  simp only [axiToCyl, hs, hc, Option.pure_def, Option.bind_eq_bind, Option.bind_some, Option.some.injEq] at hpp
  by_cases hD : D2 = 0
  · have hr : 0 < q.rho := by
      rcases h with h | ⟨-, h | ⟨h, -⟩⟩
      · exact h
      · linarith
      · linarith
    subst hD
    have hchi : chiOf 0 q.rho = q.rho := by simp [chiOf]
    have hpsi : psiOf 0 q.rho = q.rho := by simp [psiOf, sqrt_sq hrho]
    rw [hchi, hpsi] at hpp
    refine ⟨⟨q.rho * s, q.rho * c, q.phi, q.vrho * s + q.vnu * c, q.vrho * c - q.vnu * s, q.vphi⟩, ?_, mul_nonneg hrho hs0, ?_⟩
    · simp only [vAxiToCyl, hs, hc, hr.ne', if_true, if_false, Option.pure_def, Option.bind_eq_bind, Option.bind_some]
    · have hne : ¬ (q.rho * s = 0 ∧ q.rho * c = 0) := by
        rintro ⟨a, b⟩
        have : s = 0 := by rcases mul_eq_zero.mp a with h | h; exact absurd h hr.ne'; exact h
        have : c = 0 := by rcases mul_eq_zero.mp b with h | h; exact absurd h hr.ne'; exact h
        simp_all
      have hsq : √((q.rho * s) ^ 2 + (q.rho * c) ^ 2) = q.rho := by
        rw [show (q.rho * s) ^ 2 + (q.rho * c) ^ 2 = q.rho ^ 2 by linear_combination q.rho ^ 2 * hsc, sqrt_sq hrho]
      obtain ⟨rho, k, phi, vrho, vnu, vphi⟩ := q
      simp only at *
      simp only [vCylToAxi, hne, if_true, if_false, hsq]
      have a1 : rho * s / rho = s := by field_simp
      have a2 : rho * c / rho = c := by field_simp
      rw [a1, a2, hdiv]
      congr 1
      · linear_combination vrho * hsc
      · linear_combination vnu * hsc
  · obtain ⟨rho, k, phi, vrho, vnu, vphi⟩ := q
    simp only at *
    subst hpp
    simp only [cylToAxi] at hback
    have hneg := hback
    rw [PosAxi.mk.injEq] at hback
    obtain ⟨b1, b2, -⟩ := hback
    have hsp := getPosAxi_spec D2 ⟨chiOf D2 rho * s, psiOf D2 rho * c, phi⟩ hR (fun h => absurd h hD)
    simp only at hsp
    generalize hl : getPosAxi D2 ⟨chiOf D2 rho * s, psiOf D2 rho * c, phi⟩ = l at *
    obtain ⟨e1, e2, e3, e4, l1, l2, l3, -⟩ := hsp
    have ec : l.chi = chiOf D2 rho := by rw [← b1, chiOf_of l1 e4]
    have ep : l.psi = psiOf D2 rho := by rw [← b1, psiOf_of l2 e4]
    obtain ⟨k1, k2⟩ := Cot.div_sin_cos l3 e3
    have es : l.sinnu = s := by rw [b2, hs] at k1; exact (Option.some.inj k1).symm
    have eco : l.cosnu = c := by rw [b2, hc] at k2; exact (Option.some.inj k2).symm
    have hx := xi_sq (chiOf D2 rho * c) (psiOf D2 rho * s)
    simp only [← mul_assoc] at hx
    simp only [vAxiToCyl, hs, hc, hD, if_false, Option.pure_def, Option.bind_eq_bind, Option.bind_some]
    refine ⟨_, rfl, hR, ?_⟩
    simp only [vCylToAxi, hD, if_false, PosVelCyl.pos, hl, ec, ep, es, eco]
    generalize (open Classical in if √((chiOf D2 rho * c) ^ 2 + (psiOf D2 rho * s) ^ 2) ≠ 0 then
      1 / √((chiOf D2 rho * c) ^ 2 + (psiOf D2 rho * s) ^ 2) * psiOf D2 rho * s else 1) = sx at *
    generalize (open Classical in if √((chiOf D2 rho * c) ^ 2 + (psiOf D2 rho * s) ^ 2) ≠ 0 then
      1 / √((chiOf D2 rho * c) ^ 2 + (psiOf D2 rho * s) ^ 2) * chiOf D2 rho * c else 0) = cx at *
    rw [PosVelAxi.mk.injEq]
    refine ⟨hsel, hdiv, rfl, ?_, ?_, rfl⟩
    · linear_combination vrho * hx
    · linear_combination vnu * hx

/-- **C59**: both conversions preserve the magnitude of the velocity and its azimuthal component — at every point, including the
origin and the foci -/
theorem C59_speed (D2 : ℝ) (p : PosVelCyl) (q : PosVelAxi) (r : PosVelCyl) (hr : vAxiToCyl D2 q = some r)
    (hq : D2 = 0 → q.rho = 0 → q.vnu = 0) :
    (vCylToAxi D2 p).vrho ^ 2 + (vCylToAxi D2 p).vnu ^ 2 = p.vR ^ 2 + p.vz ^ 2 ∧ (vCylToAxi D2 p).vphi = p.vphi ∧
    r.vR ^ 2 + r.vz ^ 2 = q.vrho ^ 2 + q.vnu ^ 2 ∧ r.vphi = q.vphi := by
  have hfirst : (vCylToAxi D2 p).vrho ^ 2 + (vCylToAxi D2 p).vnu ^ 2 = p.vR ^ 2 + p.vz ^ 2 ∧ (vCylToAxi D2 p).vphi = p.vphi := by
    unfold vCylToAxi
    split_ifs with h1 h2
    · exact ⟨by simp only; rw [sq_sqrt (by positivity)]; ring, rfl⟩
    · refine ⟨?_, rfl⟩
      have hr0 : 0 < p.R ^ 2 + p.z ^ 2 := by
        by_contra h
        push Not at h
        exact h2 ⟨by nlinarith [sq_nonneg p.R, sq_nonneg p.z], by nlinarith [sq_nonneg p.R, sq_nonneg p.z]⟩
      have hrr := sq_sqrt hr0.le
      have hsc : (p.R / √(p.R ^ 2 + p.z ^ 2)) ^ 2 + (p.z / √(p.R ^ 2 + p.z ^ 2)) ^ 2 = 1 := by
        rw [div_pow, div_pow, hrr]; field_simp
      simp only
      linear_combination (p.vR ^ 2 + p.vz ^ 2) * hsc
    all_goals
      refine ⟨?_, rfl⟩
      generalize getPosAxi D2 p.pos = l
      have hx := xi_sq (l.chi * l.cosnu) (l.psi * l.sinnu)
      simp only [← mul_assoc] at hx
      simp only
      linear_combination (p.vR ^ 2 + p.vz ^ 2) * hx
  refine ⟨hfirst.1, hfirst.2, ?_⟩
  have hnan : q.cotnu ≠ .nan := by
    intro h; simp [vAxiToCyl, h, Cot.sin] at hr
  obtain ⟨s, c, hs, hc, hs0, hsc, -⟩ := Cot.sin_cos_spec q.cotnu hnan
  simp only [vAxiToCyl, hs, hc, Option.pure_def, Option.bind_eq_bind, Option.bind_some] at hr
  split_ifs at hr with h1 h2
  · obtain rfl := Option.some.inj hr
    simp only [hq h1 h2]
    exact ⟨by linear_combination q.vrho ^ 2 * hsc, trivial⟩
  · obtain rfl := Option.some.inj hr
    exact ⟨by simp only; linear_combination (q.vrho ^ 2 + q.vnu ^ 2) * hsc, rfl⟩
  all_goals
    obtain rfl := Option.some.inj hr
    refine ⟨?_, rfl⟩
    have hx := xi_sq (chiOf D2 q.rho * c) (psiOf D2 q.rho * s)
    simp only [← mul_assoc] at hx
    simp only
    simp_all only [if_true, if_false, ne_eq, not_false_eq_true]
    linear_combination (q.vrho ^ 2 + q.vnu ^ 2) * hx

/-- **C59**: the z-component of the angular momentum is R·vphi, whatever the sign of Δ² -/
theorem C59_Lz (D2 : ℝ) (q : PosVelAxi) (p : PosVelCyl) (hp : vAxiToCyl D2 q = some p) :
    LzAxi D2 q = some (p.R * p.vphi) := by
  have hnan : q.cotnu ≠ .nan := by
    intro h; simp [vAxiToCyl, h, Cot.sin] at hp
  obtain ⟨s, c, hs, hc, -, -, -⟩ := Cot.sin_cos_spec q.cotnu hnan
  have hchi : (open Classical in if D2 ≥ 0 then q.rho else √(q.rho ^ 2 - D2)) = chiOf D2 q.rho := by
    unfold chiOf
    split_ifs with h
    · rfl
    · push Not at h; rw [abs_of_neg h, sub_eq_add_neg]
  simp only [vAxiToCyl, hs, hc, Option.pure_def, Option.bind_eq_bind, Option.bind_some] at hp
  simp only [LzAxi, hs, hchi, Option.pure_def, Option.bind_eq_bind, Option.bind_some]
  congr 1
  by_cases h1 : D2 = 0
  · have h2 : chiOf D2 q.rho = q.rho := by rw [h1]; simp [chiOf]
    rw [if_pos h1] at hp
    split_ifs at hp with h3
    · obtain rfl := Option.some.inj hp
      rw [h2, h3]; ring
    · obtain rfl := Option.some.inj hp
      simp only [h2]; ring
  · rw [if_neg h1] at hp
    obtain rfl := Option.some.inj hp
    simp only; ring

/-- **C59**: the angular momenta agree with those computed from the cylindrical point -/
theorem C59_angular (D2 : ℝ) (p : PosVelCyl) (hR : 0 ≤ p.R) (h0 : D2 = 0 → ¬ (p.R = 0 ∧ p.z = 0)) :
    LzAxi D2 (vCylToAxi D2 p) = some (p.R * p.vphi) ∧ LtotalAxi D2 (vCylToAxi D2 p) = some (LtotalCyl p) := by
  have h := C59_vel_cyl_axi_cyl D2 p hR h0
  exact ⟨C59_Lz D2 _ p h, by rw [LtotalAxi, h]; rfl⟩

example : LzAxi (-4) (vCylToAxi (-4) ⟨1, -1, 2, 3, 4, 5⟩) = some 5 := by
  have := (C59_angular (-4) ⟨1, -1, 2, 3, 4, 5⟩ (by norm_num) (by norm_num)).1
  rw [this]; norm_num

/-- **C59**: the canonical momenta are the covariant components of the velocity,
`p_ρ = v·∂x/∂ρ`, `p_ν = v·∂x/∂ν`, `p_φ = R v_φ`, for the derivatives returned by the coordinate conversion -/
theorem C59_momenta (D2 : ℝ) (q : PosVelAxi) (p : PosVelCyl) (d : DerivAxiCyl) (hp : vAxiToCyl D2 q = some p)
    (hd : derivAxiCyl D2 ⟨q.rho, q.cotnu, q.phi⟩ = some d) (hr : 0 < q.rho ∨ (q.rho = 0 ∧ D2 ≠ 0)) :
    momentaAxi D2 q = some (p.vR * d.dRdrho + p.vz * d.dzdrho, p.vR * d.dRdnu + p.vz * d.dzdnu, p.R * p.vphi) := by
  have hr0 : 0 ≤ q.rho := by rcases hr with h | h; exact h.le; exact h.1.ge
  have hnan : q.cotnu ≠ .nan := by
    intro h; simp [vAxiToCyl, h, Cot.sin] at hp
  obtain ⟨s, c, hs, hc, -, hsc, -⟩ := Cot.sin_cos_spec q.cotnu hnan
  obtain ⟨c0, p0, hpc, hsel⟩ := chiOf_psiOf D2 q.rho hr0
  have hchi : (open Classical in if D2 ≥ 0 then q.rho else √(q.rho ^ 2 + |D2|)) = chiOf D2 q.rho := rfl
  simp only [derivAxiCyl, hs, hc, Option.pure_def, Option.bind_eq_bind, Option.bind_some] at hd
  obtain rfl := Option.some.inj hd
  simp only [vAxiToCyl, hs, hc, Option.pure_def, Option.bind_eq_bind, Option.bind_some] at hp
  simp only [momentaAxi, hs, hchi, Option.pure_def, Option.bind_eq_bind, Option.bind_some]
  by_cases h1 : D2 = 0
  · subst h1
    have hrp : 0 < q.rho := by rcases hr with h | h; exact h; exact absurd rfl h.2
    have h2 : chiOf 0 q.rho = q.rho := by simp [chiOf]
    have h3 : psiOf 0 q.rho = q.rho := by simp [psiOf, sqrt_sq hr0]
    have h4 : dchi 0 q.rho = 1 := by simp [dchi]
    have h5 : dpsi 0 q.rho = 1 := by simp [dpsi]
    rw [if_pos rfl, if_neg hrp.ne'] at hp
    obtain rfl := Option.some.inj hp
    simp only [h2, h3, h4, h5, if_true, zero_mul, add_zero, sqrt_sq hr0]
    congr 2
    · linear_combination -q.vrho * hsc
    · congr 1
      linear_combination -q.rho * q.vnu * hsc
  · rw [if_neg h1] at hp
    obtain rfl := Option.some.inj hp
    have heta : 0 < √(q.rho ^ 2 + |D2|) := sqrt_pos.mpr (by have := abs_pos.mpr h1; positivity)
    have hmul : chiOf D2 q.rho ^ 2 + D2 * s ^ 2 = (chiOf D2 q.rho * c) ^ 2 + (psiOf D2 q.rho * s) ^ 2 := by
      rw [mul_pow, mul_pow, hpc]; linear_combination -chiOf D2 q.rho ^ 2 * hsc
    have hd1 : dchi D2 q.rho = psiOf D2 q.rho / √(q.rho ^ 2 + |D2|) := by
      unfold dchi psiOf chiOf
      split_ifs with h
      · rw [div_self heta.ne']
      · rfl
    have hd2 : dpsi D2 q.rho = chiOf D2 q.rho / √(q.rho ^ 2 + |D2|) := by
      unfold dpsi psiOf chiOf
      split_ifs with h h' h'
      · exact absurd (le_antisymm h h') h1
      · rw [div_self heta.ne']
      · rfl
      · exact absurd (not_le.mp h).le h'
    rw [if_neg h1, hmul, hd1, hd2]
    generalize √(q.rho ^ 2 + |D2|) = eta at *
    generalize chiOf D2 q.rho = chi at *
    generalize psiOf D2 q.rho = psi at *
    have hdd : √((chi * c) ^ 2 + (psi * s) ^ 2) ^ 2 = (chi * c) ^ 2 + (psi * s) ^ 2 := sq_sqrt (by positivity)
    generalize √((chi * c) ^ 2 + (psi * s) ^ 2) = dd at *
    by_cases hd0 : dd = 0
    · rw [hd0] at hdd ⊢
      have a1 : chi * c = 0 := by nlinarith [sq_nonneg (chi * c), sq_nonneg (psi * s)]
      have a2 : psi * s = 0 := by nlinarith [sq_nonneg (chi * c), sq_nonneg (psi * s)]
      simp only [ne_eq, not_true_eq_false, if_false]
      congr 2
      · have b1 : psi / eta * s = 0 := by rw [div_mul_eq_mul_div, a2, zero_div]
        have b2 : chi / eta * c = 0 := by rw [div_mul_eq_mul_div, a1, zero_div]
        rw [b1, b2]; ring
      · congr 1
        linear_combination (-(1 * q.vrho + 0 * q.vnu)) * a1 - q.vnu * a2
    · simp only [hd0, ne_eq, not_false_eq_true, if_true]
      congr 2
      · field_simp
        linear_combination hdd * q.vrho
      · congr 1
        field_simp
        linear_combination hdd * q.vnu

/-- what the code does with velocities at the origin when Δ² = 0: an outgoing radial velocity is kept, a negative `vR` comes back
with the whole velocity reversed -/
theorem C59_origin_velocity (phi vR vz vphi : ℝ) :
    (0 ≤ vR → vAxiToCyl 0 (vCylToAxi 0 ⟨0, 0, phi, vR, vz, vphi⟩) = some ⟨0, 0, phi, vR, vz, vphi⟩) ∧
    (vR < 0 → vAxiToCyl 0 (vCylToAxi 0 ⟨0, 0, phi, vR, vz, vphi⟩) = some ⟨0, 0, phi, -vR, -vz, vphi⟩) := by
  have hv := sq_sqrt (show 0 ≤ vR ^ 2 + vz ^ 2 by positivity)
  constructor
  · intro h
    by_cases h0 : 0 < √(vR ^ 2 + vz ^ 2)
    · have hsc : (vR / √(vR ^ 2 + vz ^ 2)) ^ 2 + (vz / √(vR ^ 2 + vz ^ 2)) ^ 2 = 1 := by
        rw [div_pow, div_pow, hv, ← add_div, div_self]; rw [← hv]; positivity
      obtain ⟨k1, k2⟩ := Cot.div_sin_cos (div_nonneg h h0.le) hsc
      have e : Cot.div vz vR = Cot.div (vz / √(vR ^ 2 + vz ^ 2)) (vR / √(vR ^ 2 + vz ^ 2)) := by
        unfold Cot.div
        have a1 : vR / √(vR ^ 2 + vz ^ 2) ≠ 0 ↔ vR ≠ 0 := by simp [h0.ne']
        have a2 : vz / √(vR ^ 2 + vz ^ 2) > 0 ↔ vz > 0 := by constructor
                                                             · intro h; by_contra h'; push Not at h'
                                                               exact absurd h (not_lt.mpr (div_nonpos_of_nonpos_of_nonneg h' h0.le))
                                                             · intro h; positivity
        have a3 : vz / √(vR ^ 2 + vz ^ 2) < 0 ↔ vz < 0 := by constructor
                                                             · intro h; by_contra h'; push Not at h'
                                                               exact absurd h (not_lt.mpr (div_nonneg h' h0.le))
                                                             · intro h; exact div_neg_of_neg_of_pos h h0
        simp only [a1, a2, a3]
        congr 2
        field_simp
      simp only [vCylToAxi, vAxiToCyl, and_self, if_true, h0, e, k1, k2, Option.pure_def, Option.bind_eq_bind, Option.bind_some]
      congr 2 <;> field_simp
    · have h1 : √(vR ^ 2 + vz ^ 2) = 0 := le_antisymm (not_lt.mp h0) (sqrt_nonneg _)
      rw [h1] at hv
      have hR : vR = 0 := by nlinarith [sq_nonneg vR, sq_nonneg vz]
      have hz : vz = 0 := by nlinarith [sq_nonneg vR, sq_nonneg vz]
      subst hR hz
      simp [vCylToAxi, vAxiToCyl, Cot.sin, Cot.cos]
  · intro h
    have h0 : 0 < √(vR ^ 2 + vz ^ 2) := sqrt_pos.mpr (by nlinarith [sq_nonneg vz])
    have hsc : (-vR / √(vR ^ 2 + vz ^ 2)) ^ 2 + (-vz / √(vR ^ 2 + vz ^ 2)) ^ 2 = 1 := by
      rw [div_pow, div_pow, hv, ← add_div, neg_sq, neg_sq, div_self]; rw [← hv]; positivity
    obtain ⟨k1, k2⟩ := Cot.div_sin_cos (div_nonneg (by linarith) h0.le) hsc
    have e : Cot.div vz vR = Cot.div (-vz / √(vR ^ 2 + vz ^ 2)) (-vR / √(vR ^ 2 + vz ^ 2)) := by
      unfold Cot.div
      have hn : -vR / √(vR ^ 2 + vz ^ 2) ≠ 0 := by apply div_ne_zero; linarith; exact h0.ne'
      rw [if_pos h.ne, if_pos hn]
      congr 1
      field_simp
    simp only [vCylToAxi, vAxiToCyl, and_self, if_true, h0, e, k1, k2, Option.pure_def, Option.bind_eq_bind, Option.bind_some]
    congr 2 <;> field_simp

end Verif.Coord.Axi
