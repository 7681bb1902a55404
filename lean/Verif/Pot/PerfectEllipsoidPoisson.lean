import Verif.Pot.PerfectEllipsoidProps

set_option linter.unusedSimpArgs false

/-! # C100: Poisson equation for the perfect ellipsoid -/

namespace Verif.Pot

open Real Verif.Coord Verif.Coord.Axi Filter Topology

namespace PerfEll

variable {P : PerfEll}

/-- the spheroidal radius vanishes only on the symmetry axis or, for prolate models, on the focal disk -/
theorem rho_ne_zero (p : PosCyl) (hR : 0 < p.R) (h : p.z ≠ 0 ∨ P.B ^ 2 - P.A ^ 2 < p.R ^ 2) : (cylToAxi (P.A ^ 2 - P.B ^ 2) p).rho ≠ 0 := by
  obtain ⟨e1, e2, e3, e4, hc, hp, hs, -⟩ := getPosAxi_spec (P.A ^ 2 - P.B ^ 2) p hR.le (fun _ h => hR.ne' h.1)
  simp only [cylToAxi]
  intro h0
  split_ifs at h0 with hd
  · rw [h0, zero_mul] at e1
    exact hR.ne' e1
  · rw [h0, zero_mul] at e2
    rcases h with h | h
    · exact h e2
    · rw [h0] at e4
      rw [e1, mul_pow] at h
      nlinarith [sq_nonneg (getPosAxi (P.A ^ 2 - P.B ^ 2) p).cosnu]

/-- Laplacian in cylindrical coordinates from the derivatives in spheroidal coordinates -/
theorem lap_axi (D2 : ℝ) (p : PosCyl) (hR : 0 < p.R) (hrho : (cylToAxi D2 p).rho ≠ 0) (g : GradAxi) (h : HessAxi) :
    let l := getPosAxi D2 p
    let M := 1 / ((l.chi * l.cosnu) ^ 2 + (l.psi * l.sinnu) ^ 2)
    (toHessAxiCyl g h (derivCylAxi D2 p) (deriv2CylAxi D2 p)).dR2 + (toGradAxiCyl g (derivCylAxi D2 p)).dR / p.R +
      (toHessAxiCyl g h (derivCylAxi D2 p) (deriv2CylAxi D2 p)).dz2 =
    if D2 ≥ 0 then M * (h.drho2 * l.psi ^ 2 + h.dnu2 + g.drho * (l.psi ^ 2 + l.chi ^ 2) / l.chi + g.dnu * l.cosnu / l.sinnu)
    else M * (h.drho2 * l.chi ^ 2 + h.dnu2 + g.drho * (2 * l.psi) + g.dnu * l.cosnu / l.sinnu) := by
  intro l M
  obtain ⟨e1, e2, e3, e4, hc, hp, hs, -⟩ := getPosAxi_spec D2 p hR.le (fun _ h => hR.ne' h.1)
  obtain ⟨hc', hp', hs'⟩ := loc_pos D2 p hR hrho
  simp only [toHessAxiCyl, toGradAxiCyl, derivCylAxi, deriv2CylAxi, M, l]
  rw [e1]
  generalize (getPosAxi D2 p).chi = chi at *
  generalize (getPosAxi D2 p).psi = psi at *
  generalize (getPosAxi D2 p).cosnu = c at *
  generalize (getPosAxi D2 p).sinnu = s at *
  have hW : (0 : ℝ) < (chi * c) ^ 2 + (psi * s) ^ 2 := by positivity
  have hM : 1 / ((chi * c) ^ 2 + (psi * s) ^ 2) * ((chi * c) ^ 2 + (psi * s) ^ 2) = 1 := one_div_mul_cancel hW.ne'
  have hD : D2 = psi ^ 2 - chi ^ 2 := by linarith
  generalize 1 / ((chi * c) ^ 2 + (psi * s) ^ 2) = M at *
  obtain ⟨grho, gnu, gphi⟩ := g
  obtain ⟨hrr, hnn, hpp, hrn, hrp, hnp⟩ := h
  simp only
  by_cases h0 : D2 ≥ 0
  · simp only [if_pos h0]
    have q : (if D2 ≤ 0 then 0 else D2 * c ^ 2) = D2 * c ^ 2 := by
      by_cases q : D2 ≤ 0
      · rw [if_pos q, le_antisymm q h0, zero_mul]
      · rw [if_neg q]
    rw [q, hD]
    have k : (grho * (M * psi * s * psi) + gnu * (M * chi * c)) / (chi * s) = grho * M * psi ^ 2 / chi + gnu * M * c / s := by field_simp
    have k2 : grho * (psi ^ 2 + chi ^ 2) / chi = grho * psi ^ 2 / chi + grho * chi := by field_simp
    rw [k, k2]
    linear_combination (hrr * M * psi ^ 2 + hnn * M + grho * M * chi) * hM
  · simp only [if_neg h0, if_pos (le_of_not_ge h0)]
    rw [hD]
    have k : (grho * (M * psi * s * chi) + gnu * (M * chi * c)) / (chi * s) = grho * M * psi + gnu * M * c / s := by field_simp
    rw [k]
    linear_combination (hrr * M * chi ^ 2 + hnn * M + grho * M * psi) * hM

/-- the algebra behind the Poisson equation, oblate or spherical models -/
theorem poisson_alg_oblate (n B psi chi s c Fu Fv W : ℝ) (hp : psi ≠ 0) (hc : chi ≠ 0) (hs : s ≠ 0) (hW : W ≠ 0) (s2 : s ^ 2 = 1 - c ^ 2)
    (eW : W = chi ^ 2 + (psi ^ 2 - chi ^ 2) * s ^ 2) (u v : ℝ) (hu : u ≠ 0) (hv : v ≠ 0) (eu : u = B ^ 2 + psi ^ 2) (ev : v = B ^ 2 + c ^ 2 * (psi ^ 2 - chi ^ 2)) :
    1 / W * ((n * (1 / W) * (psi * Fu + c * Fv) * (2 * (-2 * (1 / W) * chi) ^ 2 - 2 * (1 / W)) + n * (1 / W) * (2 * (-2 * (1 / W) * chi) * ((Fu + B / u * psi) * (chi / psi)) +
        ((Fu + B / u * psi) * ((psi ^ 2 - chi ^ 2) / psi ^ 3) + 2 * B * (B / u * (chi / psi)) ^ 2))) * psi ^ 2 +
      (n * (1 / W) * (psi * Fu + c * Fv) * (2 * (2 * (1 / W) * c * (psi ^ 2 - chi ^ 2) * -s) ^ 2 + 2 * (1 / W) * (psi ^ 2 - chi ^ 2) * ((-s) ^ 2 + c * -c)) +
        n * (1 / W) * (2 * (2 * (1 / W) * c * (psi ^ 2 - chi ^ 2) * -s) * ((Fv + -B / v * c * (psi ^ 2 - chi ^ 2)) * -s) +
        ((Fv + -B / v * c * (psi ^ 2 - chi ^ 2)) * -c - 2 * B * (-B / v * -s) ^ 2 * (psi ^ 2 - chi ^ 2)))) +
      (n * (1 / W) * (psi * Fu + c * Fv) * (-2 * (1 / W) * chi) + n * (1 / W) * ((Fu + B / u * psi) * (chi / psi))) * (psi ^ 2 + chi ^ 2) / chi +
      (n * (1 / W) * (psi * Fu + c * Fv) * (2 * (1 / W) * c * (psi ^ 2 - chi ^ 2) * -s) + n * (1 / W) * ((Fv + -B / v * c * (psi ^ 2 - chi ^ 2)) * -s)) * c / s) =
    -2 * n * (B ^ 2 + (psi ^ 2 - chi ^ 2)) * B ^ 3 / (u ^ 2 * v ^ 2) := by
  obtain ⟨D, hD⟩ : ∃ D, D = psi ^ 2 - chi ^ 2 := ⟨_, rfl⟩
  rw [← hD] at eW ev ⊢
  have h1 : D * s ^ 2 = W - chi ^ 2 := by linarith
  have h2 : c ^ 2 * D = psi ^ 2 - W := by linear_combination hD + eW + D * s2
  have L : ∀ g1 g2 G : ℝ, 1 / W * ((n * (1 / W) * G * (2 * (-2 * (1 / W) * chi) ^ 2 - 2 * (1 / W)) + n * (1 / W) * (2 * (-2 * (1 / W) * chi) * (g1 * (chi / psi)) +
        (g1 * (D / psi ^ 3) + 2 * B * (B / u * (chi / psi)) ^ 2))) * psi ^ 2 +
      (n * (1 / W) * G * (2 * (2 * (1 / W) * c * D * -s) ^ 2 + 2 * (1 / W) * D * ((-s) ^ 2 + c * -c)) +
        n * (1 / W) * (2 * (2 * (1 / W) * c * D * -s) * (g2 * -s) +
        (g2 * -c - 2 * B * (-B / v * -s) ^ 2 * D))) +
      (n * (1 / W) * G * (-2 * (1 / W) * chi) + n * (1 / W) * (g1 * (chi / psi))) * (psi ^ 2 + chi ^ 2) / chi +
      (n * (1 / W) * G * (2 * (1 / W) * c * D * -s) + n * (1 / W) * (g2 * -s)) * c / s) =
      n / W ^ 2 * (psi ^ 2 * (G * (8 * chi ^ 2 / W ^ 2 - 2 / W) - 4 * chi ^ 2 / W * g1 / psi + g1 * D / psi ^ 3 + 2 * B ^ 3 * chi ^ 2 / (u ^ 2 * psi ^ 2)) +
       (G * (8 * (c ^ 2 * D) * (D * s ^ 2) / W ^ 2 + 2 / W * (D * s ^ 2 - c ^ 2 * D)) + 4 / W * (D * s ^ 2) * (c * g2) - c * g2 - 2 * B ^ 3 * (D * s ^ 2) / v ^ 2) +
       (-2 / W * G * (psi ^ 2 + chi ^ 2) + g1 * (psi ^ 2 + chi ^ 2) / psi) + (-2 / W * (c ^ 2 * D) * G - c * g2)) := by
    intro g1 g2 G
    field_simp
    ring
  rw [L, h1, h2]
  have h3 : c * (Fv + -B / v * c * D) = c * Fv - B / v * (psi ^ 2 - W) := by rw [← h2]; ring
  rw [h3, hD]
  have h4 : W = u - v := by rw [eu, ev, h2]; ring
  have h5 : chi ^ 2 = B ^ 2 + psi ^ 2 - (B ^ 2 + (psi ^ 2 - chi ^ 2)) := by ring
  generalize c * Fv = y
  have h6 : psi ^ 2 = u - B ^ 2 := by linarith
  have K : n / W ^ 2 * (psi ^ 2 * ((psi * Fu + y) * (8 * chi ^ 2 / W ^ 2 - 2 / W) - 4 * chi ^ 2 / W * (Fu + B / u * psi) / psi + (Fu + B / u * psi) * (psi ^ 2 - chi ^ 2) / psi ^ 3 + 2 * B ^ 3 * chi ^ 2 / (u ^ 2 * psi ^ 2)) +
       ((psi * Fu + y) * (8 * (psi ^ 2 - W) * (W - chi ^ 2) / W ^ 2 + 2 / W * (W - chi ^ 2 - (psi ^ 2 - W))) + 4 / W * (W - chi ^ 2) * (y - B / v * (psi ^ 2 - W)) - (y - B / v * (psi ^ 2 - W)) - 2 * B ^ 3 * (W - chi ^ 2) / v ^ 2) +
       (-2 / W * (psi * Fu + y) * (psi ^ 2 + chi ^ 2) + (Fu + B / u * psi) * (psi ^ 2 + chi ^ 2) / psi) + (-2 / W * (psi ^ 2 - W) * (psi * Fu + y) - (y - B / v * (psi ^ 2 - W)))) =
      n / W ^ 2 * ((2 - 4 * chi ^ 2 / W) * B * (psi ^ 2 / u - (psi ^ 2 - W) / v) + 2 * B ^ 3 * (chi ^ 2 / u ^ 2 - (W - chi ^ 2) / v ^ 2)) := by
    field_simp
    ring
  rw [K, h6, h4]
  rw [h4] at hW
  have h7 : B ^ 2 + (u - B ^ 2 - chi ^ 2) = u - chi ^ 2 := by ring
  rw [h7]
  field_simp
  ring

/-- the algebra behind the Poisson equation, prolate models -/
theorem poisson_alg_prolate (n B psi chi s c Fu Fv W : ℝ) (hs : s ≠ 0) (hW : W ≠ 0) (s2 : s ^ 2 = 1 - c ^ 2)
    (eW : W = chi ^ 2 + (psi ^ 2 - chi ^ 2) * s ^ 2) (u v : ℝ) (hu : u ≠ 0) (hv : v ≠ 0) (eu : u = B ^ 2 + psi ^ 2) (ev : v = B ^ 2 + c ^ 2 * (psi ^ 2 - chi ^ 2)) :
    1 / W * ((n * (1 / W) * (psi * Fu + c * Fv) * (2 * (-2 * (1 / W) * psi) ^ 2 - 2 * (1 / W)) + n * (1 / W) * (2 * (-2 * (1 / W) * psi) * ((Fu + B / u * psi) * 1) +
        ((Fu + B / u * psi) * 0 + 2 * B * (B / u * 1) ^ 2))) * chi ^ 2 +
      (n * (1 / W) * (psi * Fu + c * Fv) * (2 * (2 * (1 / W) * c * (psi ^ 2 - chi ^ 2) * -s) ^ 2 + 2 * (1 / W) * (psi ^ 2 - chi ^ 2) * ((-s) ^ 2 + c * -c)) +
        n * (1 / W) * (2 * (2 * (1 / W) * c * (psi ^ 2 - chi ^ 2) * -s) * ((Fv + -B / v * c * (psi ^ 2 - chi ^ 2)) * -s) +
        ((Fv + -B / v * c * (psi ^ 2 - chi ^ 2)) * -c - 2 * B * (-B / v * -s) ^ 2 * (psi ^ 2 - chi ^ 2)))) +
      (n * (1 / W) * (psi * Fu + c * Fv) * (-2 * (1 / W) * psi) + n * (1 / W) * ((Fu + B / u * psi) * 1)) * (2 * psi) +
      (n * (1 / W) * (psi * Fu + c * Fv) * (2 * (1 / W) * c * (psi ^ 2 - chi ^ 2) * -s) + n * (1 / W) * ((Fv + -B / v * c * (psi ^ 2 - chi ^ 2)) * -s)) * c / s) =
    -2 * n * (B ^ 2 + (psi ^ 2 - chi ^ 2)) * B ^ 3 / (u ^ 2 * v ^ 2) := by
  obtain ⟨D, hD⟩ : ∃ D, D = psi ^ 2 - chi ^ 2 := ⟨_, rfl⟩
  rw [← hD] at eW ev ⊢
  have h1 : D * s ^ 2 = W - chi ^ 2 := by linarith
  have h2 : c ^ 2 * D = psi ^ 2 - W := by linear_combination hD + eW + D * s2
  have L : ∀ g1 g2 G : ℝ, 1 / W * ((n * (1 / W) * G * (2 * (-2 * (1 / W) * psi) ^ 2 - 2 * (1 / W)) + n * (1 / W) * (2 * (-2 * (1 / W) * psi) * (g1 * 1) +
        (g1 * 0 + 2 * B * (B / u * 1) ^ 2))) * chi ^ 2 +
      (n * (1 / W) * G * (2 * (2 * (1 / W) * c * D * -s) ^ 2 + 2 * (1 / W) * D * ((-s) ^ 2 + c * -c)) +
        n * (1 / W) * (2 * (2 * (1 / W) * c * D * -s) * (g2 * -s) +
        (g2 * -c - 2 * B * (-B / v * -s) ^ 2 * D))) +
      (n * (1 / W) * G * (-2 * (1 / W) * psi) + n * (1 / W) * (g1 * 1)) * (2 * psi) +
      (n * (1 / W) * G * (2 * (1 / W) * c * D * -s) + n * (1 / W) * (g2 * -s)) * c / s) =
      n / W ^ 2 * (chi ^ 2 * (G * (8 * psi ^ 2 / W ^ 2 - 2 / W) - 4 * psi / W * g1 + 2 * B ^ 3 / u ^ 2) +
       (G * (8 * (c ^ 2 * D) * (D * s ^ 2) / W ^ 2 + 2 / W * (D * s ^ 2 - c ^ 2 * D)) + 4 / W * (D * s ^ 2) * (c * g2) - c * g2 - 2 * B ^ 3 * (D * s ^ 2) / v ^ 2) +
       (-4 / W * G * psi ^ 2 + g1 * (2 * psi)) + (-2 / W * (c ^ 2 * D) * G - c * g2)) := by
    intro g1 g2 G
    field_simp
    ring
  rw [L, h1, h2]
  have h3 : c * (Fv + -B / v * c * D) = c * Fv - B / v * (psi ^ 2 - W) := by rw [← h2]; ring
  rw [h3, hD]
  have h4 : W = u - v := by rw [eu, ev, h2]; ring
  have h5 : chi ^ 2 = B ^ 2 + psi ^ 2 - (B ^ 2 + (psi ^ 2 - chi ^ 2)) := by ring
  generalize c * Fv = y
  have h6 : psi ^ 2 = u - B ^ 2 := by linarith
  have K : n / W ^ 2 * (chi ^ 2 * ((psi * Fu + y) * (8 * psi ^ 2 / W ^ 2 - 2 / W) - 4 * psi / W * (Fu + B / u * psi) + 2 * B ^ 3 / u ^ 2) +
       ((psi * Fu + y) * (8 * (psi ^ 2 - W) * (W - chi ^ 2) / W ^ 2 + 2 / W * (W - chi ^ 2 - (psi ^ 2 - W))) + 4 / W * (W - chi ^ 2) * (y - B / v * (psi ^ 2 - W)) - (y - B / v * (psi ^ 2 - W)) - 2 * B ^ 3 * (W - chi ^ 2) / v ^ 2) +
       (-4 / W * (psi * Fu + y) * psi ^ 2 + (Fu + B / u * psi) * (2 * psi)) + (-2 / W * (psi ^ 2 - W) * (psi * Fu + y) - (y - B / v * (psi ^ 2 - W)))) =
      n / W ^ 2 * ((2 - 4 * chi ^ 2 / W) * B * (psi ^ 2 / u - (psi ^ 2 - W) / v) + 2 * B ^ 3 * (chi ^ 2 / u ^ 2 - (W - chi ^ 2) / v ^ 2)) := by
    field_simp
    ring
  rw [K, h6, h4]
  rw [h4] at hW
  have h7 : B ^ 2 + (u - B ^ 2 - chi ^ 2) = u - chi ^ 2 := by ring
  rw [h7]
  field_simp
  ring

/-- C100, Poisson equation: outside the small regions around focal points, the Laplacian of the potential computed by evalCyl equals 4 pi times the density returned by densityCyl -/
theorem C100_perfect_ellipsoid_poisson (hA : 0 < P.A) (hB : 0 < P.B) (p : PosCyl) (hR : 0 < p.R) (hz : p.z ≠ 0 ∨ P.B ^ 2 - P.A ^ 2 < p.R ^ 2) (hf : ¬ P.focDist2 p < P.focRad2) :
    (P.evalCyl p).hess.dR2 + (P.evalCyl p).grad.dR / p.R + (P.evalCyl p).hess.dz2 = 4 * π * P.density p := by
  have hrho := rho_ne_zero p hR hz
  rw [evalCyl_generic p hf]
  simp only
  obtain ⟨D2, hD⟩ : ∃ D2, D2 = P.A ^ 2 - P.B ^ 2 := ⟨_, rfl⟩
  rw [← hD] at hrho ⊢
  rw [lap_axi D2 p hR hrho]
  obtain ⟨e1, e2, e3, e4, hc, hp, hs, -⟩ := getPosAxi_spec D2 p hR.le (fun _ h => hR.ne' h.1)
  obtain ⟨hc', hp', hs'⟩ := loc_pos D2 p hR hrho
  obtain ⟨x, -, es, ec⟩ := cot_fin D2 p hR
  have er : (cylToAxi D2 p).rho = if D2 ≥ 0 then (getPosAxi D2 p).chi else (getPosAxi D2 p).psi := rfl
  simp only [evalAxi, es, ec, Option.getD_some, er]
  have bp := B_pos_of (c := (getPosAxi D2 p).cosnu) hA hB hD (by nlinarith [sq_nonneg (getPosAxi D2 p).sinnu])
  have dens : 4 * π * P.density p = 4 * P.mass / π * (P.B ^ 2 + D2) * P.B ^ 3 / ((P.B ^ 2 + (getPosAxi D2 p).psi ^ 2) ^ 2 * (P.B ^ 2 + (getPosAxi D2 p).cosnu ^ 2 * D2) ^ 2) := by
    have : (p.R / P.A) ^ 2 + (p.z / P.B) ^ 2 + 1 = (P.B ^ 2 + (getPosAxi D2 p).psi ^ 2) * (P.B ^ 2 + (getPosAxi D2 p).cosnu ^ 2 * D2) / (P.A ^ 2 * P.B ^ 2) := by
      rw [e1, e2]
      have h1 : P.A ^ 2 = P.B ^ 2 + D2 := by linarith
      have h2 : (getPosAxi D2 p).sinnu ^ 2 = 1 - (getPosAxi D2 p).cosnu ^ 2 := by linarith
      have h3 : (getPosAxi D2 p).chi ^ 2 = (getPosAxi D2 p).psi ^ 2 - D2 := by linarith
      rw [div_pow, div_pow, mul_pow, mul_pow, h2, h3]
      have : P.A ^ 2 ≠ 0 := by positivity
      field_simp
      rw [h1]
      ring
    rw [density, this]
    have h1 : P.A ^ 2 = P.B ^ 2 + D2 := by linarith
    have h2 : P.B ^ 2 + (getPosAxi D2 p).psi ^ 2 ≠ 0 := by positivity
    have h3 := bp.ne'
    have h4 : P.A ^ 2 ≠ 0 := by positivity
    have h5 := pi_pos.ne'
    generalize P.B ^ 2 + (getPosAxi D2 p).psi ^ 2 = u at *
    generalize P.B ^ 2 + (getPosAxi D2 p).cosnu ^ 2 * D2 = v at *
    rw [← h1]
    field_simp
  rw [dens]
  clear dens
  generalize (getPosAxi D2 p).chi = chi at *
  generalize (getPosAxi D2 p).psi = psi at *
  generalize (getPosAxi D2 p).cosnu = c at *
  generalize (getPosAxi D2 p).sinnu = s at *
  have u0 : P.B ^ 2 + psi ^ 2 ≠ 0 := by positivity
  have v0 := bp.ne'
  have s2 : s ^ 2 = 1 - c ^ 2 := by linarith
  have hDD : D2 = psi ^ 2 - chi ^ 2 := by linarith
  have hW : (chi * c) ^ 2 + (psi * s) ^ 2 = chi ^ 2 + D2 * s ^ 2 := by rw [hDD, s2, mul_pow, mul_pow, s2]; ring_nf
  have W0 : 0 < chi ^ 2 + D2 * s ^ 2 := by rw [← hW]; positivity
  rw [hW]
  have fin : ∀ k : ℝ, -2 * (-2 / π * P.mass) * (P.B ^ 2 + (psi ^ 2 - chi ^ 2)) * P.B ^ 3 / k = 4 * P.mass / π * (P.B ^ 2 + D2) * P.B ^ 3 / k := by
    intro k
    rw [hDD]
    ring
  by_cases h0 : D2 ≥ 0
  · have psiE : √(chi ^ 2 + D2) = psi := by rw [← e4, sqrt_sq hp'.le]
    have dE : (if D2 ≤ 0 then 1 else chi / psi) = chi / psi := by
      by_cases q : D2 ≤ 0
      · have : psi = chi := (sq_eq_sq₀ hp hc).mp (by rw [e4, le_antisymm q h0, add_zero])
        rw [if_pos q, this, div_self hc'.ne']
      · rw [if_neg q]
    have d2E : (if D2 ≤ 0 then 0 else D2 / psi ^ 3) = D2 / psi ^ 3 := by
      by_cases q : D2 ≤ 0
      · rw [if_pos q, le_antisymm q h0, zero_div]
      · rw [if_neg q]
    simp only [if_pos h0, evalSC, aux, psiE, dE, d2E]
    generalize -√|D2| * arctan (√|D2| / P.B * c) = Fv
    have := poisson_alg_oblate (-2 / π * P.mass) P.B psi chi s c (arctan (psi / P.B)) Fv _ hp'.ne' hc'.ne' hs'.ne' W0.ne' s2 (by rw [hDD]) _ _ u0 v0 rfl (by rw [hDD])
    rw [fin] at this
    rw [← this]
    simp only [hDD]
  · have wE : psi ^ 2 - D2 * c ^ 2 = chi ^ 2 + D2 * s ^ 2 := by rw [hDD, s2]; ring
    simp only [if_neg h0, if_pos (le_of_not_ge h0), evalSC, aux, wE]
    generalize √|D2| * artanh (√|D2| / P.B * c) = Fv
    have := poisson_alg_prolate (-2 / π * P.mass) P.B psi chi s c (arctan (psi / P.B)) Fv _ hs'.ne' W0.ne' s2 (by rw [hDD]) _ _ u0 v0 rfl (by rw [hDD])
    rw [fin] at this
    rw [← this]
    simp only [hDD]

/-- C100: perfect ellipsoid: gradient and Hessian are the derivatives of the potential at all points off the symmetry axis and (prolate models) off the focal disk z = 0, R² ≤ B² - A², outside the small regions around focal points -/
theorem C100_perfect_ellipsoid (hA : 0 < P.A) (hB : 0 < P.B) (p : PosCyl) (hR : 0 < p.R) (hz : p.z ≠ 0 ∨ P.B ^ 2 - P.A ^ 2 < p.R ^ 2) (hf : P.focRad2 < P.focDist2 p) :
    OkCyl P.evalCyl p := okCyl_generic hA hB p hR (rho_ne_zero p hR hz) hf

/-- a prolate and an oblate model at points below the equatorial plane -/
example : let P : PerfEll := ⟨1, 3, 5⟩
    OkCyl P.evalCyl ⟨1, -1, 0⟩ ∧ (P.evalCyl ⟨1, -1, 0⟩).hess.dR2 + (P.evalCyl ⟨1, -1, 0⟩).grad.dR / 1 + (P.evalCyl ⟨1, -1, 0⟩).hess.dz2 = 4 * π * P.density ⟨1, -1, 0⟩ := by
  intro P
  have f : P.focRad2 < P.focDist2 ⟨1, -1, 0⟩ := by
    have d : P.A ^ 2 - P.B ^ 2 ≤ 0 := by simp only [P]; norm_num
    have hD : √|P.A ^ 2 - P.B ^ 2| = 4 := by
      have : |P.A ^ 2 - P.B ^ 2| = 4 ^ 2 := by simp only [P]; norm_num
      rw [this, sqrt_sq (by norm_num)]
    rw [focDist2, focRad2, if_pos d, if_pos d, hD]
    simp only [P]
    norm_num
  exact ⟨C100_perfect_ellipsoid (by norm_num) (by norm_num) _ (by norm_num) (Or.inl (by norm_num)) f,
    C100_perfect_ellipsoid_poisson (by norm_num) (by norm_num) _ (by norm_num) (Or.inl (by norm_num)) (not_lt.mpr f.le)⟩

example : let P : PerfEll := ⟨1, 5, 3⟩
    OkCyl P.evalCyl ⟨1, 0, 0⟩ ∧ OkCyl P.evalCyl ⟨1e-4, -4, 0⟩ := by
  intro P
  have d : ¬ P.A ^ 2 - P.B ^ 2 ≤ 0 := by simp only [P]; norm_num
  have hD : √|P.A ^ 2 - P.B ^ 2| = 4 := by
    have : |P.A ^ 2 - P.B ^ 2| = 4 ^ 2 := by simp only [P]; norm_num
    rw [this, sqrt_sq (by norm_num)]
  have mx : max P.A P.B = 5 := by simp only [P]; norm_num
  refine ⟨C100_perfect_ellipsoid (by norm_num) (by norm_num) _ (by norm_num) (Or.inr (by simp only [P]; norm_num)) ?_,
    C100_perfect_ellipsoid_focal_oblate (by simp only [P]; norm_num) (by norm_num) _ (by norm_num) ?_⟩
  · rw [focDist2, focRad2, if_neg d, if_neg d, hD, mx]
    norm_num
  · rw [focDist2, focRad2, if_neg d, if_neg d, hD, mx]
    norm_num

example : let P : PerfEll := ⟨1, 3, 5⟩
    OkCyl P.evalCyl ⟨4, 1e-4, 0⟩ := by
  intro P
  have d : P.A ^ 2 - P.B ^ 2 ≤ 0 := by simp only [P]; norm_num
  have hD : √|P.A ^ 2 - P.B ^ 2| = 4 := by
    have : |P.A ^ 2 - P.B ^ 2| = 4 ^ 2 := by simp only [P]; norm_num
    rw [this, sqrt_sq (by norm_num)]
  refine C100_perfect_ellipsoid_focal_prolate (by simp only [P]; norm_num) (by norm_num) _ (Or.inl (by norm_num)) ?_
  have mx : max P.A P.B = 5 := by simp only [P]; norm_num
  rw [focDist2, focRad2, if_pos d, if_pos d, hD, mx]
  norm_num

/-! ## the expansion around focal points -/

/-- the function whose divided difference gives the potential of an oblate model, of the squared argument: `Phi = -2 mass / pi (f(ψ²) - f(Δ² cos²ν)) / (ψ² - Δ² cos²ν)` -/
noncomputable def pf (B x : ℝ) : ℝ := √x * arctan (√x / B)

/-- C100, divided difference: for oblate and spherical models the potential is the divided difference of `pf` between the two roots of the quadratic equation with the sum of roots `R² + z² + Δ²` and the product of roots `z² Δ²` (the equation which defines the spheroidal coordinates) -/
theorem C100_perfect_ellipsoid_value (hB : 0 < P.B) (hAB : P.B ≤ P.A) (p : PosCyl) (hR : 0 < p.R) (hf : ¬ P.focDist2 p < P.focRad2) :
    ∃ u v : ℝ, v < u ∧ 0 ≤ v ∧ u + v = p.R ^ 2 + p.z ^ 2 + (P.A ^ 2 - P.B ^ 2) ∧ u * v = p.z ^ 2 * (P.A ^ 2 - P.B ^ 2) ∧
      (P.evalCyl p).pot = -2 / π * P.mass * ((pf P.B u - pf P.B v) / (u - v)) := by
  have h0 : P.A ^ 2 - P.B ^ 2 ≥ 0 := by nlinarith
  rw [evalCyl_generic p hf]
  simp only
  generalize P.A ^ 2 - P.B ^ 2 = D2 at h0 ⊢
  obtain ⟨e1, e2, e3, e4, hc, hp, hs, -⟩ := getPosAxi_spec D2 p hR.le (fun _ h => hR.ne' h.1)
  obtain ⟨x, -, es, ec⟩ := cot_fin D2 p hR
  have er : (cylToAxi D2 p).rho = (getPosAxi D2 p).chi := by simp only [cylToAxi]; rw [if_pos h0]
  simp only [evalAxi, es, ec, Option.getD_some, er, evalSC, aux, if_pos h0]
  rw [e1, e2, ← e4, sqrt_sq hp]
  have hc' : 0 < (getPosAxi D2 p).chi := lt_of_le_of_ne hc (by rintro h; rw [← h, zero_mul] at e1; exact hR.ne' e1)
  generalize (getPosAxi D2 p).chi = chi at *
  generalize (getPosAxi D2 p).psi = psi at *
  generalize (getPosAxi D2 p).cosnu = c at *
  generalize (getPosAxi D2 p).sinnu = s at *
  have s2 : s ^ 2 = 1 - c ^ 2 := by linarith
  have w : chi ^ 2 + D2 * s ^ 2 = psi ^ 2 - D2 * c ^ 2 := by rw [s2, e4]; ring
  have w0 : 0 < chi ^ 2 + D2 * s ^ 2 := by positivity
  have pv : pf P.B (D2 * c ^ 2) = c * (√|D2| * arctan (√|D2| / P.B * c)) := by
    have : √(D2 * c ^ 2) = √|D2| * |c| := by rw [sqrt_mul h0, sqrt_sq_eq_abs, abs_of_nonneg h0]
    rw [pf, this]
    rcases abs_choice c with h | h <;> rw [h]
    · rw [mul_div_right_comm]; ring
    · have : √|D2| * -c / P.B = -(√|D2| / P.B * c) := by ring
      rw [this, arctan_neg]; ring
  refine ⟨psi ^ 2, D2 * c ^ 2, by linarith, by positivity, ?_, by ring, ?_⟩
  · have : chi ^ 2 = psi ^ 2 - D2 := by linarith
    rw [mul_pow, mul_pow, s2, this]; ring
  · rw [pv, pf, sqrt_sq hp, w]
    ring

/-- C100: coefficients of the expansion around the focal points of oblate models: at `x = Δ²` the function `pf` has derivatives `K0, 2 K1, 6 K2, 24 K3` -/
theorem C100_perfect_ellipsoid_taylor (B x : ℝ) (hB : 0 < B) (hx : 0 < x) :
    let k0 : ℝ → ℝ := fun x => 0.5 * (arctan (√x / B) / √x + B / (B ^ 2 + x))
    let k1 : ℝ → ℝ := fun x => (-1 / 4 * k0 x + 1 / 4 * B ^ 3 / (B ^ 2 + x) ^ 2) / x
    let k2 : ℝ → ℝ := fun x => (-3 / 6 * k1 x - 1 / 6 * (B / (B ^ 2 + x)) ^ 3) / x
    let k3 : ℝ → ℝ := fun x => (-5 / 8 * k2 x + 1 / 8 * (B / (B ^ 2 + x)) ^ 3 / (B ^ 2 + x)) / x
    HasDerivAt (pf B) (k0 x) x ∧ HasDerivAt k0 (2 * k1 x) x ∧ HasDerivAt k1 (3 * k2 x) x ∧ HasDerivAt k2 (4 * k3 x) x ∧
    ∀ P : PerfEll, P.B = B → 0 < P.A → P.A ^ 2 - P.B ^ 2 = x → P.foc.K0 = k0 x ∧ P.foc.Kp = 2 * k1 x * √x ∧
      P.foc.Kpp = 2 * k1 x + 8 * k2 x * x ∧ P.foc.Kqq = 2 * k1 x + 2 * k2 x * x ∧
      P.foc.Kppp = (24 * k2 x + 48 * k3 x * x) * √x ∧ P.foc.Kpqq = (8 * k2 x + 8 * k3 x * x) * √x := by
  intro k0 k1 k2 k3
  have s0 : 0 < √x := sqrt_pos.mpr hx
  have s2 : √x ^ 2 = x := sq_sqrt hx.le
  have ds : HasDerivAt (fun x => √x) (1 / (2 * √x)) x := hasDerivAt_sqrt hx.ne'
  have da : HasDerivAt (fun x => arctan (√x / B)) (B / (B ^ 2 + x) * (1 / (2 * √x))) x := by
    refine ((ds.div_const B).arctan).congr_deriv ?_
    rw [div_pow, s2]
    field_simp
  have hw : B ^ 2 + x ≠ 0 := by positivity
  have dw : HasDerivAt (fun x => B ^ 2 + x) 1 x := (hasDerivAt_id x).const_add _
  have d0 : HasDerivAt (pf B) (k0 x) x := by
    refine (ds.mul da).congr_deriv ?_
    simp only [k0]
    field_simp
    norm_num
  have d1 : HasDerivAt k0 (2 * k1 x) x := by
    refine (((da.div ds s0.ne').add ((hasDerivAt_const x B).div dw hw)).const_mul 0.5).congr_deriv ?_
    simp only [k1, k0]
    generalize arctan (√x / B) = a
    rw [s2]
    generalize √x = s at *
    subst s2
    field_simp
    ring
  have d2 : HasDerivAt k1 (3 * k2 x) x := by
    refine (((d1.const_mul (-1 / 4)).add ((hasDerivAt_const x (1 / 4 * B ^ 3)).div (dw.pow 2) (by simp only [Pi.pow_apply]; positivity))).div (hasDerivAt_id x) hx.ne').congr_deriv ?_
    simp only [Pi.add_apply, Pi.div_apply, Pi.pow_apply, id]
    have : k0 x = -4 * x * k1 x + B ^ 3 / (B ^ 2 + x) ^ 2 := by simp only [k1]; field_simp; ring
    simp only [k2]
    rw [this]
    generalize k1 x = k
    field_simp
    ring
  have d3 : HasDerivAt k2 (4 * k3 x) x := by
    refine (((d2.const_mul (-3 / 6)).sub ((((hasDerivAt_const x B).div dw hw).pow 3).const_mul (1 / 6))).div (hasDerivAt_id x) hx.ne').congr_deriv ?_
    have e : (3 : ℕ) - 1 = 2 := rfl
    simp only [Pi.sub_apply, Pi.div_apply, Pi.pow_apply, id, e]
    have : k1 x = -2 * x * k2 x - 1 / 3 * (B / (B ^ 2 + x)) ^ 3 := by simp only [k2]; field_simp; ring
    simp only [k3]
    rw [this]
    generalize k2 x = k
    field_simp
    ring
  refine ⟨d0, d1, d2, d3, ?_⟩
  intro P e1 hA e2
  have a2 : P.A ^ 2 = B ^ 2 + x := by rw [← e1, ← e2]; ring
  simp only [foc]
  rw [e2]
  simp only [if_neg (not_le.mpr hx), abs_of_pos hx, a2, e1]
  have m : √x * √x = x := mul_self_sqrt hx.le
  refine ⟨rfl, rfl, ?_, ?_, ?_, ?_⟩
  · simp only [mul_assoc, m]; rfl
  · simp only [mul_assoc, m]; rfl
  · simp only [k3, k2, k1, k0, mul_assoc, m]; ring
  · simp only [k3, k2, k1, k0, mul_assoc, m]; ring

theorem arctan_bound (t : ℝ) (ht : 0 ≤ t) : 0 ≤ arctan t - (t - t ^ 3 / 3 + t ^ 5 / 5 - t ^ 7 / 7) ∧ arctan t - (t - t ^ 3 / 3 + t ^ 5 / 5 - t ^ 7 / 7) ≤ t ^ 9 / 9 := by
  have d : ∀ x : ℝ, HasDerivAt (fun t : ℝ => arctan t - (t - t ^ 3 / 3 + t ^ 5 / 5 - t ^ 7 / 7)) (x ^ 8 / (1 + x ^ 2)) x := by
    intro x
    have h := (hasDerivAt_arctan x).sub ((((hasDerivAt_id x).sub (((hasDerivAt_id x).pow 3).div_const 3)).add (((hasDerivAt_id x).pow 5).div_const 5)).sub (((hasDerivAt_id x).pow 7).div_const 7))
    refine h.congr_deriv ?_
    simp only [id]
    field_simp
    push_cast
    ring
  have d9 : ∀ x : ℝ, HasDerivAt (fun t : ℝ => t ^ 9 / 9) (x ^ 8) x := by
    intro x
    refine (((hasDerivAt_id x).pow 9).div_const 9).congr_deriv ?_
    simp only [id]
    push_cast
    ring
  have m1 : Monotone (fun t : ℝ => arctan t - (t - t ^ 3 / 3 + t ^ 5 / 5 - t ^ 7 / 7)) :=
    monotone_of_hasDerivAt_nonneg d (fun x => by positivity)
  have m2 : Monotone (fun t : ℝ => t ^ 9 / 9 - (arctan t - (t - t ^ 3 / 3 + t ^ 5 / 5 - t ^ 7 / 7))) := by
    refine monotone_of_hasDerivAt_nonneg (fun x => (d9 x).sub (d x)) (fun x => ?_)
    have : x ^ 8 / (1 + x ^ 2) ≤ x ^ 8 := div_le_self (by positivity) (by nlinarith [sq_nonneg x])
    simpa using this
  have a := m1 ht
  have b := m2 ht
  simp only [arctan_zero] at a b
  norm_num at a b
  constructor <;> linarith

/-- C100: coefficients of the expansion around the focal ring of prolate models and the centre of the spherical model: they are the Taylor coefficients of `pf` at zero -/
theorem C100_perfect_ellipsoid_taylor_prolate (hB : 0 < P.B) (hA : 0 < P.A) (hAB : P.A ≤ P.B) :
    ∃ K1 K2 K3 : ℝ, (∀ x : ℝ, 0 ≤ x → |pf P.B x - (P.foc.K0 * x + K1 * x ^ 2 + K2 * x ^ 3 + K3 * x ^ 4)| ≤ x ^ 5 / (9 * P.B ^ 9)) ∧
      let D := √(P.B ^ 2 - P.A ^ 2)
      P.foc.Kp = 2 * K1 * D ∧ P.foc.Kpp = 2 * K1 + 8 * K2 * D ^ 2 ∧ P.foc.Kqq = 2 * K1 + 2 * K2 * D ^ 2 ∧
      P.foc.Kppp = 24 * K2 * D + 48 * K3 * D ^ 3 ∧ P.foc.Kpqq = 8 * K2 * D + 8 * K3 * D ^ 3 := by
  have d : P.A ^ 2 - P.B ^ 2 ≤ 0 := by nlinarith
  refine ⟨-1 / (3 * P.B ^ 3), 1 / (5 * P.B ^ 5), -1 / (7 * P.B ^ 7), ?_, ?_⟩
  · intro x hx
    obtain ⟨b1, b2⟩ := arctan_bound (√x / P.B) (by positivity)
    have s2 : √x ^ 2 = x := sq_sqrt hx
    have s0 := sqrt_nonneg x
    have e : pf P.B x - (P.foc.K0 * x + -1 / (3 * P.B ^ 3) * x ^ 2 + 1 / (5 * P.B ^ 5) * x ^ 3 + -1 / (7 * P.B ^ 7) * x ^ 4) =
        √x * (arctan (√x / P.B) - (√x / P.B - (√x / P.B) ^ 3 / 3 + (√x / P.B) ^ 5 / 5 - (√x / P.B) ^ 7 / 7)) := by
      simp only [pf, foc, if_pos d]
      generalize arctan (√x / P.B) = a
      generalize √x = s at *
      subst s2
      field_simp
      ring
    have e2 : x ^ 5 / (9 * P.B ^ 9) = √x * ((√x / P.B) ^ 9 / 9) := by
      generalize √x = s at *
      subst s2
      field_simp
    rw [e, e2, abs_of_nonneg (mul_nonneg s0 b1)]
    exact mul_le_mul_of_nonneg_left b2 s0
  · have : |P.A ^ 2 - P.B ^ 2| = P.B ^ 2 - P.A ^ 2 := by rw [abs_of_nonpos d]; ring
    simp only [foc, if_pos d, this]
    generalize √(P.B ^ 2 - P.A ^ 2) = D
    refine ⟨?_, ?_, ?_, ?_, ?_⟩ <;> field_simp

/-- C100, Poisson equation at the focal points: on the focal ring (prolate models), at the centre (spherical models) and at the two focal points (oblate models) -/
theorem C100_perfect_ellipsoid_focal_poisson (hA : 0 < P.A) (hB : 0 < P.B) :
    (P.A < P.B → ∀ p : PosCyl, p.R ^ 2 = P.B ^ 2 - P.A ^ 2 → 0 ≤ p.R → p.z = 0 → (P.evalCyl p).hess.dR2 + (P.evalCyl p).grad.dR / p.R + (P.evalCyl p).hess.dz2 = 4 * π * P.density p) ∧
    (P.B ≤ P.A → ∀ p : PosCyl, p.z ^ 2 = P.A ^ 2 - P.B ^ 2 → p.R = 0 → 2 * (P.evalCyl p).hess.dR2 + (P.evalCyl p).hess.dz2 = 4 * π * P.density p) := by
  have A2 : P.A ^ 2 ≠ 0 := by positivity
  have r0 : 0 < P.focRad2 := by
    rw [focRad2]
    have : 0 < max P.A P.B := lt_max_of_lt_left hA
    split_ifs <;> positivity
  constructor
  · intro hAB p e hR hz
    have d : P.A ^ 2 - P.B ^ 2 ≤ 0 := by nlinarith
    have hD : √|P.A ^ 2 - P.B ^ 2| = p.R := by
      rw [abs_of_nonpos d, ← sqrt_sq hR, e]
      congr 1
      ring
    have f : P.focDist2 p < P.focRad2 := by
      rw [focDist2, if_pos d, hD, hz]
      simpa using r0
    have R0 : p.R ≠ 0 := by
      intro h
      rw [h] at e
      nlinarith
    rw [evalCyl_focal p f]
    simp only [if_pos d, hD, hz, sub_self, foc, density]
    rw [if_pos (Or.inr le_rfl)]
    have e' : P.A ^ 2 = P.B ^ 2 - p.R ^ 2 := by linarith
    have u : (p.R / P.A) ^ 2 + (0 / P.B) ^ 2 + 1 = P.B ^ 2 / P.A ^ 2 := by
      rw [div_pow, e']
      rw [e'] at A2
      field_simp
      ring
    rw [u]
    have := pi_pos.ne'
    field_simp
    rw [e']
    ring
  · intro hAB p e hR
    have d : 0 ≤ P.A ^ 2 - P.B ^ 2 := by nlinarith
    have hD : √|P.A ^ 2 - P.B ^ 2| = |p.z| := by
      rw [abs_of_nonneg d, ← e, sqrt_sq_eq_abs]
    have f : P.focDist2 p < P.focRad2 := by
      rw [focDist2, hD, hR]
      split_ifs with h
      · have : p.z = 0 := by nlinarith
        rw [this]; simpa using r0
      · simpa using r0
    rw [evalCyl_focal p f]
    have pp := pi_pos.ne'
    have u : (p.R / P.A) ^ 2 + (p.z / P.B) ^ 2 + 1 = P.A ^ 2 / P.B ^ 2 := by
      rw [hR, div_pow, div_pow, e]
      field_simp
      ring
    simp only [hD, foc, density]
    rw [u]
    by_cases h : P.A ^ 2 - P.B ^ 2 ≤ 0
    · have z0 : p.z = 0 := by nlinarith
      have ab : P.A ^ 2 = P.B ^ 2 := by linarith
      simp only [if_pos h, hR, z0, abs_zero, sub_self]
      rw [ab]
      field_simp
      ring
    · simp only [if_neg h, hR, sub_self]
      have x0 : P.A ^ 2 - P.B ^ 2 ≠ 0 := by
        intro h'
        exact h h'.le
      have zz : |p.z| * |p.z| = P.A ^ 2 - P.B ^ 2 := by rw [abs_mul_abs_self, ← sq, e]
      simp only [mul_assoc, zz]
      generalize arctan (|p.z| / P.B) / |p.z| = a
      generalize hx : P.A ^ 2 - P.B ^ 2 = x at *
      have : P.B ^ 2 = P.A ^ 2 - x := by linarith
      field_simp
      ring

end PerfEll
end Verif.Pot
