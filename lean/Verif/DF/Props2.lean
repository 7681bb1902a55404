import Verif.DF.Props

/-! # C98: double power-law and quasi-isothermal distribution functions -/

namespace Verif.DF

open Real Verif.Actions Filter Topology

/-! ### logarithmic derivatives -/

/-- l is the logarithmic derivative of f -/
def LD (f : ℝ → ℝ) (l : ℝ) (S : Set ℝ) (t : ℝ) : Prop := HasDerivWithinAt f (f t * l) S t

theorem LD.mul {f g : ℝ → ℝ} {l m t : ℝ} {S : Set ℝ} (hf : LD f l S t) (hg : LD g m S t) : LD (fun s => f s * g s) (l + m) S t := by
  refine (HasDerivWithinAt.fun_mul hf hg).congr_deriv ?_
  ring

theorem LD.const (k : ℝ) {t : ℝ} {S : Set ℝ} : LD (fun _ => k) 0 S t := by
  refine (hasDerivWithinAt_const t S k).congr_deriv ?_
  simp

theorem LD.of {f : ℝ → ℝ} {f' t : ℝ} {S : Set ℝ} (hf : HasDerivWithinAt f f' S t) (h0 : f t ≠ 0) : LD f (f' / f t) S t := by
  refine hf.congr_deriv ?_
  field_simp

theorem LD.rpow {f : ℝ → ℝ} {l t : ℝ} {S : Set ℝ} (hf : LD f l S t) (h0 : 0 < f t) (p : ℝ) : LD (fun s => f s ^ p) (p * l) S t := by
  refine (HasDerivWithinAt.rpow_const hf (Or.inl h0.ne')).congr_deriv ?_
  rw [rpow_sub_one h0.ne']
  field_simp

theorem LD.one_add {f : ℝ → ℝ} {l t : ℝ} {S : Set ℝ} (hf : LD f l S t) (h0 : 0 ≤ f t) : LD (fun s => 1 + f s) (f t * l / (1 + f t)) S t := by
  have : HasDerivWithinAt (fun s => 1 + f s) (f t * l) S t := HasDerivWithinAt.const_add 1 hf
  exact LD.of this (by positivity)

theorem LD.inv {f : ℝ → ℝ} {l t : ℝ} {S : Set ℝ} (hf : LD f l S t) (h0 : f t ≠ 0) : LD (fun s => 1 / f s) (-l) S t := by
  have := (HasDerivWithinAt.fun_inv hf h0)
  simp only [← one_div] at this
  refine this.congr_deriv ?_
  field_simp

theorem LD.congr {f : ℝ → ℝ} {l m t : ℝ} {S : Set ℝ} (hf : LD f l S t) (h : l = m) : LD f m S t := h ▸ hf

theorem hasDerivAt_tanh (x : ℝ) : HasDerivAt tanh (1 - tanh x ^ 2) x := by
  have h := (hasDerivAt_sinh x).div (hasDerivAt_cosh x) (cosh_pos x).ne'
  have e : tanh = sinh / cosh := by funext y; simp [tanh_eq_sinh_div_cosh]
  rw [e]
  refine h.congr_deriv ?_
  have := (cosh_pos x).ne'
  simp only [Pi.div_apply]
  field_simp
  
theorem abs_tanh_lt (x : ℝ) : |tanh x| < 1 := by
  rw [tanh_eq_sinh_div_cosh, abs_div, abs_of_pos (cosh_pos x), div_lt_one (cosh_pos x), abs_lt]
  constructor <;> [have := exp_pos x; have := exp_pos (-x)] <;> [rw [← cosh_add_sinh] at this; rw [← cosh_sub_sinh] at this] <;> linarith

/-! ### double power law -/

theorem sgn_abs (J : Act) (k : ℝ) : k * signJphi J * J.Jphi = k * |J.Jphi| := by
  simp only [signJphi]
  split_ifs with h
  · rw [abs_of_nonneg h]; ring
  · rw [abs_of_neg (not_le.mp h)]; ring

theorem hg_pos (P : DoublePowerLawParam) {beta : ℝ} (hP : P.accepted beta) (J : Act) (hJ : Phys J) (h0 : J ≠ ⟨0, 0, 0⟩) : 0 < P.h J ∧ 0 < P.g J := by
  obtain ⟨-, -, -, -, -, -, -, -, ⟨c1, c2, c3, c4, c5, c6⟩, -⟩ := hP
  obtain ⟨j1, j2⟩ := hJ
  have j3 := abs_nonneg J.Jphi
  have key : 0 < J.Jr ∨ 0 < J.Jz ∨ 0 < |J.Jphi| := by
    by_contra hh
    push Not at hh
    refine h0 ?_
    obtain ⟨a, b, c⟩ := J
    simp only at hh j1 j2 j3
    have := abs_eq_zero.mp (le_antisymm hh.2.2 j3)
    simp only [Act.mk.injEq]
    exact ⟨le_antisymm hh.1 j1, le_antisymm hh.2.1 j2, this⟩
  have gen : ∀ x y : ℝ, 0 < x → 0 < y → x + y < 3 → 0 < x * J.Jr + y * J.Jz + (3 - x - y) * |J.Jphi| := by
    intro x y hx hy hxy
    have hz : 0 < 3 - x - y := by linarith
    rcases key with k | k | k <;> positivity
  simp only [DoublePowerLawParam.h, DoublePowerLawParam.g, sgn_abs]
  exact ⟨gen _ _ c1 c2 c3, gen _ _ c4 c5 c6⟩

theorem core_pos {u beta : ℝ} (hb : 0 ≤ beta) (hb2 : beta < 2) : 0 < 1 + u * (u - beta) := by
  nlinarith [sq_nonneg (u - beta / 2), mul_pos (show 0 < 2 - beta by linarith) (show 0 < 2 + beta by linarith)]

theorem rot_eq (P : DoublePowerLawParam) (hrot : P.rotFrac = 0 ∨ P.Jphi0 ≠ 0) (x : ℝ) : P.rot x = some (P.rotFrac * tanh (x / P.Jphi0)) := by
  simp only [DoublePowerLawParam.rot]
  by_cases h : P.rotFrac = 0
  · simp [h]
  · have := hrot.resolve_left h
    simp [h, this]

theorem one_add_rot_pos {r : ℝ} (hr : |r| ≤ 1) (x : ℝ) : 0 < 1 + r * tanh x := by
  have h := abs_tanh_lt x
  have : |r * tanh x| < 1 := by
    rw [abs_mul]
    rcases eq_or_lt_of_le (abs_nonneg r) with h0 | h0
    · rw [← h0]; simp
    · nlinarith [abs_nonneg (tanh x)]
  linarith [(abs_lt.mp this).1]

/-- C98 (double power law): for any physical action except the origin, the value is the documented one, and is positive -/
theorem C98_dpl_value (P : DoublePowerLawParam) {beta : ℝ} (hP : P.accepted beta) (hb : beta < 2) (hrot : P.rotFrac = 0 ∨ P.Jphi0 ≠ 0)
    (J : Act) (hJ : Phys J) (h0 : J ≠ ⟨0, 0, 0⟩) : P.value beta J = some (dplSpec P beta J) ∧ 0 < dplSpec P beta J := by
  obtain ⟨hh, hg⟩ := hg_pos P hP J hJ h0
  have hP' := hP
  obtain ⟨p1, p2, ⟨p3, p4⟩, p5, p6, p7, p8, p9, -, p11⟩ := hP
  have eh : P.coefJrIn * J.Jr + P.coefJzIn * J.Jz + (3 - P.coefJrIn - P.coefJzIn) * |J.Jphi| = P.h J := by simp only [DoublePowerLawParam.h, sgn_abs]
  have eg : P.coefJrOut * J.Jr + P.coefJzOut * J.Jz + (3 - P.coefJrOut - P.coefJzOut) * |J.Jphi| = P.g J := by simp only [DoublePowerLawParam.g, sgn_abs]
  have hc := core_pos (u := P.Jcore / P.h J) p4 hb
  constructor
  · simp only [DoublePowerLawParam.value, dplSpec, eh, eg, rot_eq P hrot, if_neg hh.ne', Option.bind_eq_bind, Option.bind_some, pure, Option.some.injEq]
    congr 1
    have e1 : (P.Jcore / P.h J) ^ 2 - beta * (P.Jcore / P.h J) + 1 = 1 + P.Jcore / P.h J * (P.Jcore / P.h J - beta) := by ring
    have e2 : -P.slopeIn / 2 = -0.5 * P.slopeIn := by norm_num; ring
    rw [e1, e2]
    by_cases hcore : P.Jcore > 0
    · rw [if_pos hcore]
      congr 1
      by_cases hcut : P.Jcutoff > 0
      · rw [if_pos hcut, if_pos hcut, if_neg hcut.ne']
      · have := le_antisymm (not_lt.mp hcut) p5
        rw [if_neg hcut, if_pos this, mul_one]
    · have z := le_antisymm (not_lt.mp hcore) p3
      rw [if_neg hcore, z]
      simp only [zero_div, zero_mul, add_zero, one_rpow, mul_one]
      by_cases hcut : P.Jcutoff > 0
      · rw [if_pos hcut, if_pos hcut, if_neg hcut.ne']
      · have := le_antisymm (not_lt.mp hcut) p5
        rw [if_neg hcut, if_pos this, mul_one]
  · simp only [dplSpec, eh, eg]
    have e1 : (P.Jcore / P.h J) ^ 2 - beta * (P.Jcore / P.h J) + 1 = 1 + P.Jcore / P.h J * (P.Jcore / P.h J - beta) := by ring
    rw [e1]
    have := one_add_rot_pos p11 (J.Jphi / P.Jphi0)
    have : 0 < (if P.Jcutoff = 0 then 1 else exp (-(P.g J / P.Jcutoff) ^ P.cutoffStrength)) := by split_ifs <;> positivity
    positivity

/-- C98 (double power law, derivatives): the reported derivatives are those of the value -/
theorem C98_dpl_deriv (P : DoublePowerLawParam) {beta : ℝ} (hP : P.accepted beta) (hb : beta < 2) (hrot : P.rotFrac = 0 ∨ P.Jphi0 ≠ 0)
    (J : Act) (h0 : J ≠ ⟨0, 0, 0⟩) : IsDerivDF (fun J => (P.value beta J).getD 0) (P.deriv beta J) J := by
  intro S a b c a' b' c' t ht ha hb' hc hJ hS
  subst hJ
  simp only at hS
  have hphys := (hS t ht).1
  obtain ⟨hh, hg⟩ := hg_pos P hP _ hphys h0
  have hP' := hP
  obtain ⟨p1, p2, ⟨p3, p4⟩, p5, p6, p7, p8, p9, -, p11⟩ := hP
  have sgn : ∀ s ∈ S, signJphi ⟨a s, b s, c s⟩ = signJphi ⟨a t, b t, c t⟩ := by
    intro s hs
    have := (hS s hs).2
    simp only [signJphi, ge_iff_le, this]
  set σ := signJphi ⟨a t, b t, c t⟩ with hσ
  have D : ∀ x y z : ℝ, HasDerivWithinAt (fun s => x * a s + y * b s + z * σ * c s) (x * a' + y * b' + z * σ * c') S t := fun x y z =>
    ((ha.const_mul x).add (hb'.const_mul y)).add (hc.const_mul (z * σ))
  set H : ℝ → ℝ := fun s => P.coefJrIn * a s + P.coefJzIn * b s + (3 - P.coefJrIn - P.coefJzIn) * σ * c s with hH
  set G : ℝ → ℝ := fun s => P.coefJrOut * a s + P.coefJzOut * b s + (3 - P.coefJrOut - P.coefJzOut) * σ * c s with hG
  have dH := D P.coefJrIn P.coefJzIn (3 - P.coefJrIn - P.coefJzIn)
  have dG := D P.coefJrOut P.coefJzOut (3 - P.coefJrOut - P.coefJzOut)
  rw [← hH] at dH
  rw [← hG] at dG
  set H' := P.coefJrIn * a' + P.coefJzIn * b' + (3 - P.coefJrIn - P.coefJzIn) * σ * c' with hH'
  set G' := P.coefJrOut * a' + P.coefJzOut * b' + (3 - P.coefJrOut - P.coefJzOut) * σ * c' with hG'
  have eH : ∀ s ∈ S, P.h ⟨a s, b s, c s⟩ = H s := fun s hs => by simp only [DoublePowerLawParam.h, sgn s hs, hH]
  have eG : ∀ s ∈ S, P.g ⟨a s, b s, c s⟩ = G s := fun s hs => by simp only [DoublePowerLawParam.g, sgn s hs, hG]
  rw [eH t ht] at hh
  rw [eG t ht] at hg
  have hc0 := core_pos (u := P.Jcore / H t) p4 hb
  set N := P.norm / (2 * π * P.J0) ^ 3 with hN
  -- logarithmic derivatives of the factors
  have l1 : LD (fun s => (1 + (P.J0 / H s) ^ P.steepness) ^ (P.slopeIn / P.steepness)) (-P.slopeIn * (P.J0 / H t) ^ P.steepness / (H t * (1 + (P.J0 / H t) ^ P.steepness)) * H') S t := by
    have e1 : LD (fun s => P.J0 / H s) (-(H' / H t)) S t := by
      have := ((LD.of dH hh.ne').inv hh.ne')
      refine (((LD.const P.J0).mul this).congr (zero_add _)) |> fun q => ?_
      have e : (fun s => P.J0 / H s) = fun s => P.J0 * (1 / H s) := by funext s; ring
      rw [e]; exact q
    have hp : 0 < P.J0 / H t := by positivity
    have e2 := ((e1.rpow hp P.steepness).one_add (by positivity)).rpow (by positivity) (P.slopeIn / P.steepness)
    refine e2.congr ?_
    have : 1 + (P.J0 / H t) ^ P.steepness ≠ 0 := by positivity
    field_simp
  have l2 : LD (fun s => (1 + (G s / P.J0) ^ P.steepness) ^ (-P.slopeOut / P.steepness)) (-P.slopeOut * (G t / P.J0) ^ P.steepness / (G t * (1 + (G t / P.J0) ^ P.steepness)) * G') S t := by
    have e1 : LD (fun s => G s / P.J0) (G' / G t) S t := by
      refine (((LD.of dG hg.ne').mul (LD.const (1 / P.J0))).congr (add_zero _)) |> fun q => ?_
      have e : (fun s => G s / P.J0) = fun s => G s * (1 / P.J0) := by funext s; ring
      rw [e]; exact q
    have hp : 0 < G t / P.J0 := by positivity
    have e2 := ((e1.rpow hp P.steepness).one_add (by positivity)).rpow (by positivity) (-P.slopeOut / P.steepness)
    refine e2.congr ?_
    have : 1 + (G t / P.J0) ^ P.steepness ≠ 0 := by positivity
    field_simp
  have l3 : LD (fun s => if P.Jcutoff = 0 then 1 else exp (-(G s / P.Jcutoff) ^ P.cutoffStrength)) (if P.Jcutoff = 0 then 0 else -P.cutoffStrength * (G t / P.Jcutoff) ^ P.cutoffStrength / G t * G') S t := by
    by_cases h : P.Jcutoff = 0
    · simp only [if_pos h]
      exact LD.const 1
    · simp only [if_neg h]
      have hcp : 0 < P.Jcutoff := lt_of_le_of_ne p5 (Ne.symm h)
      have e1 : LD (fun s => G s / P.Jcutoff) (G' / G t) S t := by
        refine (((LD.of dG hg.ne').mul (LD.const (1 / P.Jcutoff))).congr (add_zero _)) |> fun q => ?_
        have e : (fun s => G s / P.Jcutoff) = fun s => G s * (1 / P.Jcutoff) := by funext s; ring
        rw [e]; exact q
      have hp : 0 < G t / P.Jcutoff := by positivity
      have e2 := HasDerivWithinAt.exp (HasDerivWithinAt.fun_neg (e1.rpow hp P.cutoffStrength))
      refine e2.congr_deriv ?_
      field_simp
  have l4 : LD (fun s => ((P.Jcore / H s) ^ 2 - beta * (P.Jcore / H s) + 1) ^ (-P.slopeIn / 2))
      (P.slopeIn * (P.Jcore / H t) * (P.Jcore / H t - beta / 2) / (H t * (1 + P.Jcore / H t * (P.Jcore / H t - beta))) * H') S t := by
    have e1 : HasDerivWithinAt (fun s => P.Jcore / H s) (-(P.Jcore * H' / H t ^ 2)) S t := by
      refine ((hasDerivWithinAt_const t S P.Jcore).fun_div dH hh.ne').congr_deriv ?_
      ring
    have e2 : HasDerivWithinAt (fun s => (P.Jcore / H s) ^ 2 - beta * (P.Jcore / H s) + 1) ((2 * (P.Jcore / H t) - beta) * (-(P.Jcore * H' / H t ^ 2))) S t := by
      refine (((e1.fun_pow 2).sub (e1.const_mul beta)).add_const 1).congr_deriv ?_
      push_cast; ring
    have e0 : (P.Jcore / H t) ^ 2 - beta * (P.Jcore / H t) + 1 = 1 + P.Jcore / H t * (P.Jcore / H t - beta) := by ring
    have hp : 0 < (P.Jcore / H t) ^ 2 - beta * (P.Jcore / H t) + 1 := by rw [e0]; exact hc0
    refine ((LD.of e2 hp.ne').rpow hp (-P.slopeIn / 2)).congr ?_
    rw [e0]
    generalize 1 + P.Jcore / H t * (P.Jcore / H t - beta) = K at *
    have := hc0.ne'
    field_simp
  have l5 : LD (fun s => 1 + P.rotFrac * tanh (c s / P.Jphi0)) (P.rotFrac * (1 - tanh (c t / P.Jphi0) ^ 2) / (1 + P.rotFrac * tanh (c t / P.Jphi0)) / P.Jphi0 * c') S t := by
    have e1 := (((hasDerivAt_tanh (c t / P.Jphi0)).comp_hasDerivWithinAt t (hc.div_const P.Jphi0)).const_mul P.rotFrac).const_add 1
    refine (LD.of e1 (one_add_rot_pos p11 _).ne').congr ?_
    simp only [Function.comp]
    ring
  have L := ((((((LD.const N).mul l1).mul l2).mul l3).mul l4).mul l5)
  have form : ∀ s ∈ S, (⟨a s, b s, c s⟩ : Act) ≠ ⟨0, 0, 0⟩ → (P.value beta ⟨a s, b s, c s⟩).getD 0 = N * (1 + (P.J0 / H s) ^ P.steepness) ^ (P.slopeIn / P.steepness) * (1 + (G s / P.J0) ^ P.steepness) ^ (-P.slopeOut / P.steepness) *
    (if P.Jcutoff = 0 then 1 else exp (-(G s / P.Jcutoff) ^ P.cutoffStrength)) * ((P.Jcore / H s) ^ 2 - beta * (P.Jcore / H s) + 1) ^ (-P.slopeIn / 2) *
    (1 + P.rotFrac * tanh (c s / P.Jphi0)) := by
    intro s hs hne
    rw [(C98_dpl_value P hP' hb hrot _ (hS s hs).1 hne).1, Option.getD_some]
    simp only [dplSpec, ← sgn_abs ⟨a s, b s, c s⟩, sgn s hs]
    rfl
  have hev : ∀ᶠ s in 𝓝[S] t, (⟨a s, b s, c s⟩ : Act) ≠ ⟨0, 0, 0⟩ := by
    have : ∀ᶠ s in 𝓝[S] t, 0 < H s := dH.continuousWithinAt.eventually (lt_mem_nhds hh)
    filter_upwards [this] with s hs
    intro he
    simp only [Act.mk.injEq] at he
    simp only [hH, he.1, he.2.1, he.2.2] at hs
    simp at hs
  have hev2 : (fun s => (P.value beta ⟨a s, b s, c s⟩).getD 0) =ᶠ[𝓝[S] t] (fun s => N * (1 + (P.J0 / H s) ^ P.steepness) ^ (P.slopeIn / P.steepness) * (1 + (G s / P.J0) ^ P.steepness) ^ (-P.slopeOut / P.steepness) *
    (if P.Jcutoff = 0 then 1 else exp (-(G s / P.Jcutoff) ^ P.cutoffStrength)) * ((P.Jcore / H s) ^ 2 - beta * (P.Jcore / H s) + 1) ^ (-P.slopeIn / 2) *
    (1 + P.rotFrac * tanh (c s / P.Jphi0))) := by
    filter_upwards [hev, self_mem_nhdsWithin] with s h1 h2
    exact form s h2 h1
  refine (HasDerivWithinAt.congr_of_eventuallyEq L hev2 (form t ht h0)).congr_deriv ?_
  simp only [DoublePowerLawParam.deriv, form t ht h0, eH t ht, eG t ht, rot_eq P hrot, Option.getD_some, ← hσ]
  generalize hV : N * (1 + (P.J0 / H t) ^ P.steepness) ^ (P.slopeIn / P.steepness) * (1 + (G t / P.J0) ^ P.steepness) ^ (-P.slopeOut / P.steepness) *
    (if P.Jcutoff = 0 then 1 else exp (-(G t / P.Jcutoff) ^ P.cutoffStrength)) * ((P.Jcore / H t) ^ 2 - beta * (P.Jcore / H t) + 1) ^ (-P.slopeIn / 2) *
    (1 + P.rotFrac * tanh (c t / P.Jphi0)) = V
  have r1 : (if P.Jphi0 ≠ 0 ∧ P.rotFrac ≠ 0 then V * P.rotFrac * (1 - (P.rotFrac * tanh (c t / P.Jphi0) / P.rotFrac) ^ 2) / (1 + P.rotFrac * tanh (c t / P.Jphi0)) / P.Jphi0 else 0) =
      V * (P.rotFrac * (1 - tanh (c t / P.Jphi0) ^ 2) / (1 + P.rotFrac * tanh (c t / P.Jphi0)) / P.Jphi0) := by
    by_cases h : P.rotFrac = 0
    · simp [h]
    · have h2 := hrot.resolve_left h
      rw [if_pos ⟨h2, h⟩, mul_div_cancel_left₀ _ h]
      ring
  have r2 : (-(P.slopeOut * (G t / P.J0) ^ P.steepness + (if P.Jcutoff > 0 then P.cutoffStrength * (if P.Jcutoff > 0 then (G t / P.Jcutoff) ^ P.cutoffStrength else 0) * (1 + (G t / P.J0) ^ P.steepness) else 0)) / (G t * (1 + (G t / P.J0) ^ P.steepness))) * G' =
      -P.slopeOut * (G t / P.J0) ^ P.steepness / (G t * (1 + (G t / P.J0) ^ P.steepness)) * G' + (if P.Jcutoff = 0 then 0 else -P.cutoffStrength * (G t / P.Jcutoff) ^ P.cutoffStrength / G t * G') := by
    by_cases h : P.Jcutoff = 0
    · rw [if_pos h, if_neg (by rw [h]; simp)]
      ring
    · have hcp : 0 < P.Jcutoff := lt_of_le_of_ne p5 (Ne.symm h)
      rw [if_neg h, if_pos hcp, if_pos hcp]
      have : 1 + (G t / P.J0) ^ P.steepness ≠ 0 := by positivity
      field_simp
      ring
  have r3 : (-P.slopeIn * ((P.J0 / H t) ^ P.steepness + P.Jcore / H t * (0.5 * beta * (1 - (P.J0 / H t) ^ P.steepness) - P.Jcore / H t)) / (H t * (1 + (P.J0 / H t) ^ P.steepness) * (1 + P.Jcore / H t * (P.Jcore / H t - beta)))) * H' =
      -P.slopeIn * (P.J0 / H t) ^ P.steepness / (H t * (1 + (P.J0 / H t) ^ P.steepness)) * H' + P.slopeIn * (P.Jcore / H t) * (P.Jcore / H t - beta / 2) / (H t * (1 + P.Jcore / H t * (P.Jcore / H t - beta))) * H' := by
    have k1 : 1 + (P.J0 / H t) ^ P.steepness ≠ 0 := by positivity
    have k2 := hc0.ne'
    generalize (P.J0 / H t) ^ P.steepness = Y at *
    generalize P.Jcore / H t = u at *
    have k3 := hh.ne'
    field_simp
    ring
  rw [r1]
  linear_combination V * (-r2) + V * (-r3)

end Verif.DF
