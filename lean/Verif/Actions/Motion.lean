import Verif.Actions.Map

/-! mapIsochrone: the image of uniformly growing angles is an orbit in the isochrone potential -/

namespace Verif.Actions

open Real Verif.Coord Verif.Core Verif.Pot

noncomputable section

variable {M b : ℝ} {a : Act} {t : Ang} {solve : ℝ → ℝ → ℝ}

/-- The point on the orbit in Cartesian coordinates -/
def carPoint (s ci si φ0 r vr w ψ : ℝ) : PosVelCar :=
  ⟨r * (cos φ0 * cos ψ + -(s * ci * sin φ0) * sin ψ), r * (sin φ0 * cos ψ + s * ci * cos φ0 * sin ψ), r * (0 * cos ψ + si * sin ψ),
   vr * (cos φ0 * cos ψ + -(s * ci * sin φ0) * sin ψ) + w * (-cos φ0 * sin ψ + -(s * ci * sin φ0) * cos ψ),
   vr * (sin φ0 * cos ψ + s * ci * cos φ0 * sin ψ) + w * (-sin φ0 * sin ψ + s * ci * cos φ0 * cos ψ),
   vr * (0 * cos ψ + si * sin ψ) + w * (-0 * sin ψ + si * cos ψ)⟩

theorem map_car (h : Regular M b a) (hk : Kepler solve (mapEcc M b a)) (h0 : 0 ≤ t.thetar) (h1 : t.thetar < 2 * π) :
    ∃ p, mapIsochrone solve M b a t = some p ∧ ∃ r, r = rS M b (mapJ0 M b a) (mapEcc M b a) (solve (mapEcc M b a) t.thetar) ∧
      vCylToCar p = carPoint (sign a.Jphi) (ciOf a) (siOf a) (t.thetaphi - sign a.Jphi * t.thetaz) r (mapJ0 M b a * mapEcc M b a * sin (solve (mapEcc M b a) t.thetar) / r) (mapL a / r)
        (mapPsi solve M b a t) := by
  obtain ⟨chi, st, c1, c2, c3, c4, r, vr, vt, hr, hvr, hvt, hm⟩ := map_spec h hk h0 h1
  refine ⟨_, hm, r, hr, ?_⟩
  obtain ⟨-, -, i3, -, -, i6⟩ := incl h
  have hP := map_par h
  have hrp : 0 < r := by rw [hr]; exact (hP.rS_sq _).2
  obtain ⟨s1, s2, s3⟩ := sign_cases h.hphi
  set ψ := mapPsi solve M b a t
  set φ0 := t.thetaphi - sign a.Jphi * t.thetaz with hφ0
  have hφ : t.thetaphi + (chi - t.thetaz) * sign a.Jphi = φ0 + sign a.Jphi * chi := by rw [hφ0]; ring
  have hss : sign a.Jphi ^ 2 = 1 := by rcases s1 with s | s <;> rw [s] <;> norm_num
  have hc : cos (sign a.Jphi * chi) = cos chi := by rcases s1 with s | s <;> rw [s] <;> simp
  have hs : sin (sign a.Jphi * chi) = sign a.Jphi * sin chi := by rcases s1 with s | s <;> rw [s] <;> simp
  have hC : st * cos (φ0 + sign a.Jphi * chi) = cos φ0 * cos ψ + -(sign a.Jphi * ciOf a * sin φ0) * sin ψ := by
    rw [cos_add, hc, hs]; linear_combination cos φ0 * c2 - sign a.Jphi * sin φ0 * c3
  have hS : st * sin (φ0 + sign a.Jphi * chi) = sin φ0 * cos ψ + sign a.Jphi * ciOf a * cos φ0 * sin ψ := by
    rw [sin_add, hc, hs]; linear_combination sin φ0 * c2 + sign a.Jphi * cos φ0 * c3
  have hsc := sin_sq_add_cos_sq ψ
  have hst2 : st ^ 2 = 1 - siOf a ^ 2 * sin ψ ^ 2 := by rw [← mul_pow]; linarith
  have hJ : a.Jphi = sign a.Jphi * (ciOf a * mapL a) := by rw [i6, s3]
  have hsi : siOf a ^ 2 = 1 - ciOf a ^ 2 := by linarith
  rw [carPoint, vCylToCar]
  simp only [cos_wrap, sin_wrap, hφ]
  have hvt' : vt = -(mapL a / r) * siOf a * cos ψ / st := by rw [hvt]; field_simp
  have hvp : a.Jphi / (r * st) = sign a.Jphi * ciOf a * (mapL a / r) / st := (congrArg (· / (r * st)) hJ).trans (by field_simp)
  generalize hC' : cos (φ0 + sign a.Jphi * chi) = C at *
  generalize hS' : sin (φ0 + sign a.Jphi * chi) = S at *
  have eC : C = (cos φ0 * cos ψ + -(sign a.Jphi * ciOf a * sin φ0) * sin ψ) / st := by rw [← hC]; field_simp
  have eS : S = (sin φ0 * cos ψ + sign a.Jphi * ciOf a * cos φ0 * sin ψ) / st := by rw [← hS]; field_simp
  rw [hvp, hvt', ← hvr]
  generalize mapL a / r = w
  have hne := c1.ne'
  ext
  · show r * st * C = _
    rw [mul_assoc, hC]
  · show r * st * S = _
    rw [mul_assoc, hS]
  · show r * (siOf a * sin ψ) = _
    simp
  · show (vr * st + -w * siOf a * cos ψ / st * (siOf a * sin ψ)) * C - sign a.Jphi * ciOf a * w / st * S = vr * (cos φ0 * cos ψ + -(sign a.Jphi * ciOf a * sin φ0) * sin ψ) +
      w * (-cos φ0 * sin ψ + -(sign a.Jphi * ciOf a * sin φ0) * cos ψ)
    rw [eC, eS]
    field_simp
    rw [hst2, hsi]
    linear_combination (w * cos φ0 * sin ψ * ciOf a ^ 2 * (- 1)) * hss - w * (1 - ciOf a ^ 2) * cos φ0 * sin ψ * hsc
  · show (vr * st + -w * siOf a * cos ψ / st * (siOf a * sin ψ)) * S + sign a.Jphi * ciOf a * w / st * C = vr * (sin φ0 * cos ψ + sign a.Jphi * ciOf a * cos φ0 * sin ψ) +
      w * (-sin φ0 * sin ψ + sign a.Jphi * ciOf a * cos φ0 * cos ψ)
    rw [eC, eS]
    field_simp
    rw [hst2, hsi]
    linear_combination (w * sin φ0 * sin ψ * ciOf a ^ 2 * (- 1)) * hss - w * (1 - ciOf a ^ 2) * sin φ0 * sin ψ * hsc
  · show vr * (siOf a * sin ψ) - -w * siOf a * cos ψ / st * st = vr * (0 * cos ψ + siOf a * sin ψ) + w * (-0 * sin ψ + siOf a * cos ψ)
    field_simp
    ring

end

end Verif.Actions
