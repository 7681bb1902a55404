import Verif.Pot.Projected
import Mathlib.MeasureTheory.Function.JacobianOneDim
import Mathlib.Analysis.SpecialFunctions.ImproperIntegrals
import Mathlib.Tactic

/-! # C119: projections along the line of sight -/

namespace Verif.Pot.Projected
open Verif.Coord Verif.Scaling MeasureTheory Real
noncomputable section

theorem dudsDbl_nonneg {R : ℝ} (hR : 0 ≤ R) (s : ℝ) : 0 ≤ dudsDbl R s := by
  unfold dudsDbl dblExp
  simp only
  split_ifs <;> positivity

/-- **C119** (and C17) the scaling of the doubly infinite interval is a bijection of (0,1) with ℝ for any scale -/
theorem C119_bijection {R : ℝ} (hR : 0 ≤ R) : unscaleDbl R '' Set.Ioo 0 1 = Set.univ ∧ Set.InjOn (unscaleDbl R) (Set.Ioo 0 1) := by
  have mono := C17_double_mono R hR
  refine ⟨?_, mono.injOn⟩
  have up : ∀ u : ℝ, 0 < u → ∃ s ∈ Set.Ioo (0:ℝ) 1, unscaleDbl R s = u := by
    intro u hu
    obtain ⟨a, b, e⟩ := C17_double_inverse u
    set s1 := scaleDbl0 u
    have h12 : 1 / 2 < s1 := by
      by_contra h
      have := (C17_double_mono 0 le_rfl).monotoneOn ⟨a, b⟩ (show (1/2:ℝ) ∈ Set.Ioo 0 1 by norm_num) (not_lt.mp h)
      rw [e, C17_double_half] at this
      linarith
    have hge : u ≤ unscaleDbl R s1 := by
      have : unscaleDbl R s1 = R * (s1 - 1 / 2) + unscaleDbl 0 s1 := by simp only [unscaleDbl]; ring
      rw [this, e]
      nlinarith
    have hc : ContinuousOn (unscaleDbl R) (Set.Icc (1 / 2) s1) := fun s hs =>
      (C17_double_deriv R s (by linarith [hs.1]) (by linarith [hs.2])).continuousAt.continuousWithinAt
    obtain ⟨s, hs, he⟩ := intermediate_value_Icc h12.le hc (show u ∈ Set.Icc _ _ by rw [C17_double_half]; exact ⟨hu.le, hge⟩)
    exact ⟨s, ⟨by linarith [hs.1], by linarith [hs.2]⟩, he⟩
  refine Set.eq_univ_of_forall fun u => ?_
  rcases lt_trichotomy u 0 with h | h | h
  · obtain ⟨s, hs, e⟩ := up (-u) (by linarith)
    exact ⟨1 - s, ⟨by linarith [hs.2], by linarith [hs.1]⟩, by rw [C17_double_odd, e, neg_neg]⟩
  · exact ⟨1 / 2, by norm_num, by rw [C17_double_half, h]⟩
  · exact up u h

/-- change of the variable of integration, for any function -/
theorem integral_unscale {R : ℝ} (hR : 0 ≤ R) (f : ℝ → ℝ) : ∫ s in (0:ℝ)..1, f (unscaleDbl R s) * dudsDbl R s = ∫ Z, f Z := by
  obtain ⟨him, hinj⟩ := C119_bijection hR
  have h := integral_image_eq_integral_abs_deriv_smul (F := ℝ) measurableSet_Ioo
    (fun s hs => (C17_double_deriv R s hs.1 hs.2).hasDerivWithinAt) hinj f
  rw [him, Measure.restrict_univ] at h
  rw [h, intervalIntegral.integral_of_le zero_le_one, integral_Ioc_eq_integral_Ioo]
  refine setIntegral_congr_fun measurableSet_Ioo fun s _ => ?_
  simp only [smul_eq_mul, abs_of_nonneg (dudsDbl_nonneg hR s)]
  ring

/-- **C119** the projected density is the integral of the density along the line of sight (X,Y) in the observed frame -/
theorem C119_density (rho : PosCar → ℝ) (X Y : ℝ) (o : Orientation) :
    projectedDensity rho X Y o = ∫ Z, rho (o.fromRotPos ⟨X, Y, Z⟩) :=
  integral_unscale (sqrt_nonneg _) fun Z => rho (o.fromRotPos ⟨X, Y, Z⟩)

/-- what the function returns, for any combination of requested quantities -/
theorem eval_eq (Phi : PosCar → ℝ) (g : PosCar → GradCar) (h : PosCar → HessCar) (X Y : ℝ) (o : Orientation) (a b c : Bool) :
    projectedEval Phi g h X Y o a b c =
      (if a then some (∫ Z, (Phi (o.fromRotPos ⟨X, Y, Z⟩) - Phi ⟨0, 0, Z⟩)) else none,
       if b then some ⟨∫ Z, (o.toRotGrad (g (o.fromRotPos ⟨X, Y, Z⟩))).dx, ∫ Z, (o.toRotGrad (g (o.fromRotPos ⟨X, Y, Z⟩))).dy, 0⟩ else none,
       if c then some ⟨∫ Z, (o.toRotHess (h (o.fromRotPos ⟨X, Y, Z⟩))).dx2, ∫ Z, (o.toRotHess (h (o.fromRotPos ⟨X, Y, Z⟩))).dy2, 0,
         ∫ Z, (o.toRotHess (h (o.fromRotPos ⟨X, Y, Z⟩))).dxdy, 0, 0⟩ else none) := by
  have hR := sqrt_nonneg (X * X + Y * Y)
  have I := fun f => integral_unscale hR f
  rw [← I, ← I, ← I, ← I, ← I, ← I]
  cases a <;> cases b <;> cases c <;> simp [projectedEval, evalIntegrand]

/-- **C119** The gradient and the Hessian are the integrals along the line of sight of the derivatives of the potential in the observed
coordinates `Phi ∘ fromRotated`, for any combination of requested quantities and any orientation. -/
theorem C119_derivatives (Phi : PosCar → ℝ) (g : PosCar → GradCar) (h : PosCar → HessCar)
    (hg : ∀ p, IsGradCar Phi p (g p)) (hh : ∀ p, IsHessCar g p (h p)) (X Y : ℝ) (o : Orientation) (a b c : Bool) :
    ∃ (G : ℝ → GradCar) (H : ℝ → HessCar),
      (∀ Z, IsGradCar (fun q => Phi (o.fromRotPos q)) ⟨X, Y, Z⟩ (G Z)) ∧
      (∀ Z, ∃ g', (∀ q, IsGradCar (fun q => Phi (o.fromRotPos q)) q (g' q)) ∧ IsHessCar g' ⟨X, Y, Z⟩ (H Z)) ∧
      (projectedEval Phi g h X Y o a b c).2.1 = (if b then some ⟨∫ Z, (G Z).dx, ∫ Z, (G Z).dy, 0⟩ else none) ∧
      (projectedEval Phi g h X Y o a b c).2.2 =
        (if c then some ⟨∫ Z, (H Z).dx2, ∫ Z, (H Z).dy2, 0, ∫ Z, (H Z).dxdy, 0, 0⟩ else none) := by
  refine ⟨fun Z => o.toRotGrad (g (o.fromRotPos ⟨X, Y, Z⟩)), fun Z => o.toRotHess (h (o.fromRotPos ⟨X, Y, Z⟩)),
    fun Z => C61_grad_to Phi _ _ (hg _), fun Z => ⟨fun q => o.toRotGrad (g (o.fromRotPos q)), fun q => C61_grad_to Phi q _ (hg _),
      C61_hess_to g _ _ (hh _)⟩, ?_, ?_⟩ <;> rw [eval_eq]

/-- **C119** The value is the documented one (difference between the lines of sight (X,Y) and (0,0)) if the line of sight is the z axis of
the model, or the potential at a point only depends on the distance from the origin.
What is missing: other orientations, for which the statement is false (`C119_refuted_value`). -/
theorem C119_value_partial (Phi : PosCar → ℝ) (g : PosCar → GradCar) (h : PosCar → HessCar) (X Y : ℝ) (o : Orientation) (b c : Bool)
    (ho : o.m6 = 0 ∧ o.m7 = 0 ∧ o.m8 = 1 ∨
      o.IsRotation ∧ ∀ p q : PosCar, p.x ^ 2 + p.y ^ 2 + p.z ^ 2 = q.x ^ 2 + q.y ^ 2 + q.z ^ 2 → Phi p = Phi q) :
    (projectedEval Phi g h X Y o true b c).1 = some (∫ Z, (Phi (o.fromRotPos ⟨X, Y, Z⟩) - Phi (o.fromRotPos ⟨0, 0, Z⟩))) := by
  rw [eval_eq]
  simp only [if_true, Option.some.injEq]
  congr 1
  funext Z
  congr 1
  rcases ho with ⟨h6, h7, h8⟩ | ⟨hr, hs⟩
  · simp [Orientation.fromRotPos, Orientation.fromRot, h6, h7, h8]
  · apply hs
    obtain ⟨⟨-, -, e, -⟩, -⟩ := hr.eqs
    simp only [Orientation.fromRotPos, Orientation.fromRot]
    linear_combination (-Z ^ 2) * e

/-- **C119** in general the value is off by the integral of the potential difference between the two axes, the same for all X, Y -/
theorem C119_value_offset (Phi : PosCar → ℝ) (g : PosCar → GradCar) (h : PosCar → HessCar) (X Y : ℝ) (o : Orientation) (b c : Bool)
    (hi : Integrable fun Z => Phi (o.fromRotPos ⟨X, Y, Z⟩) - Phi (o.fromRotPos ⟨0, 0, Z⟩))
    (hj : Integrable fun Z => Phi (o.fromRotPos ⟨0, 0, Z⟩) - Phi ⟨0, 0, Z⟩) :
    (projectedEval Phi g h X Y o true b c).1 = some ((∫ Z, (Phi (o.fromRotPos ⟨X, Y, Z⟩) - Phi (o.fromRotPos ⟨0, 0, Z⟩))) +
      ∫ Z, (Phi (o.fromRotPos ⟨0, 0, Z⟩) - Phi ⟨0, 0, Z⟩)) := by
  rw [eval_eq, ← integral_add hi hj]
  simp

/-- **C119** The documented value is not what is computed: for the flattened potential -1/(1+x²+y²+4z²) viewed along the y axis the value
at (0,0), documented as the integral of the difference between a line of sight and itself, is -π/2. -/
theorem C119_refuted_value : ∃ (Phi : PosCar → ℝ) (o : Orientation), o.IsRotation ∧ ∀ (g : PosCar → GradCar) (h : PosCar → HessCar),
    (projectedEval Phi g h 0 0 o true false false).1 = some (-(π / 2)) ∧
    ∫ Z, (Phi (o.fromRotPos ⟨0, 0, Z⟩) - Phi (o.fromRotPos ⟨0, 0, Z⟩)) = 0 := by
  refine ⟨fun p => -(1 + p.x ^ 2 + p.y ^ 2 + 4 * p.z ^ 2)⁻¹, Orientation.ofEuler 0 (π / 2) 0, C61_isRotation _ _ _, fun g h => ⟨?_, by simp⟩⟩
  rw [eval_eq]
  simp only [if_true, Option.some.injEq]
  have i1 : Integrable fun Z : ℝ => (1 + Z ^ 2)⁻¹ := integrable_inv_one_add_sq
  have i2 : Integrable fun Z : ℝ => (1 + (2 * Z) ^ 2)⁻¹ := i1.comp_mul_left' (by norm_num : (2:ℝ) ≠ 0)
  have e : (fun Z : ℝ => (-(1 + ((Orientation.ofEuler 0 (π / 2) 0).fromRotPos ⟨0, 0, Z⟩).x ^ 2 +
      ((Orientation.ofEuler 0 (π / 2) 0).fromRotPos ⟨0, 0, Z⟩).y ^ 2 + 4 * ((Orientation.ofEuler 0 (π / 2) 0).fromRotPos ⟨0, 0, Z⟩).z ^ 2)⁻¹ -
      -(1 + (0:ℝ) ^ 2 + (0:ℝ) ^ 2 + 4 * Z ^ 2)⁻¹)) = fun Z => (1 + (2 * Z) ^ 2)⁻¹ - (1 + Z ^ 2)⁻¹ := by
    funext Z
    simp only [Orientation.ofEuler, Orientation.fromRotPos, Orientation.fromRot, cos_zero, sin_zero, cos_pi_div_two, sin_pi_div_two]
    ring_nf
  rw [e, integral_sub i2 i1, integral_univ_inv_one_add_sq, Measure.integral_comp_mul_left (fun Z : ℝ => (1 + Z ^ 2)⁻¹) 2,
    integral_univ_inv_one_add_sq]
  simp only [smul_eq_mul]
  rw [abs_of_pos (by norm_num)]
  ring

/-! ## principal axes -/

/-- reflection of the three axes of the frame -/
def flip (e1 e2 e3 : ℝ) (o : Orientation) : Orientation :=
  ⟨e1 * o.m0, e1 * o.m1, e1 * o.m2, e2 * o.m3, e2 * o.m4, e2 * o.m5, e3 * o.m6, e3 * o.m7, e3 * o.m8⟩

theorem fmod_spec {x y : ℝ} (hx : 0 ≤ x) (hy : 0 < y) : 0 ≤ fmod x y ∧ fmod x y < y ∧ ∃ n : ℤ, fmod x y = x - n * y := by
  have h1 := Int.floor_le (x / y)
  have h2 := Int.lt_floor_add_one (x / y)
  rw [le_div_iff₀ hy] at h1
  rw [div_lt_iff₀ hy] at h2
  simp only [fmod, if_pos hx]
  exact ⟨by linarith, by linarith, ⌊x / y⌋, by ring⟩

/-- **C119** The Euler angles returned by `principalAxes` describe the same axes as the original angles, up to the directions of an even number
of axes (so the frame remains right-handed), and lie in the documented ranges. -/
theorem C119_angles (alpha beta gamma : ℝ) (ha : -π ≤ alpha ∧ alpha ≤ π) (hb : 0 ≤ beta ∧ beta ≤ π) (hg : -π ≤ gamma ∧ gamma ≤ π) :
    let r := reduceAngles (alpha, beta, gamma)
    (-π ≤ r.1 ∧ r.1 < π) ∧ (0 ≤ r.2.1 ∧ r.2.1 ≤ π / 2) ∧ (0 ≤ r.2.2 ∧ r.2.2 < π) ∧
    ∃ e1 e2 e3 : ℝ, (e1 = 1 ∨ e1 = -1) ∧ (e2 = 1 ∨ e2 = -1) ∧ (e3 = 1 ∨ e3 = -1) ∧ e1 * e2 * e3 = 1 ∧
      Orientation.ofEuler r.1 r.2.1 r.2.2 = flip e1 e2 e3 (Orientation.ofEuler alpha beta gamma) := by
  intro r
  have hp := pi_pos
  have key : ∀ a b c : ℝ, 0 ≤ a + π → 0 ≤ c + π → (-π ≤ fmod (a + π) (π * 2) - π ∧ fmod (a + π) (π * 2) - π < π) ∧
      (0 ≤ fmod (c + π) π ∧ fmod (c + π) π < π) ∧
      ∃ e : ℝ, (e = 1 ∨ e = -1) ∧ Orientation.ofEuler (fmod (a + π) (π * 2) - π) b (fmod (c + π) π) = flip e e 1 (Orientation.ofEuler a b c) := by
    intro a b c h1 h2
    obtain ⟨a0, a1, n, an⟩ := fmod_spec h1 (show 0 < π * 2 by linarith)
    obtain ⟨c0, c1, m, cm⟩ := fmod_spec h2 hp
    refine ⟨⟨by linarith, by linarith⟩, ⟨c0, c1⟩, ?_⟩
    have ea : fmod (a + π) (π * 2) - π = a - n * (2 * π) := by rw [an]; ring
    have ec : fmod (c + π) π = c + (1 - m : ℤ) * π := by rw [cm]; push_cast; ring
    rw [ea, ec]
    have s1 : sin (a - n * (2 * π)) = sin a := sin_sub_int_mul_two_pi a n
    have s2 : cos (a - n * (2 * π)) = cos a := cos_sub_int_mul_two_pi a n
    generalize (1 - m : ℤ) = k
    have s3 : sin (c + k * π) = (-1) ^ k * sin c := sin_add_int_mul_pi c k
    have s4 : cos (c + k * π) = (-1) ^ k * cos c := cos_add_int_mul_pi c k
    refine ⟨(-1) ^ k, ?_, ?_⟩
    · rcases Int.even_or_odd k with h | h
      · exact Or.inl h.neg_one_zpow
      · exact Or.inr h.neg_one_zpow
    · simp only [Orientation.ofEuler, flip, s1, s2, s3, s4]
      ext <;> simp only <;> ring
  by_cases hbb : beta > 0.5 * π
  · obtain ⟨k1, k2, e, he, ho⟩ := key (π + alpha) (π - beta) (π - gamma) (by linarith) (by linarith)
    have hr : r = (fmod (π + alpha + π) (π * 2) - π, π - beta, fmod (π - gamma + π) π) := by
      simp only [r, reduceAngles, if_pos hbb]
    rw [hr]
    refine ⟨k1, ⟨by linarith [hb.2], by norm_num at hbb; linarith⟩, k2, e, -e, -1, he, ?_, Or.inr rfl, ?_, ?_⟩
    · rcases he with h | h <;> simp [h]
    · rcases he with h | h <;> simp [h]
    · rw [ho]
      simp only [Orientation.ofEuler, flip, show π + alpha = alpha + π by ring, sin_add_pi, cos_add_pi, sin_pi_sub, cos_pi_sub]
      ext <;> simp only <;> ring
  · obtain ⟨k1, k2, e, he, ho⟩ := key alpha beta gamma (by linarith [ha.1]) (by linarith [hg.1])
    have hr : r = (fmod (alpha + π) (π * 2) - π, beta, fmod (gamma + π) π) := by
      simp only [r, reduceAngles, if_neg hbb]
    rw [hr]
    refine ⟨k1, ⟨hb.1, by norm_num at hbb; linarith⟩, k2, e, e, 1, he, he, Or.inl rfl, ?_, ho⟩
    rcases he with h | h <;> simp [h]

/-- **C119** the copies of a point are all its eight mirror images in the frame of principal axes, each once -/
theorem C119_mirrored (o : Orientation) (p : PosCar) :
    (mirrored o p).Perm ((do let a ← [(1:ℝ), -1]; let b ← [(1:ℝ), -1]; let c ← [(1:ℝ), -1]; [o.fromRotPos ⟨a * p.x, b * p.y, c * p.z⟩]) : List PosCar) := by
  simp only [mirrored, List.map_cons, List.map_nil, List.bind_eq_flatMap, List.flatMap_cons, List.flatMap_nil, List.append_nil, List.cons_append,
    List.nil_append, one_mul, neg_one_mul, mul_neg, mul_one, neg_neg]
  classical
  have e : o.fromRotPos p = o.fromRotPos ⟨p.x, p.y, p.z⟩ := rfl
  rw [e, List.perm_iff_count]
  intro q
  simp only [List.count_cons, List.count_nil]
  omega

/-- the hypotheses of `C119_angles` and both branches: beta = 0 and beta = π -/
example : (0:ℝ) ≤ (reduceAngles (-π, π, 1)).2.2 := (C119_angles (-π) π 1 ⟨le_rfl, by linarith [pi_pos]⟩ ⟨pi_pos.le, le_rfl⟩ ⟨by linarith [pi_pos], by linarith [two_le_pi]⟩).2.2.1.1

/-- `C119_derivatives` for a linear potential -/
example : ∀ p : PosCar, IsGradCar (fun q => q.x + 2 * q.y) p ⟨1, 2, 0⟩ := by
  intro p x y z x' y' z' t hx hy hz e
  exact (hx.add (hy.const_mul 2)).congr_deriv (by ring)

end
end Verif.Pot.Projected
