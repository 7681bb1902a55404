import Verif.Ode.Dop853
import Mathlib.Analysis.Calculus.Deriv.Inv
import Mathlib.Analysis.SpecialFunctions.ExpDeriv
import Mathlib.Analysis.Calculus.Deriv.Mul
import Mathlib.Analysis.Analytic.Linear

/-! The accuracy of the integrator DOP853 and of its dense output (/repo/src/math_ode.cpp:86-402); C83. -/
namespace Verif.Ode

noncomputable section

open Finset Asymptotics Topology Filter

/-! ## Dense output -/

/-- The interpolating polynomial of one component as a function of the fraction of the step -/
def densePoly (r1 r2 r3 r4 r5 r6 r7 r8 p : ℝ) : ℝ :=
  r1 + p * (r2 + (1 - p) * (r3 + p * (r4 + (1 - p) * (r5 + p * (r6 + (1 - p) * (r7 + p * r8))))))

theorem densePoly_deriv (r1 r2 r3 r4 r5 r6 r7 r8 p : ℝ) : HasDerivAt (densePoly r1 r2 r3 r4 r5 r6 r7 r8)
    ((r2 + (1 - p) * (r3 + p * (r4 + (1 - p) * (r5 + p * (r6 + (1 - p) * (r7 + p * r8)))))) +
      p * (-(r3 + p * (r4 + (1 - p) * (r5 + p * (r6 + (1 - p) * (r7 + p * r8))))) +
        (1 - p) * ((r4 + (1 - p) * (r5 + p * (r6 + (1 - p) * (r7 + p * r8)))) + p * (-(r5 + p * (r6 + (1 - p) * (r7 + p * r8))) +
          (1 - p) * ((r6 + (1 - p) * (r7 + p * r8)) + p * (-(r7 + p * r8) + (1 - p) * r8)))))) p := by
  have hp := hasDerivAt_id' p
  have hq : HasDerivAt (fun x : ℝ => 1 - x) (-1) p := by simpa using hp.const_sub 1
  have h8 : HasDerivAt (fun x : ℝ => r7 + x * r8) r8 p := by simpa using (hp.mul_const r8).const_add r7
  have h7 := ((hq.mul h8).const_add r6)
  have h6 := ((hp.mul h7).const_add r5)
  have h5 := ((hq.mul h6).const_add r4)
  have h4 := ((hp.mul h5).const_add r3)
  have h3 := ((hq.mul h4).const_add r2)
  have h2 := ((hp.mul h3).const_add r1)
  exact h2.congr_deriv (by simp only [Pi.mul_apply]; ring)

/-- After a step of nonzero length the solution is given by the polynomial everywhere including the ends. -/
theorem getSol_eq {N : ℕ} (S : Sys N) (s : State N) (h next : ℝ) (hh : h ≠ 0) (t : ℝ) (i : Fin N) :
    getSol (fullStep S s h next) t i = some (densePoly ((fullStep S s h next).rc 0 i) ((fullStep S s h next).rc 1 i) ((fullStep S s h next).rc 2 i)
      ((fullStep S s h next).rc 3 i) ((fullStep S s h next).rc 4 i) ((fullStep S s h next).rc 5 i) ((fullStep S s h next).rc 6 i) ((fullStep S s h next).rc 7 i)
      ((t - s.time) / h)) := by
  have e1 : (fullStep S s h next).time = s.time + h := rfl
  have e2 : (fullStep S s h next).timePrev = s.time := rfl
  rw [getSol, dif_pos i.2]
  dsimp only
  rw [e1, e2]
  split_ifs with h1 h2
  · have : (t - s.time) / h = 1 := by rw [h1]; field_simp; ring
    rw [this, densePoly]
    simp [fullStep]
  · have : (t - s.time) / h = 0 := by rw [h2]; simp
    rw [this, densePoly]
    simp
  · rw [densePoly, add_sub_cancel_left]

/-- C83: dense output. After a completed step from t0 to t1=t0+h, the interpolated solution coincides with the old and new points at the ends of the step, and its derivatives
at the ends are the r.h.s. of the equation at these points; hence the trajectory composed of consecutive steps is continuous with its first derivative. -/
theorem C83_dense {N : ℕ} (S : Sys N) (s : State N) (hv : Valid S s) (h next : ℝ) (hh : h ≠ 0) (i : Fin N) :
    let s' := fullStep S s h next
    let sol := fun t => (getSol s' t i).getD 0
    sol s.time = s.x i ∧ sol (s.time + h) = s'.x i ∧ HasDerivAt sol (S.f s.time s.x i) s.time ∧ HasDerivAt sol (S.f (s.time + h) s'.x i) (s.time + h) := by
  intro s' sol
  have hsol : sol = fun t => densePoly (s'.rc 0 i) (s'.rc 1 i) (s'.rc 2 i) (s'.rc 3 i) (s'.rc 4 i) (s'.rc 5 i) (s'.rc 6 i) (s'.rc 7 i) ((t - s.time) / h) := by
    funext t
    show (getSol (fullStep S s h next) t i).getD 0 = _
    rw [getSol_eq S s h next hh t i]
    rfl
  have hin : ∀ t, HasDerivAt (fun t : ℝ => (t - s.time) / h) (1 / h) t := fun t => ((hasDerivAt_id' t).sub_const s.time).div_const h
  have r0 : s'.rc 0 i = s.x i := rfl
  have r1 : s'.rc 1 i = s'.x i - s.x i := rfl
  have r2 : s'.rc 2 i = h * s.k1 i - (s'.x i - s.x i) := rfl
  have r3 : s'.rc 3 i = (s'.x i - s.x i) - h * s'.k1 i - (h * s.k1 i - (s'.x i - s.x i)) := rfl
  have k0 : s.k1 i = S.f s.time s.x i := congrFun hv i
  have k1 : s'.k1 i = S.f (s.time + h) s'.x i := rfl
  have e0 : (s.time - s.time) / h = 0 := by simp
  have e1 : (s.time + h - s.time) / h = 1 := by rw [add_sub_cancel_left, div_self hh]
  refine ⟨?_, ?_, ?_, ?_⟩
  · simp only [hsol, e0, densePoly]; rw [r0]; ring
  · simp only [hsol, e1, densePoly]; rw [r0, r1]; ring
  · rw [hsol]
    have := (densePoly_deriv (s'.rc 0 i) (s'.rc 1 i) (s'.rc 2 i) (s'.rc 3 i) (s'.rc 4 i) (s'.rc 5 i) (s'.rc 6 i) (s'.rc 7 i) ((s.time - s.time) / h)).comp s.time (hin s.time)
    refine this.congr_deriv ?_
    rw [e0, r1, r2, k0]
    field_simp
    ring
  · rw [hsol]
    have := (densePoly_deriv (s'.rc 0 i) (s'.rc 1 i) (s'.rc 2 i) (s'.rc 3 i) (s'.rc 4 i) (s'.rc 5 i) (s'.rc 6 i) (s'.rc 7 i) ((s.time + h - s.time) / h)).comp
      (s.time + h) (hin (s.time + h))
    refine this.congr_deriv ?_
    rw [e1, r3, r2, r1, k1]
    field_simp
    ring

/-! ## Order -/

/-- All 13 stages for an autonomous system as functions of the length of the step -/
def K13 {N : ℕ} (g : Vec N → Vec N) (x0 : Vec N) (i : ℕ) (h : ℝ) : Vec N :=
  if i = 12 then g (newX (fun _ => g) 0 x0 (g x0) h) else stageK (fun _ => g) 0 x0 (g x0) h i

theorem K13_stages {N : ℕ} (g : Vec N → Vec N) (x0 : Vec N) : Stages g x0 areal 13 (K13 g x0) := by
  refine ⟨fun i hi h => ?_⟩
  have hK := stageK_isRK (fun _ : ℝ => g) 0 x0 (g x0) h
  have lower : ∀ n ≤ 12, ∀ c : ℕ → ℝ, ∑ j ∈ range n, c j • K13 g x0 j h = ∑ j ∈ range n, c j • stageK (fun _ => g) 0 x0 (g x0) h j := by
    intro n hn c
    refine Finset.sum_congr rfl fun j hj => ?_
    rw [K13, if_neg (by have := mem_range.1 hj; omega)]
  by_cases h12 : i = 12
  · subst h12
    rw [lower 12 le_rfl, K13, if_pos rfl, newX_eq hK]
    rfl
  · rw [lower i (by omega), K13, if_neg h12]
    rcases Nat.eq_zero_or_pos i with rfl | h0
    · rw [hK.zero]; simp
    · rw [hK.succ i h0 (by omega)]; rfl

theorem newX_time {N : ℕ} (g : Vec N → Vec N) (t0 : ℝ) (x0 : Vec N) (h : ℝ) : newX (fun _ => g) t0 x0 (g x0) h = newX (fun _ => g) 0 x0 (g x0) h := rfl

theorem newX_K13 {N : ℕ} (g : Vec N → Vec N) (t0 : ℝ) (x0 : Vec N) (h : ℝ) :
    newX (fun _ => g) t0 x0 (g x0) h = x0 + h • ∑ j ∈ range 13, (coef bs j : ℝ) • K13 g x0 j h := by
  rw [newX_time, newX_eq (stageK_isRK (fun _ : ℝ => g) 0 x0 (g x0) h), Finset.sum_range_succ _ 12, show coef bs 12 = 0 by decide +kernel]
  simp only [Rat.cast_zero, zero_smul, add_zero]
  congr 2

/-- The sum of norms of elementary differentials up to a given order (a measure of the derivatives of the r.h.s.) -/
def sizeOfDerivs {N : ℕ} (p : FormalMultilinearSeries ℝ (Vec N) (Vec N)) (n : ℕ) : ℝ := ∑ t ∈ trees n, ‖elemDiff p t‖

theorem bser_bound {N : ℕ} (p : FormalMultilinearSeries ℝ (Vec N) (Vec N)) (w : Tree → ℝ) (n : ℕ) (ε : ℝ) (hw : ∀ t : Tree, t.order ≤ n → |w t| ≤ ε) (h : ℝ) (hh : |h| ≤ 1) :
    ‖bser p w n h‖ ≤ ε * |h| * sizeOfDerivs p n := by
  rw [bser, sizeOfDerivs, Finset.mul_sum]
  refine (norm_sum_le _ _).trans (Finset.sum_le_sum fun t ht => ?_)
  rw [mem_trees] at ht
  rw [norm_smul, Real.norm_eq_abs, abs_mul, abs_pow]
  refine mul_le_mul_of_nonneg_right ?_ (norm_nonneg _)
  have h1 : |h| ^ t.order ≤ |h| := by
    simpa using pow_le_pow_of_le_one (abs_nonneg h) hh t.order_pos
  calc |h| ^ t.order * |w t| ≤ |h| * ε := mul_le_mul h1 (hw t ht) (abs_nonneg _) (abs_nonneg _)
    _ = ε * |h| := mul_comm _ _

/-- A function is small up to the terms of order n: the part not decreasing as h^n is no more than ε|h| times M. -/
def SmallUpTo {N : ℕ} (F : ℝ → Vec N) (ε M : ℝ) (n : ℕ) : Prop := ∃ C, ∀ᶠ h in 𝓝 (0 : ℝ), ‖F h‖ ≤ ε * |h| * M + C * |h| ^ n

theorem smallUpTo_of_expansion {N : ℕ} {p : FormalMultilinearSeries ℝ (Vec N) (Vec N)} {w : Tree → ℝ} {n : ℕ} {ε : ℝ} (hw : ∀ t : Tree, t.order ≤ n → |w t| ≤ ε)
    {F : ℝ → Vec N} (hF : (fun h => F h - bser p w n h) =O[𝓝 0] fun h => h ^ (n + 1)) : SmallUpTo F ε (sizeOfDerivs p n) (n + 1) := by
  obtain ⟨C, hC⟩ := hF.bound
  refine ⟨C, ?_⟩
  have h1 : ∀ᶠ h in 𝓝 (0 : ℝ), |h| ≤ 1 := by
    have : ∀ᶠ h in 𝓝 (0 : ℝ), |h| < 1 := by
      have := Metric.ball_mem_nhds (0 : ℝ) one_pos
      filter_upwards [this] with h hh
      simpa using hh
    filter_upwards [this] with h hh using hh.le
  filter_upwards [hC, h1] with h hb hh
  have h2 := bser_bound p w n ε hw h hh
  have h3 : ‖F h‖ ≤ ‖F h - bser p w n h‖ + ‖bser p w n h‖ := by
    have := norm_add_le (F h - bser p w n h) (bser p w n h)
    simpa using this
  rw [Real.norm_eq_abs, abs_pow] at hb
  linarith

/-- C83: the error of one step. For an autonomous system with an analytic r.h.s. g, the difference between the result of the step of length h and the exact solution y(h)
starting from the same point is O(h^9) (the method is of order 8), apart from the contribution of roundoff errors in the coefficients of the method printed in the code, which
have 23 decimals. -/
theorem C83_order {N : ℕ} (g : Vec N → Vec N) (p : FormalMultilinearSeries ℝ (Vec N) (Vec N)) (t0 : ℝ) (x0 : Vec N) (hg : HasFPowerSeriesAt g p x0) (y : ℝ → Vec N)
    (hy0 : y 0 = x0) (hy : ∀ᶠ h in 𝓝 (0 : ℝ), HasDerivAt y (g (y h)) h) :
    SmallUpTo (fun h => newX (fun _ => g) t0 x0 (g x0) h - y h) 1e-22 (sizeOfDerivs p 8) 9 := by
  have := rk_local_error (N := 7) (Expands.of_hasFPowerSeriesAt hg 8) (K13_stages g x0) hy0 hy (fun j => (coef bs j : ℝ))
  refine smallUpTo_of_expansion (p := p) (w := fun t => ∑ j ∈ range 13, (coef bs j : ℝ) * stageW' areal j t - exactW t) (n := 8) (fun t ht => ?_) ?_
  · have := order8 t ht
    norm_num at this ⊢
    exact this
  · refine this.congr_left fun h => ?_
    rw [newX_K13]

/-- C83: the error estimate. Of the two combinations of stages used in it, multiplied by h, the first one is O(h^6) and the second one is O(h^4) (with the same reservation). -/
theorem C83_errest {N : ℕ} (g : Vec N → Vec N) (p : FormalMultilinearSeries ℝ (Vec N) (Vec N)) (t0 : ℝ) (x0 : Vec N) (hg : HasFPowerSeriesAt g p x0) :
    SmallUpTo (fun h => h • lin er 12 (stages (fun _ => g) t0 x0 (g x0) h)) 1e-22 (sizeOfDerivs p 5) 6 ∧
    SmallUpTo (fun h => h • (lin bs 12 (stages (fun _ => g) t0 x0 (g x0) h) - lin bhh 12 (stages (fun _ => g) t0 x0 (g x0) h))) 2e-22 (sizeOfDerivs p 3) 4 := by
  have hx : ∀ (c : List ℚ) (h : ℝ), coef c 1 = 0 → coef c 2 = 0 → coef c 12 = 0 →
      lin c 12 (stages (fun _ : ℝ => g) t0 x0 (g x0) h) = ∑ j ∈ range 13, (coef c j : ℝ) • K13 g x0 j h := by
    intro c h c1 c2 c12
    rw [show stages (fun _ : ℝ => g) t0 x0 (g x0) h = stages (fun _ : ℝ => g) 0 x0 (g x0) h from rfl,
      lin_eq (stageK_isRK (fun _ : ℝ => g) 0 x0 (g x0) h) c1 c2, Finset.sum_range_succ _ 12, c12]
    simp only [Rat.cast_zero, zero_smul, add_zero]
    refine Finset.sum_congr rfl fun j hj => ?_
    rw [K13, if_neg (by have := mem_range.1 hj; omega)]
  have hcomb : ∀ (c : ℕ → ℝ) (n : ℕ), (fun h => h • (∑ j ∈ range 13, c j • K13 g x0 j h) - bser p (fun t => ∑ j ∈ range 13, c j * stageW' areal j t) n h) =O[𝓝 0]
      fun h => h ^ (n + 1) := by
    intro c n
    refine combine (fun j hj => ?_) c
    exact stage_expansion (N := n) (Expands.of_hasFPowerSeriesAt hg (n + 1)) (K13_stages g x0) j (mem_range.1 hj) n (by omega)
  constructor
  · refine smallUpTo_of_expansion (p := p) (w := fun t => ∑ j ∈ range 13, (coef er j : ℝ) * stageW' areal j t) (n := 5) (fun t ht => ?_) ((hcomb (fun j => (coef er j : ℝ)) 5).congr_left fun h => ?_)
    · have := order5_err t ht
      norm_num at this ⊢
      exact this
    · rw [hx er h (by decide +kernel) (by decide +kernel) (by decide +kernel)]
  · refine smallUpTo_of_expansion (p := p) (w := fun t => ∑ j ∈ range 13, ((coef bs j : ℝ) - coef bhh j) * stageW' areal j t) (n := 3) (fun t ht => ?_) ((hcomb (fun j => (coef bs j : ℝ) - coef bhh j) 3).congr_left fun h => ?_)
    · have h1 := order8 t (by omega)
      have h2 := order3_err t ht
      simp only [sub_mul, Finset.sum_sub_distrib]
      rw [abs_le] at *
      norm_num at h1 h2 ⊢
      constructor <;> linarith [h1.1, h1.2, h2.1, h2.2]
    · rw [hx bs h (by decide +kernel) (by decide +kernel) (by decide +kernel), hx bhh h (by decide +kernel) (by decide +kernel) (by decide +kernel), ← Finset.sum_sub_distrib]
      simp only [sub_smul]

/-! ## Order of the dense output -/

theorem coef_addL (c : ℚ) (l m : List ℚ) (j : ℕ) (hj : j < 13) : coef (addL c l m) j = coef l j + c * coef m j := by
  unfold addL
  conv_lhs => unfold coef
  simp [List.getD_eq_getElem?_getD, hj]
  simp [coef, List.getD_eq_getElem?_getD]

theorem coef_unitL (k j : ℕ) (hj : j < 13) : coef (unitL k) j = if j = k then 1 else 0 := by
  unfold unitL
  conv_lhs => unfold coef
  simp [List.getD_eq_getElem?_getD, hj]

theorem coef_nil (j : ℕ) : coef [] j = 0 := by simp [coef]

/-- The weight of the stage j in the interpolated solution -/
def wdense (θ : ℝ) (j : ℕ) : ℝ := ∑ k ∈ range 7, θ ^ (k + 1) * (coef (denseW.getD k []) j : ℝ)

theorem wdense_eq (θ : ℝ) (j : ℕ) (hj : j < 13) : wdense θ j =
    θ * ((coef r2 j : ℝ) + (1 - θ) * ((coef r3 j : ℝ) + θ * ((coef r4 j : ℝ) + (1 - θ) * ((coef d4 j : ℝ) + θ * ((coef d5 j : ℝ) + (1 - θ) * ((coef d6 j : ℝ) + θ * (coef d7 j : ℝ))))))) := by
  unfold wdense
  simp only [Finset.sum_range_succ, Finset.sum_range_zero]
  simp only [denseW, List.getD_cons_zero, List.getD_cons_succ, coef_addL _ _ _ j hj, coef_nil]
  push_cast
  ring

/-- The solution interpolated at the fraction θ of the step -/
def denseAt {N : ℕ} (g : Vec N → Vec N) (t0 : ℝ) (x0 : Vec N) (h θ : ℝ) : Vec N :=
  fun i => (getSol (fullStep ⟨fun _ => g, fun _ _ => 1⟩ ⟨t0, t0, 0, x0, g x0, fun _ => 0⟩ h 0) (t0 + θ * h) i).getD 0

theorem denseAt_eq {N : ℕ} (g : Vec N → Vec N) (t0 : ℝ) (x0 : Vec N) (h : ℝ) (hh : h ≠ 0) (θ : ℝ) :
    denseAt g t0 x0 h θ = x0 + h • ∑ j ∈ range 13, wdense θ j • K13 g x0 j h := by
  set S : Sys N := ⟨fun _ => g, fun _ _ => 1⟩ with hS
  set s : State N := ⟨t0, t0, 0, x0, g x0, fun _ => 0⟩ with hs
  have hK := stageK_isRK (fun _ : ℝ => g) t0 x0 (g x0) h
  have hKt : ∀ j < 12, stageK (fun _ : ℝ => g) t0 x0 (g x0) h j = K13 g x0 j h := by
    intro j hj
    rw [K13, if_neg (by omega)]
    exact IsRK.unique hK ⟨(stageK_isRK (fun _ : ℝ => g) 0 x0 (g x0) h).zero, (stageK_isRK (fun _ : ℝ => g) 0 x0 (g x0) h).succ⟩ j hj
  have hK' : IsRK (fun _ : ℝ => g) t0 x0 (g x0) h (fun j => K13 g x0 j h) := by
    refine ⟨by rw [← hKt 0 (by omega), hK.zero], fun i h0 hi => ?_⟩
    rw [← hKt i hi, hK.succ i h0 hi]
    congr 3
    refine Finset.sum_congr rfl fun j hj => ?_
    rw [hKt j (by have := mem_range.1 hj; omega)]
  have hk0 : K13 g x0 0 h = g x0 := hK'.zero
  have hk12 : K13 g x0 12 h = g (newX (fun _ => g) t0 x0 (g x0) h) := by rw [newX_time, K13, if_pos rfl]
  have hd : ∀ c : List ℚ, coef c 1 = 0 → coef c 2 = 0 → coef c 3 = 0 →
      lin c 13 (Function.update (stages (fun _ : ℝ => g) t0 x0 (g x0) h) (slot 12) (g (newX (fun _ => g) t0 x0 (g x0) h))) = ∑ j ∈ range 13, (coef c j : ℝ) • K13 g x0 j h := by
    intro c c1 c2 c3
    rw [← hk12]
    exact lin_eq13 hK' c1 c2 c3
  have e0 : (fullStep S s h 0).rc 0 = x0 := rfl
  have e1 : (fullStep S s h 0).rc 1 = h • ∑ j ∈ range 13, (coef r2 j : ℝ) • K13 g x0 j h := by
    show newX (fun _ => g) t0 x0 (g x0) h - x0 = _
    rw [newX_K13, add_sub_cancel_left]
    congr 1
    refine Finset.sum_congr rfl fun j hj => ?_
    rw [r2, coef_addL _ _ _ _ (mem_range.1 hj), zero_mul, add_zero]
  have unit : ∀ k < 13, ∑ j ∈ range 13, (coef (unitL k) j : ℝ) • K13 g x0 j h = K13 g x0 k h := by
    intro k hk
    rw [Finset.sum_eq_single k]
    · rw [coef_unitL k k hk, if_pos rfl]; simp
    · intro j hj hjk
      rw [coef_unitL k j (mem_range.1 hj), if_neg hjk]; simp
    · intro hn; exact absurd (mem_range.2 hk) hn
  have e2 : (fullStep S s h 0).rc 2 = h • ∑ j ∈ range 13, (coef r3 j : ℝ) • K13 g x0 j h := by
    show h • g x0 - (fullStep S s h 0).rc 1 = _
    rw [e1, ← hk0, ← unit 0 (by omega), ← smul_sub, ← Finset.sum_sub_distrib]
    congr 1
    refine Finset.sum_congr rfl fun j hj => ?_
    rw [r3, coef_addL _ _ _ _ (mem_range.1 hj), r2, coef_addL _ _ _ _ (mem_range.1 hj), ← sub_smul]
    push_cast
    congr 1
    ring
  have e3 : (fullStep S s h 0).rc 3 = h • ∑ j ∈ range 13, (coef r4 j : ℝ) • K13 g x0 j h := by
    show (fullStep S s h 0).rc 1 - h • g (newX (fun _ => g) t0 x0 (g x0) h) - (fullStep S s h 0).rc 2 = _
    rw [e1, e2, ← hk12, ← unit 12 (by omega), ← smul_sub, ← smul_sub, ← Finset.sum_sub_distrib, ← Finset.sum_sub_distrib]
    congr 1
    refine Finset.sum_congr rfl fun j hj => ?_
    simp only [r2, r3, r4, coef_addL _ _ _ _ (mem_range.1 hj), ← sub_smul]
    push_cast
    congr 1
    ring
  have e4 : (fullStep S s h 0).rc 4 = h • ∑ j ∈ range 13, (coef d4 j : ℝ) • K13 g x0 j h := by
    rw [← hd d4 (by decide +kernel) (by decide +kernel) (by decide +kernel)]; rfl
  have e5 : (fullStep S s h 0).rc 5 = h • ∑ j ∈ range 13, (coef d5 j : ℝ) • K13 g x0 j h := by
    rw [← hd d5 (by decide +kernel) (by decide +kernel) (by decide +kernel)]; rfl
  have e6 : (fullStep S s h 0).rc 6 = h • ∑ j ∈ range 13, (coef d6 j : ℝ) • K13 g x0 j h := by
    rw [← hd d6 (by decide +kernel) (by decide +kernel) (by decide +kernel)]; rfl
  have e7 : (fullStep S s h 0).rc 7 = h • ∑ j ∈ range 13, (coef d7 j : ℝ) • K13 g x0 j h := by
    rw [← hd d7 (by decide +kernel) (by decide +kernel) (by decide +kernel)]; rfl
  funext i
  show (getSol (fullStep S s h 0) (t0 + θ * h) i).getD 0 = _
  rw [getSol_eq S s h 0 hh, e0, e1, e2, e3, e4, e5, e6, e7]
  have et : (t0 + θ * h - s.time) / h = θ := by
    show (t0 + θ * h - t0) / h = θ
    field_simp
    ring
  rw [et]
  simp only [Option.getD_some, densePoly, Pi.add_apply, Pi.smul_apply, Finset.sum_apply, smul_eq_mul]
  have e8 : ∑ j ∈ range 13, wdense θ j * K13 g x0 j h i = ∑ j ∈ range 13, θ * ((coef r2 j : ℝ) + (1 - θ) * ((coef r3 j : ℝ) + θ * ((coef r4 j : ℝ) +
      (1 - θ) * ((coef d4 j : ℝ) + θ * ((coef d5 j : ℝ) + (1 - θ) * ((coef d6 j : ℝ) + θ * (coef d7 j : ℝ))))))) * K13 g x0 j h i :=
    Finset.sum_congr rfl fun j hj => by rw [wdense_eq θ j (mem_range.1 hj)]
  rw [e8]
  simp only [mul_add, add_mul, Finset.sum_add_distrib, Finset.mul_sum]
  ring_nf

theorem wdense_bound (j : ℕ) : ∃ B, 0 ≤ B ∧ ∀ θ, 0 ≤ θ → θ ≤ 1 → |wdense θ j| ≤ B := by
  refine ⟨∑ k ∈ range 7, |(coef (denseW.getD k []) j : ℝ)|, Finset.sum_nonneg fun _ _ => abs_nonneg _, fun θ h0 h1 => ?_⟩
  unfold wdense
  refine (Finset.abs_sum_le_sum_abs _ _).trans (Finset.sum_le_sum fun k _ => ?_)
  rw [abs_mul, abs_of_nonneg (pow_nonneg h0 _)]
  exact mul_le_of_le_one_left (abs_nonneg _) (pow_le_one₀ h0 h1)

/-- The weights of the interpolated solution -/
theorem wdense_order (θ : ℝ) (h0 : 0 ≤ θ) (h1 : θ ≤ 1) (t : Tree) (ht : t.order ≤ 6) :
    |∑ j ∈ range 13, wdense θ j * stageW' areal j t - θ ^ t.order * exactW t| ≤ 1e-18 := by
  have e1 : ∑ j ∈ range 13, wdense θ j * stageW' areal j t = ∑ k ∈ range 7, θ ^ (k + 1) * ∑ j ∈ range 13, (coef (denseW.getD k []) j : ℝ) * stageW' areal j t := by
    simp only [wdense, Finset.sum_mul, Finset.mul_sum]
    rw [Finset.sum_comm]
    refine Finset.sum_congr rfl fun k _ => Finset.sum_congr rfl fun j _ => by ring
  have e2 : θ ^ t.order * exactW t = ∑ k ∈ range 7, θ ^ (k + 1) * (if t.order = k + 1 then exactW t else 0) := by
    rw [Finset.sum_eq_single (t.order - 1)]
    · rw [if_pos (by have := t.order_pos; omega), Nat.sub_add_cancel t.order_pos]
    · intro k _ hk
      rw [if_neg (by have := t.order_pos; omega), mul_zero]
    · intro hn
      exact absurd (mem_range.2 (by omega)) hn
  rw [e1, e2, ← Finset.sum_sub_distrib]
  have e3 : ∀ k ∈ range 7, |θ ^ (k + 1) * ∑ j ∈ range 13, (coef (denseW.getD k []) j : ℝ) * stageW' areal j t - θ ^ (k + 1) * (if t.order = k + 1 then exactW t else 0)| ≤ 1 / 10 ^ 19 := by
    intro k hk
    have := order6_dense (k + 1) (by omega) (by have := mem_range.1 hk; omega) t ht
    rw [Nat.add_sub_cancel] at this
    rw [← mul_sub, abs_mul, abs_of_nonneg (pow_nonneg h0 _)]
    exact (mul_le_of_le_one_left (abs_nonneg _) (pow_le_one₀ h0 h1)).trans this
  refine (Finset.abs_sum_le_sum_abs _ _).trans ((Finset.sum_le_sum e3).trans ?_)
  rw [Finset.sum_const, card_range]
  norm_num

/-- C83: the error of the dense output. Uniformly over the step, the interpolated solution differs from the exact one by O(h^7) (with the same reservation about the coefficients). -/
theorem C83_dense_order {N : ℕ} (g : Vec N → Vec N) (p : FormalMultilinearSeries ℝ (Vec N) (Vec N)) (t0 : ℝ) (x0 : Vec N) (hg : HasFPowerSeriesAt g p x0) (y : ℝ → Vec N)
    (hy0 : y 0 = x0) (hy : ∀ᶠ h in 𝓝 (0 : ℝ), HasDerivAt y (g (y h)) h) :
    ∃ C, ∀ᶠ h in 𝓝 (0 : ℝ), h ≠ 0 → ∀ θ, 0 ≤ θ → θ ≤ 1 →
      ‖denseAt g t0 x0 h θ - y (θ * h)‖ ≤ 1e-18 * |h| * sizeOfDerivs p 6 + C * |h| ^ 7 := by
  have hst : ∀ j, ∃ C, 0 < C ∧ (j < 13 → ∀ᶠ h in 𝓝 (0 : ℝ), ‖K13 g x0 j h - bder p (stageW' areal j) 6 h‖ ≤ C * ‖h ^ 6‖) := by
    intro j
    by_cases hj : j < 13
    · obtain ⟨C, hC, hb⟩ := (stage_expansion (N := 6) (Expands.of_hasFPowerSeriesAt hg 7) (K13_stages g x0) j hj 6 (by omega)).exists_pos
      exact ⟨C, hC, fun _ => hb.bound⟩
    · exact ⟨1, one_pos, fun h => absurd h hj⟩
  choose C hC0 hC using hst
  choose B hB0 hB using wdense_bound
  obtain ⟨D, hD0, hD⟩ := (exact_expansion (Expands.of_hasFPowerSeriesAt hg 6) hy0 hy 6 le_rfl).exists_pos
  have hD := hD.bound
  obtain ⟨ε, hε, hball⟩ := Metric.eventually_nhds_iff_ball.1 hD
  refine ⟨∑ j ∈ range 13, B j * C j + D, ?_⟩
  have hall : ∀ᶠ h in 𝓝 (0 : ℝ), ∀ j ∈ range 13, ‖K13 g x0 j h - bder p (stageW' areal j) 6 h‖ ≤ C j * ‖h ^ 6‖ :=
    (Filter.eventually_all_finset _).2 fun j hj => hC j (mem_range.1 hj)
  have hsmall : ∀ᶠ h in 𝓝 (0 : ℝ), |h| < min ε 1 := by
    filter_upwards [Metric.ball_mem_nhds (0 : ℝ) (lt_min hε one_pos)] with h hh
    simpa using hh
  filter_upwards [hall, hsmall] with h hK hs hne θ hθ0 hθ1
  have hs1 : |h| < ε := lt_of_lt_of_le hs (min_le_left _ _)
  have hs2 : |h| ≤ 1 := (lt_of_lt_of_le hs (min_le_right _ _)).le
  have hθh : |θ * h| ≤ |h| := by
    rw [abs_mul, abs_of_nonneg hθ0]
    exact mul_le_of_le_one_left (abs_nonneg _) hθ1
  have hy' := hball (θ * h) (by simpa using lt_of_le_of_lt hθh hs1)
  set w : Tree → ℝ := fun t => ∑ j ∈ range 13, wdense θ j * stageW' areal j t - θ ^ t.order * exactW t with hw
  have e : denseAt g t0 x0 h θ - y (θ * h) = h • (∑ j ∈ range 13, wdense θ j • (K13 g x0 j h - bder p (stageW' areal j) 6 h)) + bser p w 6 h -
      ((y (θ * h) - x0) - bser p exactW 6 (θ * h)) := by
    rw [denseAt_eq g t0 x0 h hne θ]
    have e1 : bser p w 6 h = h • (∑ j ∈ range 13, wdense θ j • bder p (stageW' areal j) 6 h) - bser p exactW 6 (θ * h) := by
      rw [Finset.smul_sum]
      have : ∀ j, h • wdense θ j • bder p (stageW' areal j) 6 h = wdense θ j • bser p (stageW' areal j) 6 h := by
        intro j; rw [smul_comm, smul_bder]
      simp only [this]
      simp only [bser, Finset.smul_sum]
      rw [Finset.sum_comm, ← Finset.sum_sub_distrib]
      refine Finset.sum_congr rfl fun t _ => ?_
      simp only [smul_smul]
      rw [← Finset.sum_smul, ← sub_smul]
      have hc : h ^ t.order * w t = ∑ j ∈ range 13, wdense θ j * (h ^ t.order * stageW' areal j t) - (θ * h) ^ t.order * exactW t := by
        simp only [hw]
        rw [mul_pow, mul_sub, Finset.mul_sum, Finset.sum_congr rfl fun j _ => show h ^ t.order * (wdense θ j * stageW' areal j t) = wdense θ j * (h ^ t.order * stageW' areal j t) by ring]
        ring
      rw [hc]
    rw [e1]
    simp only [smul_sub, Finset.sum_sub_distrib]
    abel
  rw [e]
  have b1 : ‖h • (∑ j ∈ range 13, wdense θ j • (K13 g x0 j h - bder p (stageW' areal j) 6 h))‖ ≤ (∑ j ∈ range 13, B j * C j) * |h| ^ 7 := by
    rw [norm_smul, Real.norm_eq_abs]
    have : ‖∑ j ∈ range 13, wdense θ j • (K13 g x0 j h - bder p (stageW' areal j) 6 h)‖ ≤ (∑ j ∈ range 13, B j * C j) * |h| ^ 6 := by
      rw [Finset.sum_mul]
      refine (norm_sum_le _ _).trans (Finset.sum_le_sum fun j hj => ?_)
      rw [norm_smul, Real.norm_eq_abs, mul_assoc]
      have h1 := hK j hj
      rw [Real.norm_eq_abs, abs_pow] at h1
      exact mul_le_mul (hB j θ hθ0 hθ1) h1 (norm_nonneg _) (hB0 j)
    calc _ ≤ |h| * ((∑ j ∈ range 13, B j * C j) * |h| ^ 6) := mul_le_mul_of_nonneg_left this (abs_nonneg _)
      _ = _ := by ring
  have b2 := bser_bound p w 6 1e-18 (fun t ht => wdense_order θ hθ0 hθ1 t ht) h hs2
  have b3 : ‖(y (θ * h) - x0) - bser p exactW 6 (θ * h)‖ ≤ D * |h| ^ 7 := by
    refine hy'.trans ?_
    rw [Real.norm_eq_abs, abs_pow]
    exact mul_le_mul_of_nonneg_left (pow_le_pow_left₀ (abs_nonneg _) hθh 7) hD0.le
  have b4 := norm_sub_le (h • (∑ j ∈ range 13, wdense θ j • (K13 g x0 j h - bder p (stageW' areal j) 6 h)) + bser p w 6 h) ((y (θ * h) - x0) - bser p exactW 6 (θ * h))
  have b5 := norm_add_le (h • (∑ j ∈ range 13, wdense θ j • (K13 g x0 j h - bder p (stageW' areal j) 6 h))) (bser p w 6 h)
  linarith

/-- The state after a successful step of any kind is the result of a completed step of the returned length. -/
theorem doStep_full {N : ℕ} (E : Env) (S : Sys N) (dt : Dt) (s : State N) (h0 : (doStep E S dt s).1 ≠ 0) :
    ∃ next, (doStep E S dt s).2 = fullStep S s (doStep E S dt s).1 next := by
  have hd : doStep E S dt s = match loop E S s dt.isGiven (firstStep s dt) 0 none with | none => (0, s) | some (h, next) => (h, fullStep S s h next) := rfl
  rcases hl : loop E S s dt.isGiven (firstStep s dt) 0 none with _ | ⟨h, next⟩
  · rw [hl] at hd; rw [hd] at h0; exact absurd rfl h0
  · rw [hl] at hd; rw [hd]; exact ⟨next, rfl⟩

/-- C83: dense output, for doStep: if the returned length r is not zero, then getSol reproduces the old point at the old time and the new point at the new time, and its
derivatives with respect to time at both ends are the r.h.s. of the equation. -/
theorem C83_dense_step {N : ℕ} (E : Env) (S : Sys N) (dt : Dt) (s : State N) (hv : Valid S s) (i : Fin N) (h0 : (doStep E S dt s).1 ≠ 0) :
    let r := (doStep E S dt s).1
    let s' := (doStep E S dt s).2
    let sol := fun t => (getSol s' t i).getD 0
    sol s.time = s.x i ∧ sol (s.time + r) = s'.x i ∧ HasDerivAt sol (S.f s.time s.x i) s.time ∧ HasDerivAt sol (S.f (s.time + r) s'.x i) (s.time + r) := by
  obtain ⟨next, e⟩ := doStep_full E S dt s h0
  have := C83_dense S s hv (doStep E S dt s).1 next h0 i
  rw [← e] at this
  exact this

/-- A non-trivial instance of the assumptions about the step: x'=x, a solver initialised at x=1 (with an arbitrary estimate of the first step), a step of length 1/2. -/
example (E : Env) (hE : E.tiny ≤ 1 / 2) (est : Option EReal) (S : Sys 1) (_hS : S.f = fun _ x => x) :
    let s := init S (construct 1) (fun _ => 1) (some 0) est
    (doStep E S (.given (1 / 2)) s).1 = 1 / 2 ∧ Valid S s ∧ 0 < s.next := by
  intro s
  have hv := (C83_init S (construct 1) (fun _ => 1) (some 0) est).1
  refine ⟨(C83_step_given E S s hv (1 / 2) ?_).1, hv, ?_⟩
  · rw [abs_of_pos (by norm_num)]; exact hE
  · have e : s.next = initTimeStep est := by simp [s, init, construct]
    rw [e]
    have := (C83_initTimeStep est).1
    have h : (0 : ℝ) < 1e-12 := by norm_num
    linarith

/-- A non-trivial instance of the assumptions of C83_order, C83_dense_order: x'=x with the solution exp(h). -/
example (x0 : Vec 2) : ∃ (p : FormalMultilinearSeries ℝ (Vec 2) (Vec 2)) (y : ℝ → Vec 2), HasFPowerSeriesAt (fun x : Vec 2 => x) p x0 ∧ y 0 = x0 ∧
    ∀ᶠ h in 𝓝 (0 : ℝ), HasDerivAt y (y h) h := by
  refine ⟨_, fun h => Real.exp h • x0, (ContinuousLinearMap.id ℝ (Vec 2)).hasFPowerSeriesAt x0, by simp, Filter.Eventually.of_forall fun h => ?_⟩
  exact (Real.hasDerivAt_exp h).smul_const x0

end

end Verif.Ode
