import Verif.Pot.Analytic
import Mathlib.Analysis.SpecialFunctions.Pow.Deriv
import Mathlib.Analysis.Calculus.Deriv.MeanValue

/-! # C100: Dehnen potential (spherical case)

Model of the branch of /repo/src/potential_dehnen.cpp for unit axis ratios in exact real arithmetic; positions different from the origin (at the origin the code relies on IEEE infinities). -/

namespace Verif.Pot

open Real Verif.Coord Filter Topology

/-- parameters of the potential -/
structure DehnenP where (mass scalerad gamma axisRatioY axisRatioZ : ℝ)

/-- potential_dehnen.cpp:28-36: constructor -/
noncomputable def dehnenCreate (mass scalerad gamma axisRatioY axisRatioZ : ℝ) : Option DehnenP :=
  if scalerad ≤ 0 then none else if gamma < 0 ∨ gamma > 2 then none else some ⟨mass, scalerad, gamma, axisRatioY, axisRatioZ⟩

namespace DehnenP

variable (P : DehnenP)

/-- potential_dehnen.cpp:38-43 -/
noncomputable def density (pos : PosCar) : ℝ :=
  let m := √(pos.x ^ 2 + (pos.y / P.axisRatioY) ^ 2 + (pos.z / P.axisRatioZ) ^ 2)
  P.mass * P.scalerad * (3 - P.gamma) / (4 * π * P.axisRatioY * P.axisRatioZ) * m ^ (-P.gamma) * (P.scalerad + m) ^ (P.gamma - 4)

/-- potential_dehnen.cpp:97-104: value of the potential as a function of radius -/
noncomputable def potR (r : ℝ) : ℝ :=
  let s := P.scalerad / r
  if s > 2e-3 / (4 - P.gamma) then
    P.mass / P.scalerad * (if P.gamma = 2 then -log (1 + s) else (1 - (1 + s) ^ (P.gamma - 2)) / (P.gamma - 2))
  else P.mass / P.scalerad * (-s * (1 + s * (P.gamma - 3) / 2 * (1 + s * (P.gamma - 4) / 3 * (1 + s * (P.gamma - 5) / 4))))

/-- potential_dehnen.cpp:92-127: spherical case -/
noncomputable def evalSpherical (pos : PosCar) : OutCar :=
  let r := √(pos.x * pos.x + pos.y * pos.y + pos.z * pos.z)
  let s := P.scalerad / r
  let xr := pos.x / r
  let yr := pos.y / r
  let zr := pos.z / r
  let val := P.mass * r ^ (1 - P.gamma) * (r + P.scalerad) ^ (P.gamma - 3)
  let val2 := -val * (P.gamma * s + 3) / (r + P.scalerad)
  { pot := P.potR r
    grad := ⟨if r > 0 then val * xr else 0, if r > 0 then val * yr else 0, if r > 0 then val * zr else 0⟩
    hess :=
    { dx2 := val2 * xr * xr + val / r
      dy2 := val2 * yr * yr + val / r
      dz2 := val2 * zr * zr + val / r
      dxdy := val2 * xr * yr
      dydz := val2 * yr * zr
      dxdz := val2 * zr * xr } }

/-- what the constructor guarantees -/
structure Ok (P : DehnenP) : Prop where
  a0 : 0 < P.scalerad
  g0 : 0 ≤ P.gamma
  g2 : P.gamma ≤ 2

variable {P : DehnenP}

theorem ok_create {mass a g p q : ℝ} (h : dehnenCreate mass a g p q = some P) : P.Ok ∧ P = ⟨mass, a, g, p, q⟩ := by
  rw [dehnenCreate] at h
  split_ifs at h with c1 c2
  push Not at c1 c2
  cases h
  exact ⟨⟨c1, c2.1, c2.2⟩, rfl⟩

/-! ## a generic spherical potential in Cartesian coordinates -/

end DehnenP

/-- a spherically symmetric potential U(r) with U' = V and V' = W, written in Cartesian coordinates -/
theorem okCar_of_radial {F : PosCar → OutCar} {U V : ℝ → ℝ} {W : ℝ} (p : PosCar) (hp : 0 < p.x * p.x + p.y * p.y + p.z * p.z)
    (hF : ∀ q : PosCar, 0 < q.x * q.x + q.y * q.y + q.z * q.z → (F q).pot = U √(q.x * q.x + q.y * q.y + q.z * q.z) ∧
      (F q).grad = ⟨V √(q.x * q.x + q.y * q.y + q.z * q.z) * (q.x / √(q.x * q.x + q.y * q.y + q.z * q.z)), V √(q.x * q.x + q.y * q.y + q.z * q.z) * (q.y / √(q.x * q.x + q.y * q.y + q.z * q.z)),
        V √(q.x * q.x + q.y * q.y + q.z * q.z) * (q.z / √(q.x * q.x + q.y * q.y + q.z * q.z))⟩)
    (r : ℝ) (hr : r = √(p.x * p.x + p.y * p.y + p.z * p.z))
    (hH : (F p).hess = { dx2 := (W - V r / r) * (p.x / r) * (p.x / r) + V r / r, dy2 := (W - V r / r) * (p.y / r) * (p.y / r) + V r / r, dz2 := (W - V r / r) * (p.z / r) * (p.z / r) + V r / r, dxdy := (W - V r / r) * (p.x / r) * (p.y / r), dydz := (W - V r / r) * (p.y / r) * (p.z / r), dxdz := (W - V r / r) * (p.z / r) * (p.x / r) })
    (hU : HasDerivAt U (V r) r) (hV : HasDerivAt V W r) : OkCar F p := by
  have aux : ∀ (x y z : ℝ → ℝ) (x' y' z' t : ℝ), HasDerivAt x x' t → HasDerivAt y y' t → HasDerivAt z z' t → (⟨x t, y t, z t⟩ : PosCar) = p →
      HasDerivAt (fun s => √(x s * x s + y s * y s + z s * z s)) ((x t * x' + y t * y' + z t * z') / r) t ∧
      ∀ᶠ s in 𝓝 t, 0 < x s * x s + y s * y s + z s * z s := by
    intro x y z x' y' z' t hx hy hz e
    subst e
    have h1 : HasDerivAt (fun s => x s * x s + y s * y s + z s * z s) (2 * (x t * x' + y t * y' + z t * z')) t := by
      refine (((hx.mul hx).add (hy.mul hy)).add (hz.mul hz)).congr_deriv ?_
      ring
    refine ⟨(h1.sqrt hp.ne').congr_deriv ?_, h1.continuousAt.eventually (lt_mem_nhds hp)⟩
    have := (sqrt_pos.mpr hp).ne'
    rw [hr]
    field_simp
  have r0 : 0 < r := by rw [hr]; exact sqrt_pos.mpr hp
  have r2 : r ^ 2 = p.x * p.x + p.y * p.y + p.z * p.z := by rw [hr, sq_sqrt hp.le]
  have comp : ∀ (x y z w : ℝ → ℝ) (x' y' z' w' t : ℝ), HasDerivAt x x' t → HasDerivAt y y' t → HasDerivAt z z' t → HasDerivAt w w' t → (⟨x t, y t, z t⟩ : PosCar) = p →
      HasDerivAt (fun s => V √(x s * x s + y s * y s + z s * z s) * (w s / √(x s * x s + y s * y s + z s * z s)))
        ((W - V r / r) * (w t / r) * ((x t * x' + y t * y' + z t * z') / r) + V r / r * w') t := by
    intro x y z w x' y' z' w' t hx hy hz hw e
    obtain ⟨d, -⟩ := aux x y z x' y' z' t hx hy hz e
    have e' : √(x t * x t + y t * y t + z t * z t) = r := by rw [hr, ← e]
    have hV' : HasDerivAt V W √(x t * x t + y t * y t + z t * z t) := by rw [e']; exact hV
    refine ((hV'.comp t d).mul (hw.div d (by rw [e']; exact r0.ne'))).congr_deriv ?_
    simp only [Function.comp_apply, Pi.div_apply, e']
    have := r0.ne'
    field_simp
    ring
  refine ⟨?_, ?_, ?_, ?_⟩
  · intro x y z x' y' z' t hx hy hz e
    obtain ⟨d, ev⟩ := aux x y z x' y' z' t hx hy hz e
    have e' : √(x t * x t + y t * y t + z t * z t) = r := by rw [hr, ← e]
    have hU' : HasDerivAt U (V r) √(x t * x t + y t * y t + z t * z t) := by rw [e']; exact hU
    refine ((hU'.comp t d).congr_deriv ?_).congr_of_eventuallyEq ?_
    · rw [(hF p hp).2, ← hr, ← e]
      ring
    · filter_upwards [ev] with s hs
      exact (hF _ hs).1
  · intro x y z x' y' z' t hx hy hz e
    obtain ⟨d, ev⟩ := aux x y z x' y' z' t hx hy hz e
    refine ((comp x y z x x' y' z' x' t hx hy hz hx e).congr_deriv ?_).congr_of_eventuallyEq ?_
    · rw [hH, ← e]
      ring
    · filter_upwards [ev] with s hs
      simp only [(hF ⟨x s, y s, z s⟩ hs).2]
  · intro x y z x' y' z' t hx hy hz e
    obtain ⟨d, ev⟩ := aux x y z x' y' z' t hx hy hz e
    refine ((comp x y z y x' y' z' y' t hx hy hz hy e).congr_deriv ?_).congr_of_eventuallyEq ?_
    · rw [hH, ← e]
      ring
    · filter_upwards [ev] with s hs
      simp only [(hF ⟨x s, y s, z s⟩ hs).2]
  · intro x y z x' y' z' t hx hy hz e
    obtain ⟨d, ev⟩ := aux x y z x' y' z' t hx hy hz e
    refine ((comp x y z z x' y' z' z' t hx hy hz hz e).congr_deriv ?_).congr_of_eventuallyEq ?_
    · rw [hH, ← e]
      ring
    · filter_upwards [ev] with s hs
      simp only [(hF ⟨x s, y s, z s⟩ hs).2]

namespace DehnenP

variable {P : DehnenP}

/-- the exact expression for the potential -/
noncomputable def exactPot (P : DehnenP) (r : ℝ) : ℝ :=
  P.mass / P.scalerad * (if P.gamma = 2 then -log (1 + P.scalerad / r) else (1 - (1 + P.scalerad / r) ^ (P.gamma - 2)) / (P.gamma - 2))

theorem d_exact (h : P.Ok) {r : ℝ} (hr : 0 < r) : HasDerivAt P.exactPot (P.mass * r ^ (1 - P.gamma) * (r + P.scalerad) ^ (P.gamma - 3)) r := by
  have a0 := h.a0
  have s0 : 0 < 1 + P.scalerad / r := by positivity
  have ds : HasDerivAt (fun r => 1 + P.scalerad / r) (-P.scalerad / r ^ 2) r := by
    refine (((hasDerivAt_const r P.scalerad).div (hasDerivAt_id r) hr.ne').const_add 1).congr_deriv ?_
    simp
  have e1 : (1 : ℝ) + P.scalerad / r = (r + P.scalerad) / r := by field_simp
  have e : r ^ (1 - P.gamma) * (r + P.scalerad) ^ (P.gamma - 3) = (1 + P.scalerad / r) ^ (P.gamma - 3) / r ^ 2 := by
    rw [e1, div_rpow (by positivity) hr.le, show (1 : ℝ) - P.gamma = -(P.gamma - 3) - 2 by ring, rpow_sub hr, rpow_neg hr.le, rpow_two]
    field_simp
  unfold exactPot
  by_cases g : P.gamma = 2
  · simp only [if_pos g]
    refine ((ds.log s0.ne').neg.const_mul (P.mass / P.scalerad)).congr_deriv ?_
    rw [mul_assoc P.mass, e, g, show (2 : ℝ) - 3 = -1 by norm_num, rpow_neg_one]
    field_simp
  · simp only [if_neg g]
    have g' : P.gamma - 2 ≠ 0 := sub_ne_zero.mpr g
    refine ((((ds.rpow_const (p := P.gamma - 2) (Or.inl s0.ne')).const_sub 1).div_const (P.gamma - 2)).const_mul (P.mass / P.scalerad)).congr_deriv ?_
    rw [mul_assoc P.mass, e, show P.gamma - 2 - 1 = P.gamma - 3 by ring]
    generalize (1 + P.scalerad / r) ^ (P.gamma - 3) = w
    field_simp

theorem d_val (h : P.Ok) {r : ℝ} (hr : 0 < r) : HasDerivAt (fun r => P.mass * r ^ (1 - P.gamma) * (r + P.scalerad) ^ (P.gamma - 3))
    (-(P.mass * r ^ (1 - P.gamma) * (r + P.scalerad) ^ (P.gamma - 3)) * (P.gamma * (P.scalerad / r) + 3) / (r + P.scalerad)
      + P.mass * r ^ (1 - P.gamma) * (r + P.scalerad) ^ (P.gamma - 3) / r) r := by
  have a0 := h.a0
  have ra : 0 < r + P.scalerad := by positivity
  refine ((((hasDerivAt_id r).rpow_const (p := 1 - P.gamma) (Or.inl hr.ne')).const_mul P.mass).mul
    (((hasDerivAt_id r).add_const P.scalerad).rpow_const (p := P.gamma - 3) (Or.inl ra.ne'))).congr_deriv ?_
  simp only [id]
  rw [rpow_sub_one hr.ne', rpow_sub_one ra.ne']
  generalize r ^ (1 - P.gamma) = u
  generalize (r + P.scalerad) ^ (P.gamma - 3) = v
  field_simp
  ring

/-- C100: Dehnen potential with unit axis ratios: at all points except the origin and the large radii where the potential is replaced by its expansion, the reported derivatives are the derivatives of the reported potential and gradient;
the Poisson equation holds everywhere except the origin -/
theorem C100_dehnen (h : P.Ok) (p : PosCar) (hp : 0 < p.x * p.x + p.y * p.y + p.z * p.z) :
    (√(p.x * p.x + p.y * p.y + p.z * p.z) < P.scalerad * (500 * (4 - P.gamma)) → OkCar P.evalSpherical p) ∧
    IsHessCar (fun q => (P.evalSpherical q).grad) p (P.evalSpherical p).hess ∧
    (P.axisRatioY = 1 → P.axisRatioZ = 1 →
      (P.evalSpherical p).hess.dx2 + (P.evalSpherical p).hess.dy2 + (P.evalSpherical p).hess.dz2 = 4 * π * P.density p) := by
  have a0 := h.a0
  have g4 : 0 < 4 - P.gamma := by linarith [h.g2]
  set r := √(p.x * p.x + p.y * p.y + p.z * p.z) with hr
  have r0 : 0 < r := sqrt_pos.mpr hp
  have ra : 0 < r + P.scalerad := by positivity
  have r2 : r ^ 2 = p.x * p.x + p.y * p.y + p.z * p.z := sq_sqrt hp.le
  have hg : ∀ q : PosCar, 0 < q.x * q.x + q.y * q.y + q.z * q.z → (P.evalSpherical q).grad =
      ⟨(fun r => P.mass * r ^ (1 - P.gamma) * (r + P.scalerad) ^ (P.gamma - 3)) √(q.x * q.x + q.y * q.y + q.z * q.z) * (q.x / √(q.x * q.x + q.y * q.y + q.z * q.z)),
       (fun r => P.mass * r ^ (1 - P.gamma) * (r + P.scalerad) ^ (P.gamma - 3)) √(q.x * q.x + q.y * q.y + q.z * q.z) * (q.y / √(q.x * q.x + q.y * q.y + q.z * q.z)),
       (fun r => P.mass * r ^ (1 - P.gamma) * (r + P.scalerad) ^ (P.gamma - 3)) √(q.x * q.x + q.y * q.y + q.z * q.z) * (q.z / √(q.x * q.x + q.y * q.y + q.z * q.z))⟩ := by
    intro q hq
    have := sqrt_pos.mpr hq
    simp only [evalSpherical, if_pos this]
  have hh : ∀ U : ℝ → ℝ, HasDerivAt U (P.mass * r ^ (1 - P.gamma) * (r + P.scalerad) ^ (P.gamma - 3)) r →
      OkCar (fun q => { P.evalSpherical q with pot := U √(q.x * q.x + q.y * q.y + q.z * q.z) }) p := by
    intro U hU
    refine okCar_of_radial (U := U) (V := fun r => P.mass * r ^ (1 - P.gamma) * (r + P.scalerad) ^ (P.gamma - 3)) p hp (fun q hq => ⟨rfl, hg q hq⟩) r hr ?_ hU (d_val h r0)
    simp only [evalSpherical, ← hr]
    congr 1 <;> ring
  refine ⟨fun hs => ?_, (hh P.exactPot (d_exact h r0)).2, ?_⟩
  · have hU : HasDerivAt P.potR (P.mass * r ^ (1 - P.gamma) * (r + P.scalerad) ^ (P.gamma - 3)) r := by
      refine (d_exact h r0).congr_of_eventuallyEq ?_
      filter_upwards [gt_mem_nhds hs, lt_mem_nhds r0] with u hu u0
      have : P.scalerad / u > 2e-3 / (4 - P.gamma) := by
        rw [gt_iff_lt, div_lt_div_iff₀ g4 u0]
        norm_num
        linarith
      simp only [potR, if_pos this, exactPot]
    exact hh P.potR hU
  · intro hy hz
    simp only [evalSpherical, density, hy, hz, ← hr]
    have em : √(p.x ^ 2 + (p.y / 1) ^ 2 + (p.z / 1) ^ 2) = r := by rw [hr]; congr 1; ring
    rw [em]
    have e1 : r ^ (1 - P.gamma) = r * r ^ (-P.gamma) := by rw [show 1 - P.gamma = 1 + -P.gamma by ring, rpow_add r0, rpow_one]
    have e2 : (r + P.scalerad) ^ (P.gamma - 3) = (r + P.scalerad) * (P.scalerad + r) ^ (P.gamma - 4) := by
      rw [add_comm P.scalerad r, show P.gamma - 3 = 1 + (P.gamma - 4) by ring, rpow_add ra, rpow_one]
    rw [e1, e2]
    generalize r ^ (-P.gamma) = u
    generalize (P.scalerad + r) ^ (P.gamma - 4) = v
    have z2 : p.z ^ 2 = r ^ 2 - p.x ^ 2 - p.y ^ 2 := by rw [r2]; ring
    have := pi_pos
    field_simp
    rw [z2]
    ring

/-! ## expansion at large radii -/

theorem nonneg_of_deriv {f g : ℝ → ℝ} (h0 : f 0 = 0) (hd : ∀ s, 0 ≤ s → HasDerivAt f (g s) s) (hg : ∀ s, 0 ≤ s → 0 ≤ g s) : ∀ s, 0 ≤ s → 0 ≤ f s := by
  intro s hs
  have m : MonotoneOn f (Set.Ici 0) := by
    refine monotoneOn_of_deriv_nonneg (convex_Ici 0) (fun x hx => (hd x hx).continuousAt.continuousWithinAt) (fun x hx => ?_) (fun x hx => ?_)
    · rw [interior_Ici] at hx
      exact (hd x (le_of_lt hx)).differentiableAt.differentiableWithinAt
    · rw [interior_Ici] at hx
      rw [(hd x (le_of_lt hx)).deriv]
      exact hg x (le_of_lt hx)
  have := m (Set.self_mem_Ici) hs hs
  rwa [h0] at this

theorem d_base (al s : ℝ) (hs : 0 ≤ s) : HasDerivAt (fun s : ℝ => (1 + s) ^ al) (al * (1 + s) ^ (al - 1)) s := by
  refine (((hasDerivAt_id s).const_add 1).rpow_const (p := al) (Or.inl (by simp only [id]; linarith))).congr_deriv ?_
  simp

/-- bounds of the binomial series for a negative exponent -/
theorem binom_bounds : (∀ al : ℝ, al ≤ 0 → ∀ s : ℝ, 0 ≤ s → 0 ≤ 1 - (1 + s) ^ al) ∧ (∀ al : ℝ, al ≤ 0 → ∀ s : ℝ, 0 ≤ s → 0 ≤ (1 + s) ^ al - (1 + al * s)) ∧
    (∀ al : ℝ, al ≤ 0 → ∀ s : ℝ, 0 ≤ s → 0 ≤ 1 + al * s + al * (al - 1) / 2 * s ^ 2 - (1 + s) ^ al) ∧
    (∀ al : ℝ, al ≤ 0 → ∀ s : ℝ, 0 ≤ s → 0 ≤ (1 + s) ^ al - (1 + al * s + al * (al - 1) / 2 * s ^ 2 + al * (al - 1) * (al - 2) / 6 * s ^ 3)) ∧
    (∀ al : ℝ, al ≤ 0 → ∀ s : ℝ, 0 ≤ s → 0 ≤ 1 + al * s + al * (al - 1) / 2 * s ^ 2 + al * (al - 1) * (al - 2) / 6 * s ^ 3 + al * (al - 1) * (al - 2) * (al - 3) / 24 * s ^ 4 - (1 + s) ^ al) := by
  have b0 : ∀ al : ℝ, al ≤ 0 → ∀ s : ℝ, 0 ≤ s → 0 ≤ 1 - (1 + s) ^ al := by
    intro al ha s hs
    have := rpow_le_one_of_one_le_of_nonpos (by linarith : (1 : ℝ) ≤ 1 + s) ha
    linarith
  have b1 : ∀ al : ℝ, al ≤ 0 → ∀ s : ℝ, 0 ≤ s → 0 ≤ (1 + s) ^ al - (1 + al * s) := by
    intro al ha
    refine nonneg_of_deriv (g := fun s => -al * (1 - (1 + s) ^ (al - 1))) (by simp) (fun s hs => ?_) (fun s hs => mul_nonneg (by linarith) (b0 (al - 1) (by linarith) s hs))
    refine ((d_base al s hs).sub (((hasDerivAt_id s).const_mul al).const_add 1)).congr_deriv ?_
    simp only [mul_one]; ring
  have b2 : ∀ al : ℝ, al ≤ 0 → ∀ s : ℝ, 0 ≤ s → 0 ≤ 1 + al * s + al * (al - 1) / 2 * s ^ 2 - (1 + s) ^ al := by
    intro al ha
    refine nonneg_of_deriv (g := fun s => -al * ((1 + s) ^ (al - 1) - (1 + (al - 1) * s))) (by simp) (fun s hs => ?_) (fun s hs => mul_nonneg (by linarith) (b1 (al - 1) (by linarith) s hs))
    refine (((((hasDerivAt_id s).const_mul al).const_add 1).add ((hasDerivAt_pow 2 s).const_mul (al * (al - 1) / 2))).sub (d_base al s hs)).congr_deriv ?_
    push_cast; ring
  have b3 : ∀ al : ℝ, al ≤ 0 → ∀ s : ℝ, 0 ≤ s → 0 ≤ (1 + s) ^ al - (1 + al * s + al * (al - 1) / 2 * s ^ 2 + al * (al - 1) * (al - 2) / 6 * s ^ 3) := by
    intro al ha
    refine nonneg_of_deriv (g := fun s => -al * (1 + (al - 1) * s + (al - 1) * (al - 1 - 1) / 2 * s ^ 2 - (1 + s) ^ (al - 1))) (by simp) (fun s hs => ?_) (fun s hs => mul_nonneg (by linarith) (b2 (al - 1) (by linarith) s hs))
    refine ((d_base al s hs).sub (((((hasDerivAt_id s).const_mul al).const_add 1).add ((hasDerivAt_pow 2 s).const_mul (al * (al - 1) / 2))).add ((hasDerivAt_pow 3 s).const_mul (al * (al - 1) * (al - 2) / 6)))).congr_deriv ?_
    push_cast; ring
  refine ⟨b0, b1, b2, b3, ?_⟩
  intro al ha
  refine nonneg_of_deriv (g := fun s => -al * ((1 + s) ^ (al - 1) - (1 + (al - 1) * s + (al - 1) * (al - 1 - 1) / 2 * s ^ 2 + (al - 1) * (al - 1 - 1) * (al - 1 - 2) / 6 * s ^ 3))) (by simp) (fun s hs => ?_)
    (fun s hs => mul_nonneg (by linarith) (b3 (al - 1) (by linarith) s hs))
  refine ((((((((hasDerivAt_id s).const_mul al).const_add 1).add ((hasDerivAt_pow 2 s).const_mul (al * (al - 1) / 2))).add ((hasDerivAt_pow 3 s).const_mul (al * (al - 1) * (al - 2) / 6)))).add
    ((hasDerivAt_pow 4 s).const_mul (al * (al - 1) * (al - 2) * (al - 3) / 24))).sub (d_base al s hs)).congr_deriv ?_
  push_cast; ring

/-- C100: Dehnen potential at all radii: the reported value differs from the exact one M/a (1-(1+a/r)^(γ-2))/(γ-2) (logarithm for γ=2) by no more than 3 |M|/a (a/r)^5 where the expansion is used (that is, at a/r ≤ 0.002/(4-γ)), and is exact otherwise -/
theorem C100_dehnen_value (h : P.Ok) {r : ℝ} (hr : 0 < r) :
    (P.scalerad / r > 2e-3 / (4 - P.gamma) → P.potR r = P.exactPot r) ∧
    |P.potR r - P.exactPot r| ≤ |P.mass| / P.scalerad * (3 * (P.scalerad / r) ^ 5) := by
  have a0 := h.a0
  have g0 := h.g0
  have g2 := h.g2
  have ex : P.scalerad / r > 2e-3 / (4 - P.gamma) → P.potR r = P.exactPot r := by
    intro hs
    simp only [potR, if_pos hs, exactPot]
  refine ⟨ex, ?_⟩
  have s0 : 0 < P.scalerad / r := by positivity
  by_cases hs : P.scalerad / r > 2e-3 / (4 - P.gamma)
  · rw [ex hs, sub_self, abs_zero]
    positivity
  simp only [potR, if_neg hs, exactPot]
  generalize P.scalerad / r = s at *
  rw [← mul_sub, abs_mul, abs_div, abs_of_pos a0]
  refine mul_le_mul_of_nonneg_left ?_ (by positivity)
  -- the exact function and its derivative
  set al := P.gamma - 3 with hal
  have al0 : al ≤ 0 := by linarith
  have hU : ∀ s, 0 ≤ s → HasDerivAt (fun s => if P.gamma = 2 then -log (1 + s) else (1 - (1 + s) ^ (P.gamma - 2)) / (P.gamma - 2)) (-(1 + s) ^ al) s := by
    intro s hs
    by_cases g : P.gamma = 2
    · simp only [if_pos g]
      refine (((hasDerivAt_id s).const_add 1).log (by simp only [id]; linarith)).neg.congr_deriv ?_
      rw [hal, g, show (2 : ℝ) - 3 = -1 by norm_num, rpow_neg_one]
      simp
    · simp only [if_neg g]
      have g' : P.gamma - 2 ≠ 0 := sub_ne_zero.mpr g
      refine (((d_base (P.gamma - 2) s hs).const_sub 1).div_const (P.gamma - 2)).congr_deriv ?_
      rw [show P.gamma - 2 - 1 = al by rw [hal]; ring]
      field_simp
  have U0 : (if P.gamma = 2 then -log (1 + 0) else (1 - ((1 : ℝ) + 0) ^ (P.gamma - 2)) / (P.gamma - 2)) = 0 := by simp
  obtain ⟨-, -, -, b3, b4⟩ := binom_bounds
  have dp : ∀ s : ℝ, HasDerivAt (fun s : ℝ => -s * (1 + s * (P.gamma - 3) / 2 * (1 + s * (P.gamma - 4) / 3 * (1 + s * (P.gamma - 5) / 4))))
      (-(1 + al * s + al * (al - 1) / 2 * s ^ 2 + al * (al - 1) * (al - 2) / 6 * s ^ 3)) s := by
    intro s
    have := (((hasDerivAt_id s).add ((hasDerivAt_pow 2 s).const_mul (al / 2))).add ((hasDerivAt_pow 3 s).const_mul (al * (al - 1) / 6))).add ((hasDerivAt_pow 4 s).const_mul (al * (al - 1) * (al - 2) / 24))
    refine (this.neg.congr_deriv ?_).congr_of_eventuallyEq (Eventually.of_forall fun s => ?_)
    · push_cast; ring
    · simp only [Pi.neg_apply, Pi.add_apply, id, hal]; ring
  have lo := nonneg_of_deriv (f := fun s => -s * (1 + s * (P.gamma - 3) / 2 * (1 + s * (P.gamma - 4) / 3 * (1 + s * (P.gamma - 5) / 4))) - (if P.gamma = 2 then -log (1 + s) else (1 - (1 + s) ^ (P.gamma - 2)) / (P.gamma - 2)))
    (g := fun s => (1 + s) ^ al - (1 + al * s + al * (al - 1) / 2 * s ^ 2 + al * (al - 1) * (al - 2) / 6 * s ^ 3))
    (by rw [U0]; ring) (fun s hs => ((dp s).sub (hU s hs)).congr_deriv (by ring)) (fun s hs => b3 al al0 s hs) s s0.le
  have c3 : al * (al - 1) * (al - 2) * (al - 3) / 24 ≤ 15 := by
    have e1 : 0 ≤ al * (al - 1) ∧ al * (al - 1) ≤ 12 := ⟨by nlinarith, by nlinarith⟩
    have e2 : 0 ≤ (al - 2) * (al - 3) ∧ (al - 2) * (al - 3) ≤ 30 := ⟨by nlinarith, by nlinarith⟩
    nlinarith
  have hi := nonneg_of_deriv (f := fun s => 3 * s ^ 5 - (-s * (1 + s * (P.gamma - 3) / 2 * (1 + s * (P.gamma - 4) / 3 * (1 + s * (P.gamma - 5) / 4))) - (if P.gamma = 2 then -log (1 + s) else (1 - (1 + s) ^ (P.gamma - 2)) / (P.gamma - 2))))
    (g := fun s => 15 * s ^ 4 - ((1 + s) ^ al - (1 + al * s + al * (al - 1) / 2 * s ^ 2 + al * (al - 1) * (al - 2) / 6 * s ^ 3)))
    (by rw [U0]; ring) (fun s hs => (((hasDerivAt_pow 5 s).const_mul 3).sub ((dp s).sub (hU s hs))).congr_deriv (by push_cast; ring))
    (fun s hs => by have := b4 al al0 s hs; have : 0 ≤ s ^ 4 := by positivity
                    nlinarith) s s0.le
  beta_reduce at lo hi
  rw [abs_of_nonneg lo]
  linarith

/-- non-vacuity -/
example : ∃ P : DehnenP, dehnenCreate 1 1 (3 / 2) 1 1 = some P ∧ P.Ok ∧ P.axisRatioY = 1 ∧ P.axisRatioZ = 1 ∧
    (0 : ℝ) < 1 * 1 + 2 * 2 + 2 * 2 ∧ √(1 * 1 + 2 * 2 + 2 * 2 : ℝ) < P.scalerad * (500 * (4 - P.gamma)) := by
  have e : dehnenCreate 1 1 (3 / 2) 1 1 = some ⟨1, 1, 3 / 2, 1, 1⟩ := by rw [dehnenCreate, if_neg (by norm_num), if_neg (by norm_num)]
  refine ⟨_, e, (ok_create e).1, rfl, rfl, by norm_num, ?_⟩
  rw [show (1 * 1 + 2 * 2 + 2 * 2 : ℝ) = 3 ^ 2 by norm_num, sqrt_sq (by norm_num)]
  norm_num

/-- the constructor accepts a negative axis ratio, for which the density of a model with positive mass is negative -/
theorem C100_dehnen_axis : ∃ P : DehnenP, dehnenCreate 1 1 1 1 (-1) = some P ∧ 0 < P.mass ∧ P.density ⟨1, 0, 0⟩ < 0 := by
  have e : dehnenCreate 1 1 1 1 (-1) = some ⟨1, 1, 1, 1, -1⟩ := by rw [dehnenCreate, if_neg (by norm_num), if_neg (by norm_num)]
  refine ⟨_, e, by norm_num, ?_⟩
  have hs : √((1 : ℝ) ^ 2 + (0 / 1) ^ 2 + (0 / -1) ^ 2) = 1 := by norm_num
  simp only [density, hs, one_rpow]
  have := pi_pos
  have h2 : (0 : ℝ) < (1 + 1) ^ ((1 : ℝ) - 4) := by positivity
  have : (1 : ℝ) * 1 * (3 - 1) / (4 * π * 1 * -1) = -(1 / (2 * π)) := by field_simp; norm_num
  rw [this]
  have : 0 < 1 / (2 * π) := by positivity
  nlinarith

end DehnenP
end Verif.Pot
