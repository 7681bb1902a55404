import Verif.Pot.Analytic
import Verif.Coord.DerivProps

/-!
# C64: density computed from the second derivatives of the potential

Models `/repo/src/potential_base.cpp:43-90` (the default `densityCar`, `densityCyl`, `densitySph` of a potential, used by every
potential that has no density formula of its own).  Number model (E).  The tolerance `EPSREL_DENSITY_DER` and
`SQRT_DBL_EPSILON` are parameters `eps`, `seps` of the model.
-/

namespace Verif.Pot

open Real Verif.Coord

/-! ## model -/

/-- potential_base.cpp:43-48; `d2` are the second derivatives returned by `eval` -/
noncomputable def densityCar (d2 : HessCar) : ℝ := (d2.dx2 + d2.dy2 + d2.dz2) * (1 / (4 * π))

/-- potential_base.cpp:55-64: the terms of the Laplacian (`dR2`, `dR/R`, `dz2`, `dphi2/R^2`), with the special case of the z axis -/
noncomputable def termsCyl (seps : ℝ) (pos : PosCyl) (d : GradCyl) (d2 : HessCyl) : ℝ × ℝ × ℝ × ℝ :=
  if pos.R ≤ |pos.z| * seps then (d2.dR2, d2.dR2, d2.dz2, 0)
  else (d2.dR2, d.dR / pos.R, d2.dz2, d2.dphi2 / pos.R ^ 2)

/-- potential_base.cpp:50-66 -/
noncomputable def densityCyl (eps seps : ℝ) (pos : PosCyl) (d : GradCyl) (d2 : HessCyl) : ℝ :=
  let T := termsCyl seps pos d d2
  let result := T.1 + T.2.1 + T.2.2.1 + T.2.2.2
  if ¬ (|result| > eps * (|T.1| + |T.2.1| + |T.2.2.1| + |T.2.2.2|)) then 0
  else result / (4 * π)

/-- potential_base.cpp:73-84: the terms `dr2`, `dr/r` and the angular part -/
noncomputable def termsSph (pos : PosSph) (d : GradSph) (d2 : HessSph) : ℝ × ℝ × ℝ :=
  let sintheta := sin pos.theta
  let costheta := cos pos.theta
  let cotterm := if sintheta = 0 then d2.dtheta2 else d.dtheta * costheta / sintheta
  let ang := (d2.dtheta2 + cotterm + (if sintheta ≠ 0 then d2.dphi2 / sintheta ^ 2 else 0)) / pos.r ^ 2
  if pos.r = 0 then (d2.dr2, d2.dr2, 0) else (d2.dr2, d.dr / pos.r, ang)

/-- potential_base.cpp:68-90 -/
noncomputable def densitySph (eps : ℝ) (pos : PosSph) (d : GradSph) (d2 : HessSph) : ℝ :=
  let T := termsSph pos d d2
  let result := T.1 + 2 * T.2.1 + T.2.2
  if ¬ (|result| > eps * (|T.1| + |2 * T.2.1| + |T.2.2|)) then 0
  else result / (4 * π)

/-! ## specification -/

/-- `P` holds at all points sufficiently close to `p` -/
def NearCar (p : PosCar) (P : PosCar → Prop) : Prop :=
  ∃ ε > 0, ∀ q : PosCar, |q.x - p.x| < ε → |q.y - p.y| < ε → |q.z - p.z| < ε → P q
/-- `P` holds at all points sufficiently close to `p` -/
def NearCyl (p : PosCyl) (P : PosCyl → Prop) : Prop :=
  ∃ ε > 0, ∀ q : PosCyl, |q.R - p.R| < ε → |q.z - p.z| < ε → |q.phi - p.phi| < ε → P q
/-- `P` holds at all points sufficiently close to `p` -/
def NearSph (p : PosSph) (P : PosSph → Prop) : Prop :=
  ∃ ε > 0, ∀ q : PosSph, |q.r - p.r| < ε → |q.theta - p.theta| < ε → |q.phi - p.phi| < ε → P q

/-- `Phi` is twice differentiable at `p`, with gradient `G` in a neighbourhood and second derivatives `H` at `p` -/
def C2At (Phi : PosCar → ℝ) (G : PosCar → GradCar) (H : HessCar) (p : PosCar) : Prop :=
  NearCar p (fun q => IsGradCar Phi q (G q)) ∧ IsHessCar G p H

/-- Poisson's equation: the density that generates a potential with second derivatives `H` (units with G=1) -/
noncomputable def poisson (H : HessCar) : ℝ := (H.dx2 + H.dy2 + H.dz2) / (4 * π)

/-! ## uniqueness of gradients and Hessians -/

theorem _root_.Verif.Coord.IsGradCyl.partials {F : PosCyl → ℝ} {p : PosCyl} {g : GradCyl} (h : IsGradCyl F p g) :
    HasDerivAt (fun s => F ⟨s, p.z, p.phi⟩) g.dR p.R ∧ HasDerivAt (fun s => F ⟨p.R, s, p.phi⟩) g.dz p.z ∧
    HasDerivAt (fun s => F ⟨p.R, p.z, s⟩) g.dphi p.phi := by
  refine ⟨?_, ?_, ?_⟩
  · exact (h (fun s => s) (fun _ => p.z) (fun _ => p.phi) 1 0 0 p.R (hasDerivAt_id _) (hasDerivAt_const _ _) (hasDerivAt_const _ _) rfl).congr_deriv (by ring)
  · exact (h (fun _ => p.R) (fun s => s) (fun _ => p.phi) 0 1 0 p.z (hasDerivAt_const _ _) (hasDerivAt_id _) (hasDerivAt_const _ _) rfl).congr_deriv (by ring)
  · exact (h (fun _ => p.R) (fun _ => p.z) (fun s => s) 0 0 1 p.phi (hasDerivAt_const _ _) (hasDerivAt_const _ _) (hasDerivAt_id _) rfl).congr_deriv (by ring)

theorem _root_.Verif.Coord.IsGradSph.partials {F : PosSph → ℝ} {p : PosSph} {g : GradSph} (h : IsGradSph F p g) :
    HasDerivAt (fun s => F ⟨s, p.theta, p.phi⟩) g.dr p.r ∧ HasDerivAt (fun s => F ⟨p.r, s, p.phi⟩) g.dtheta p.theta ∧
    HasDerivAt (fun s => F ⟨p.r, p.theta, s⟩) g.dphi p.phi := by
  refine ⟨?_, ?_, ?_⟩
  · exact (h (fun s => s) (fun _ => p.theta) (fun _ => p.phi) 1 0 0 p.r (hasDerivAt_id _) (hasDerivAt_const _ _) (hasDerivAt_const _ _) rfl).congr_deriv (by ring)
  · exact (h (fun _ => p.r) (fun s => s) (fun _ => p.phi) 0 1 0 p.theta (hasDerivAt_const _ _) (hasDerivAt_id _) (hasDerivAt_const _ _) rfl).congr_deriv (by ring)
  · exact (h (fun _ => p.r) (fun _ => p.theta) (fun s => s) 0 0 1 p.phi (hasDerivAt_const _ _) (hasDerivAt_const _ _) (hasDerivAt_id _) rfl).congr_deriv (by ring)

theorem _root_.Verif.Coord.IsGradCyl.unique {F F' : PosCyl → ℝ} {p : PosCyl} {g g' : GradCyl} (h : IsGradCyl F p g) (h' : IsGradCyl F' p g')
    (he : NearCyl p (fun q => F q = F' q)) : g = g' := by
  obtain ⟨ε, h0, he⟩ := he
  have ball : ∀ c : ℝ, ∀ᶠ s in nhds c, |s - c| < ε := fun c =>
    Filter.mem_of_superset (Metric.ball_mem_nhds c h0) (fun s hs => by simpa [Real.dist_eq] using hs)
  obtain ⟨a1, a2, a3⟩ := h.partials
  obtain ⟨b1, b2, b3⟩ := h'.partials
  have e1 := a1.unique (b1.congr_of_eventuallyEq ((ball p.R).mono fun s hs => he ⟨s, p.z, p.phi⟩ hs (by simpa using h0) (by simpa using h0)))
  have e2 := a2.unique (b2.congr_of_eventuallyEq ((ball p.z).mono fun s hs => he ⟨p.R, s, p.phi⟩ (by simpa using h0) hs (by simpa using h0)))
  have e3 := a3.unique (b3.congr_of_eventuallyEq ((ball p.phi).mono fun s hs => he ⟨p.R, p.z, s⟩ (by simpa using h0) (by simpa using h0) hs))
  cases g; cases g'; simp_all

theorem _root_.Verif.Coord.IsGradSph.unique {F F' : PosSph → ℝ} {p : PosSph} {g g' : GradSph} (h : IsGradSph F p g) (h' : IsGradSph F' p g')
    (he : NearSph p (fun q => F q = F' q)) : g = g' := by
  obtain ⟨ε, h0, he⟩ := he
  have ball : ∀ c : ℝ, ∀ᶠ s in nhds c, |s - c| < ε := fun c =>
    Filter.mem_of_superset (Metric.ball_mem_nhds c h0) (fun s hs => by simpa [Real.dist_eq] using hs)
  obtain ⟨a1, a2, a3⟩ := h.partials
  obtain ⟨b1, b2, b3⟩ := h'.partials
  have e1 := a1.unique (b1.congr_of_eventuallyEq ((ball p.r).mono fun s hs => he ⟨s, p.theta, p.phi⟩ hs (by simpa using h0) (by simpa using h0)))
  have e2 := a2.unique (b2.congr_of_eventuallyEq ((ball p.theta).mono fun s hs => he ⟨p.r, s, p.phi⟩ (by simpa using h0) hs (by simpa using h0)))
  have e3 := a3.unique (b3.congr_of_eventuallyEq ((ball p.phi).mono fun s hs => he ⟨p.r, p.theta, s⟩ (by simpa using h0) (by simpa using h0) hs))
  cases g; cases g'; simp_all

theorem nearCyl_of_car {p : PosCyl} {P : PosCar → Prop} (h : NearCar (cylToCar p) P) : NearCyl p (fun q => P (cylToCar q)) := by
  obtain ⟨ε, h0, h⟩ := h
  have key : ∀ f : ℝ × ℝ × ℝ → ℝ, Continuous f → ∃ δ > 0, ∀ q : ℝ × ℝ × ℝ, |q.1 - p.R| < δ → |q.2.1 - p.z| < δ → |q.2.2 - p.phi| < δ →
      |f q - f (p.R, p.z, p.phi)| < ε := by
    intro f hf
    obtain ⟨δ, d0, hd⟩ := Metric.continuousAt_iff.1 (hf.continuousAt (x := (p.R, p.z, p.phi))) ε h0
    refine ⟨δ, d0, fun q h1 h2 h3 => ?_⟩
    have := @hd q (by
      rw [Prod.dist_eq, Prod.dist_eq, Real.dist_eq, Real.dist_eq, Real.dist_eq]
      exact max_lt h1 (max_lt h2 h3))
    rwa [Real.dist_eq] at this
  obtain ⟨d1, e1, k1⟩ := key (fun q => q.1 * cos q.2.2) (by fun_prop)
  obtain ⟨d2, e2, k2⟩ := key (fun q => q.1 * sin q.2.2) (by fun_prop)
  refine ⟨min (min d1 d2) ε, lt_min (lt_min e1 e2) h0, fun q h1 h2 h3 => h _ ?_ ?_ ?_⟩
  · exact k1 (q.R, q.z, q.phi) (h1.trans_le (by simp)) (h2.trans_le (by simp)) (h3.trans_le (by simp))
  · exact k2 (q.R, q.z, q.phi) (h1.trans_le (by simp)) (h2.trans_le (by simp)) (h3.trans_le (by simp))
  · exact h2.trans_le (min_le_right _ _)

theorem nearSph_of_car {p : PosSph} {P : PosCar → Prop} (h : NearCar (sphToCar p) P) : NearSph p (fun q => P (sphToCar q)) := by
  obtain ⟨ε, h0, h⟩ := h
  have key : ∀ f : ℝ × ℝ × ℝ → ℝ, Continuous f → ∃ δ > 0, ∀ q : ℝ × ℝ × ℝ, |q.1 - p.r| < δ → |q.2.1 - p.theta| < δ → |q.2.2 - p.phi| < δ →
      |f q - f (p.r, p.theta, p.phi)| < ε := by
    intro f hf
    obtain ⟨δ, d0, hd⟩ := Metric.continuousAt_iff.1 (hf.continuousAt (x := (p.r, p.theta, p.phi))) ε h0
    refine ⟨δ, d0, fun q h1 h2 h3 => ?_⟩
    have := @hd q (by
      rw [Prod.dist_eq, Prod.dist_eq, Real.dist_eq, Real.dist_eq, Real.dist_eq]
      exact max_lt h1 (max_lt h2 h3))
    rwa [Real.dist_eq] at this
  obtain ⟨d1, e1, k1⟩ := key (fun q => (sphToCar ⟨q.1, q.2.1, q.2.2⟩).x) (by simp only [sphToCar]; fun_prop)
  obtain ⟨d2, e2, k2⟩ := key (fun q => (sphToCar ⟨q.1, q.2.1, q.2.2⟩).y) (by simp only [sphToCar]; fun_prop)
  obtain ⟨d3, e3, k3⟩ := key (fun q => q.1 * cos q.2.1) (by fun_prop)
  refine ⟨min (min d1 d2) d3, lt_min (lt_min e1 e2) e3, fun q h1 h2 h3 => h _ ?_ ?_ ?_⟩
  · exact k1 (q.r, q.theta, q.phi) (h1.trans_le (by simp)) (h2.trans_le (by simp)) (h3.trans_le (by simp))
  · exact k2 (q.r, q.theta, q.phi) (h1.trans_le (by simp)) (h2.trans_le (by simp)) (h3.trans_le (by simp))
  · exact k3 (q.r, q.theta, q.phi) (h1.trans_le (by simp)) (h2.trans_le (by simp)) (h3.trans_le (by simp))

/-- the cylindrical derivatives of a function of position are determined by the Cartesian ones -/
theorem cyl_of_car {Phi : PosCar → ℝ} {G : PosCar → GradCar} {H : HessCar} {p : PosCyl} (hC : C2At Phi G H (cylToCar p))
    {o : PosCyl → GradCyl} {h : HessCyl} (ho : NearCyl p fun q => IsGradCyl (fun q => Phi (cylToCar q)) q (o q)) (hh : IsHessCyl o p h) :
    o p = toGradCarCyl (G (cylToCar p)) (derivCylCar p) ∧
    h = toHessCarCyl (G (cylToCar p)) H (derivCylCar p) (deriv2CylCar p) := by
  obtain ⟨hG, hH⟩ := hC
  obtain ⟨ε1, l1, n1⟩ := nearCyl_of_car hG
  obtain ⟨ε2, l2, n2⟩ := ho
  have hne : NearCyl p fun q => o q = toGradCarCyl (G (cylToCar q)) (derivCylCar q) := by
    refine ⟨min ε1 ε2, lt_min l1 l2, fun q a b c => ?_⟩
    refine (n2 q (a.trans_le (min_le_right _ _)) (b.trans_le (min_le_right _ _)) (c.trans_le (min_le_right _ _))).unique
      (C57_grad_car_cyl Phi q _ (n1 q (a.trans_le (min_le_left _ _)) (b.trans_le (min_le_left _ _)) (c.trans_le (min_le_left _ _)))) ?_
    exact ⟨1, one_pos, fun _ _ _ _ => rfl⟩
  have hC := C57_hess_car_cyl G p H hH
  obtain ⟨ε, l, n⟩ := hne
  refine ⟨n p (by simpa using l) (by simpa using l) (by simpa using l), ?_⟩
  obtain ⟨a1, a2, a3⟩ := hh
  obtain ⟨b1, b2, b3⟩ := hC
  have e1 := a1.unique b1 ⟨ε, l, fun q x y z => by simp only [n q x y z]⟩
  have e2 := a2.unique b2 ⟨ε, l, fun q x y z => by simp only [n q x y z]⟩
  have e3 := a3.unique b3 ⟨ε, l, fun q x y z => by simp only [n q x y z]⟩
  injection e1; injection e2; injection e3
  cases h; simp_all [toHessCarCyl]

/-- the spherical derivatives of a function of position are determined by the Cartesian ones -/
theorem sph_of_car {Phi : PosCar → ℝ} {G : PosCar → GradCar} {H : HessCar} {p : PosSph} (hC : C2At Phi G H (sphToCar p))
    {o : PosSph → GradSph} {h : HessSph} (ho : NearSph p fun q => IsGradSph (fun q => Phi (sphToCar q)) q (o q)) (hh : IsHessSph o p h) :
    o p = toGradCarSph (G (sphToCar p)) (derivSphCar p) ∧
    h = toHessCarSph (G (sphToCar p)) H (derivSphCar p) (deriv2SphCar p) := by
  obtain ⟨hG, hH⟩ := hC
  obtain ⟨ε1, l1, n1⟩ := nearSph_of_car hG
  obtain ⟨ε2, l2, n2⟩ := ho
  have hne : NearSph p fun q => o q = toGradCarSph (G (sphToCar q)) (derivSphCar q) := by
    refine ⟨min ε1 ε2, lt_min l1 l2, fun q a b c => ?_⟩
    refine (n2 q (a.trans_le (min_le_right _ _)) (b.trans_le (min_le_right _ _)) (c.trans_le (min_le_right _ _))).unique
      (C57_grad_car_sph Phi q _ (n1 q (a.trans_le (min_le_left _ _)) (b.trans_le (min_le_left _ _)) (c.trans_le (min_le_left _ _)))) ?_
    exact ⟨1, one_pos, fun _ _ _ _ => rfl⟩
  have hC := C57_hess_car_sph G p H hH
  obtain ⟨ε, l, n⟩ := hne
  refine ⟨n p (by simpa using l) (by simpa using l) (by simpa using l), ?_⟩
  obtain ⟨a1, a2, a3⟩ := hh
  obtain ⟨b1, b2, b3⟩ := hC
  have e1 := a1.unique b1 ⟨ε, l, fun q x y z => by simp only [n q x y z]⟩
  have e2 := a2.unique b2 ⟨ε, l, fun q x y z => by simp only [n q x y z]⟩
  have e3 := a3.unique b3 ⟨ε, l, fun q x y z => by simp only [n q x y z]⟩
  injection e1; injection e2; injection e3
  cases h; simp_all [toHessCarSph]

/-! ## C64 -/

/-- C64: density in Cartesian coordinates is given by Poisson's equation -/
theorem C64_car (H : HessCar) : densityCar H = poisson H := by unfold densityCar poisson; ring

theorem laplace_cyl (seps : ℝ) (p : PosCyl) (hR : |p.z| * seps < p.R) (hR0 : p.R ≠ 0) (g : GradCar) (H : HessCar) :
    let T := termsCyl seps p (toGradCarCyl g (derivCylCar p)) (toHessCarCyl g H (derivCylCar p) (deriv2CylCar p))
    T.1 + T.2.1 + T.2.2.1 + T.2.2.2 = H.dx2 + H.dy2 + H.dz2 := by
  simp only [termsCyl, if_neg (not_le.2 hR), toGradCarCyl, toHessCarCyl, derivCylCar, deriv2CylCar]
  have h1 := sin_sq_add_cos_sq p.phi
  generalize sin p.phi = sp at *
  generalize cos p.phi = cp at *
  have h1' : sp ^ 2 = 1 - cp ^ 2 := by linarith
  field_simp
  ring_nf
  simp only [h1']
  ring

/-- C64: away from the z axis, the density computed from the cylindrical derivatives of any twice differentiable potential is
the one given by Poisson's equation, unless it is suppressed as dominated by roundoff; in the latter case it is below
`eps` times the sum of the absolute values of the terms of the Laplacian -/
theorem C64_cyl (eps seps : ℝ) (Phi : PosCar → ℝ) (G : PosCar → GradCar) (H : HessCar) (p : PosCyl)
    (hs : 0 ≤ seps) (hR : |p.z| * seps < p.R) (hC : C2At Phi G H (cylToCar p))
    (o : PosCyl → GradCyl) (h : HessCyl) (ho : NearCyl p fun q => IsGradCyl (fun q => Phi (cylToCar q)) q (o q)) (hh : IsHessCyl o p h) :
    densityCyl eps seps p (o p) h = poisson H ∨
    densityCyl eps seps p (o p) h = 0 ∧
      |4 * π * poisson H| ≤ eps * (|h.dR2| + |(o p).dR / p.R| + |h.dz2| + |h.dphi2 / p.R ^ 2|) := by
  have hR0 : p.R ≠ 0 := by
    have : 0 ≤ |p.z| * seps := by positivity
    intro e; rw [e] at hR; linarith
  obtain ⟨e1, e2⟩ := cyl_of_car hC ho hh
  have hL := laplace_cyl seps p hR hR0 (G (cylToCar p)) H
  simp only [← e1, ← e2] at hL
  have hT : termsCyl seps p (o p) h = (h.dR2, (o p).dR / p.R, h.dz2, h.dphi2 / p.R ^ 2) := by
    rw [termsCyl, if_neg (not_le.2 hR)]
  rw [hT] at hL
  simp only [densityCyl, hT]
  simp only [] at hL
  have hp : 4 * π * poisson H = H.dx2 + H.dy2 + H.dz2 := by unfold poisson; field_simp
  split_ifs with hc
  · left
    rw [hL]; rfl
  · right
    refine ⟨rfl, ?_⟩
    rw [hp, ← hL]
    exact not_lt.1 hc

theorem laplace_sph (p : PosSph) (hr : p.r ≠ 0) (hs : sin p.theta ≠ 0) (g : GradCar) (H : HessCar) :
    let T := termsSph p (toGradCarSph g (derivSphCar p)) (toHessCarSph g H (derivSphCar p) (deriv2SphCar p))
    T.1 + 2 * T.2.1 + T.2.2 = H.dx2 + H.dy2 + H.dz2 := by
  simp only [termsSph, if_neg hr, if_neg hs, if_pos hs, toGradCarSph, toHessCarSph, derivSphCar, deriv2SphCar]
  have h1 := sin_sq_add_cos_sq p.phi
  have h2 := sin_sq_add_cos_sq p.theta
  generalize sin p.phi = sp at *
  generalize cos p.phi = cp at *
  generalize sin p.theta = st at *
  generalize cos p.theta = ct at *
  have h1' : sp ^ 2 = 1 - cp ^ 2 := by linarith
  have h2' : ct ^ 2 = 1 - st ^ 2 := by linarith
  field_simp
  ring_nf
  simp only [h1', h2']
  ring

/-- C64: away from the z axis, the density computed from the spherical derivatives of any twice differentiable potential is
the one given by Poisson's equation, unless it is suppressed as dominated by roundoff -/
theorem C64_sph (eps : ℝ) (Phi : PosCar → ℝ) (G : PosCar → GradCar) (H : HessCar) (p : PosSph)
    (hr : p.r ≠ 0) (hs : sin p.theta ≠ 0) (hC : C2At Phi G H (sphToCar p))
    (o : PosSph → GradSph) (h : HessSph) (ho : NearSph p fun q => IsGradSph (fun q => Phi (sphToCar q)) q (o q)) (hh : IsHessSph o p h) :
    densitySph eps p (o p) h = poisson H ∨
    densitySph eps p (o p) h = 0 ∧
      |4 * π * poisson H| ≤ eps * (|h.dr2| + |2 * ((o p).dr / p.r)| +
        |(h.dtheta2 + (o p).dtheta * cos p.theta / sin p.theta + h.dphi2 / sin p.theta ^ 2) / p.r ^ 2|) := by
  obtain ⟨e1, e2⟩ := sph_of_car hC ho hh
  have hL := laplace_sph p hr hs (G (sphToCar p)) H
  simp only [← e1, ← e2] at hL
  have hT : termsSph p (o p) h = (h.dr2, (o p).dr / p.r,
      (h.dtheta2 + (o p).dtheta * cos p.theta / sin p.theta + h.dphi2 / sin p.theta ^ 2) / p.r ^ 2) := by
    simp only [termsSph, if_neg hr, if_neg hs, if_pos hs]
  rw [hT] at hL
  simp only [densitySph, hT]
  simp only [] at hL
  have hp : 4 * π * poisson H = H.dx2 + H.dy2 + H.dz2 := by unfold poisson; field_simp
  split_ifs with hc
  · left
    rw [hL]; rfl
  · right
    refine ⟨rfl, ?_⟩
    rw [hp, ← hL]
    exact not_lt.1 hc

/-- what is computed on (or very close to) the z axis: the second derivative in the direction `phi` is counted twice -/
theorem C64_cyl_axis_value (eps seps : ℝ) (p : PosCyl) (hR : p.R ≤ |p.z| * seps) (d : GradCyl) (h : HessCyl) :
    densityCyl eps seps p d h = (2 * h.dR2 + h.dz2) / (4 * π) ∨
    densityCyl eps seps p d h = 0 ∧ |2 * h.dR2 + h.dz2| ≤ eps * (2 * |h.dR2| + |h.dz2|) := by
  simp only [densityCyl, termsCyl, if_pos hR]
  split_ifs with hc
  · left; ring
  · right
    refine ⟨rfl, ?_⟩
    have := not_lt.1 hc
    simp only [abs_zero, add_zero] at this
    calc _ = |h.dR2 + h.dR2 + h.dz2| := by ring_nf
      _ ≤ _ := this
      _ = _ := by ring

/-- C64, on the z axis: correct for potentials whose second derivatives at that point do not single out a direction in the x-y plane
(in particular for axisymmetric ones) -/
theorem C64_cyl_axis (eps seps : ℝ) (Phi : PosCar → ℝ) (G : PosCar → GradCar) (H : HessCar) (z phi : ℝ) (hs : 0 ≤ seps)
    (hC : C2At Phi G H (cylToCar ⟨0, z, phi⟩)) (hsym : H.dx2 = H.dy2) (hxy : H.dxdy = 0)
    (o : PosCyl → GradCyl) (h : HessCyl) (ho : NearCyl ⟨0, z, phi⟩ fun q => IsGradCyl (fun q => Phi (cylToCar q)) q (o q))
    (hh : IsHessCyl o ⟨0, z, phi⟩ h) :
    densityCyl eps seps ⟨0, z, phi⟩ (o ⟨0, z, phi⟩) h = poisson H ∨
    densityCyl eps seps ⟨0, z, phi⟩ (o ⟨0, z, phi⟩) h = 0 ∧
      |4 * π * poisson H| ≤ eps * (2 * |h.dR2| + |h.dz2|) := by
  obtain ⟨-, e2⟩ := cyl_of_car hC ho hh
  have hp : 4 * π * poisson H = H.dx2 + H.dy2 + H.dz2 := by unfold poisson; field_simp
  have hL : 2 * h.dR2 + h.dz2 = H.dx2 + H.dy2 + H.dz2 := by
    rw [e2]; simp only [toHessCarCyl, derivCylCar, hxy, hsym]
    linear_combination 2 * H.dy2 * sin_sq_add_cos_sq phi
  have h0 := C64_cyl_axis_value eps seps ⟨0, z, phi⟩ (by positivity) (o ⟨0, z, phi⟩) h
  rw [hp, ← hL]
  rcases h0 with h0 | ⟨h0, h1⟩
  · left; rw [h0, hL]; rfl
  · exact Or.inr ⟨h0, h1⟩

/-- C64, spherical coordinates on the z axis (theta = 0 or pi), for potentials whose second derivatives at that point do not single out
a direction in the x-y plane -/
theorem C64_sph_axis (eps : ℝ) (Phi : PosCar → ℝ) (G : PosCar → GradCar) (H : HessCar) (p : PosSph) (hr : p.r ≠ 0) (hs : sin p.theta = 0)
    (hC : C2At Phi G H (sphToCar p)) (hsym : H.dx2 = H.dy2) (hxy : H.dxdy = 0)
    (o : PosSph → GradSph) (h : HessSph) (ho : NearSph p fun q => IsGradSph (fun q => Phi (sphToCar q)) q (o q)) (hh : IsHessSph o p h) :
    densitySph eps p (o p) h = poisson H ∨
    densitySph eps p (o p) h = 0 ∧
      |4 * π * poisson H| ≤ eps * (|h.dr2| + |2 * ((o p).dr / p.r)| + |2 * h.dtheta2 / p.r ^ 2|) := by
  obtain ⟨e1, e2⟩ := sph_of_car hC ho hh
  have hp : 4 * π * poisson H = H.dx2 + H.dy2 + H.dz2 := by unfold poisson; field_simp
  have hc2 : cos p.theta ^ 2 = 1 := by have := sin_sq_add_cos_sq p.theta; rw [hs] at this; linarith
  have hL : h.dr2 + 2 * ((o p).dr / p.r) + (h.dtheta2 + h.dtheta2) / p.r ^ 2 = H.dx2 + H.dy2 + H.dz2 := by
    rw [e1, e2]; simp only [toHessCarSph, toGradCarSph, derivSphCar, deriv2SphCar, hxy, hsym, hs]
    have h1 : sin p.phi ^ 2 = 1 - cos p.phi ^ 2 := by linarith [sin_sq_add_cos_sq p.phi]
    field_simp
    ring_nf
    simp only [h1, hc2]
    ring
  have hs' : ¬ (sin p.theta ≠ 0) := not_not.2 hs
  simp only [densitySph, termsSph, if_neg hr, if_pos hs, if_neg hs', add_zero]
  split_ifs with hc
  · left
    rw [hL]; rfl
  · right
    refine ⟨rfl, ?_⟩
    rw [hp, ← hL, two_mul h.dtheta2]
    exact not_lt.1 hc

/-- C64, spherical coordinates at the origin, for potentials whose second derivatives there do not single out a direction -/
theorem C64_sph_origin (eps : ℝ) (heps : eps < 1) (Phi : PosCar → ℝ) (G : PosCar → GradCar) (H : HessCar) (p : PosSph) (hr : p.r = 0)
    (hC : C2At Phi G H (sphToCar p)) (hyy : H.dx2 = H.dy2) (hzz : H.dx2 = H.dz2) (hxy : H.dxdy = 0) (hyz : H.dydz = 0) (hxz : H.dxdz = 0)
    (o : PosSph → GradSph) (h : HessSph) (ho : NearSph p fun q => IsGradSph (fun q => Phi (sphToCar q)) q (o q)) (hh : IsHessSph o p h) :
    densitySph eps p (o p) h = poisson H := by
  obtain ⟨e1, e2⟩ := sph_of_car hC ho hh
  have hp : 4 * π * poisson H = H.dx2 + H.dy2 + H.dz2 := by unfold poisson; field_simp
  have h0 : h.dr2 = H.dx2 := by
    rw [e2]; simp only [toHessCarSph, derivSphCar, hxy, hxz, hyz, ← hyy, ← hzz]
    linear_combination H.dx2 * sin p.theta ^ 2 * sin_sq_add_cos_sq p.phi + H.dx2 * sin_sq_add_cos_sq p.theta
  simp only [densitySph, termsSph, if_pos hr, h0, add_zero, poisson, ← hyy, ← hzz, abs_zero]
  split_ifs with hc
  · ring
  · have h3 : |H.dx2 + 2 * H.dx2| = 3 * |H.dx2| := by
      rw [show H.dx2 + 2 * H.dx2 = 3 * H.dx2 by ring, abs_mul]; norm_num
    have h4 : |2 * H.dx2| = 2 * |H.dx2| := by rw [abs_mul]; norm_num
    rw [h3, h4] at hc
    have := abs_nonneg H.dx2
    have h5 : |H.dx2| = 0 := by
      have := not_lt.1 hc
      nlinarith
    rw [abs_eq_zero.1 h5]; ring

/-- C64 fails on the z axis for potentials that are not axially symmetric: for Phi = x^2 (density 1/(2π) everywhere) the value
computed from the exact derivatives on the z axis at phi=0 is twice the correct one -/
theorem C64_cyl_axis_refuted :
    ∃ (Phi : PosCar → ℝ) (G : PosCar → GradCar) (H : HessCar) (o : PosCyl → GradCyl) (h : HessCyl) (p : PosCyl),
      C2At Phi G H (cylToCar p) ∧ (∀ q, IsGradCyl (fun q => Phi (cylToCar q)) q (o q)) ∧ IsHessCyl o p h ∧ 0 < poisson H ∧
      ∀ eps seps : ℝ, 0 ≤ seps → eps < 1 → densityCyl eps seps p (o p) h = 2 * poisson H := by
  have hx : ∀ q : PosCar, IsGradCar (fun q => q.x ^ 2) q ⟨2 * q.x, 0, 0⟩ := by
    intro q x y z x' y' z' t hx hy hz hp
    subst hp
    refine (hx.pow 2).congr_deriv ?_
    simp
  have hh : ∀ q : PosCar, IsHessCar (fun q => ⟨2 * q.x, 0, 0⟩) q ⟨2, 0, 0, 0, 0, 0⟩ := by
    intro q
    refine ⟨?_, ?_, ?_⟩ <;> intro x y z x' y' z' t hx hy hz hp
    · exact (hx.const_mul 2).congr_deriv (by ring)
    · exact (hasDerivAt_const _ _).congr_deriv (by ring)
    · exact (hasDerivAt_const _ _).congr_deriv (by ring)
  refine ⟨fun q => q.x ^ 2, fun q => ⟨2 * q.x, 0, 0⟩, ⟨2, 0, 0, 0, 0, 0⟩,
    fun q => toGradCarCyl ⟨2 * (cylToCar q).x, 0, 0⟩ (derivCylCar q), _, ⟨0, 1, 0⟩, ⟨⟨1, one_pos, fun q _ _ _ => hx q⟩, hh _⟩,
    fun q => C57_grad_car_cyl _ q _ (hx _), C57_hess_car_cyl _ _ _ (hh _), ?_, ?_⟩
  · unfold poisson; positivity
  · intro eps seps hs he
    simp only [densityCyl, termsCyl, if_pos (show (0 : ℝ) ≤ |(1 : ℝ)| * seps by simpa using hs), toHessCarCyl, derivCylCar, poisson]
    norm_num
    rw [if_neg (by linarith)]
    ring

/-- non-vacuity of `C64_cyl` and `C64_sph`: the same potential off the axis -/
example : ∃ (Phi : PosCar → ℝ) (G : PosCar → GradCar) (H : HessCar) (o : PosCyl → GradCyl) (h : HessCyl) (p : PosCyl),
      C2At Phi G H (cylToCar p) ∧ (NearCyl p fun q => IsGradCyl (fun q => Phi (cylToCar q)) q (o q)) ∧ IsHessCyl o p h ∧
      |p.z| * 1e-8 < p.R ∧ densityCyl 1e-10 1e-8 p (o p) h = poisson H ∧ poisson H ≠ 0 := by
  have hx : ∀ q : PosCar, IsGradCar (fun q => q.x ^ 2) q ⟨2 * q.x, 0, 0⟩ := by
    intro q x y z x' y' z' t hx hy hz hp
    subst hp
    refine (hx.pow 2).congr_deriv ?_
    simp
  have hh : ∀ q : PosCar, IsHessCar (fun q => ⟨2 * q.x, 0, 0⟩) q ⟨2, 0, 0, 0, 0, 0⟩ := by
    intro q
    refine ⟨?_, ?_, ?_⟩ <;> intro x y z x' y' z' t hx hy hz hp
    · exact (hx.const_mul 2).congr_deriv (by ring)
    · exact (hasDerivAt_const _ _).congr_deriv (by ring)
    · exact (hasDerivAt_const _ _).congr_deriv (by ring)
  refine ⟨fun q => q.x ^ 2, fun q => ⟨2 * q.x, 0, 0⟩, ⟨2, 0, 0, 0, 0, 0⟩,
    fun q => toGradCarCyl ⟨2 * (cylToCar q).x, 0, 0⟩ (derivCylCar q), _, ⟨1, 1, 0⟩, ⟨⟨1, one_pos, fun q _ _ _ => hx q⟩, hh _⟩,
    ⟨1, one_pos, fun q _ _ _ => C57_grad_car_cyl _ q _ (hx _)⟩, C57_hess_car_cyl _ _ _ (hh _), by norm_num, ?_, ?_⟩
  · simp only [densityCyl, termsCyl, toHessCarCyl, derivCylCar, deriv2CylCar, toGradCarCyl, cylToCar, poisson]
    norm_num
  · unfold poisson; positivity

end Verif.Pot
