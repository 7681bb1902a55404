import Verif.Coord.Lemmas
import Verif.Coord.DerivModel
import Mathlib.Analysis.SpecialFunctions.Trigonometric.Deriv

/-!
# Specification: gradients, Hessians and angle-valued functions

Small definitions, independent of the code, used to state the properties of the coordinate conversions.
-/

namespace Verif.Coord

open Real

/-- derivative of an angle-valued function, i.e. of one that is only meaningful modulo 2π: near `t` it agrees modulo 2π
with a function that has the ordinary derivative `φ'` -/
def HasAngleDerivAt (φ : ℝ → ℝ) (φ' t : ℝ) : Prop :=
  ∃ ψ : ℝ → ℝ, HasDerivAt ψ φ' t ∧ ψ t = φ t ∧ ∀ᶠ s in nhds t, ∃ k : ℤ, φ s = ψ s + k * (2 * π)

/-- `F` does not change when 2π is added to the azimuth (and hence neither for any multiple of it) -/
def PeriodicCyl {α : Type} (F : PosCyl → α) : Prop := ∀ R z phi, F ⟨R, z, phi + 2 * π⟩ = F ⟨R, z, phi⟩
/-- `F` does not change when 2π is added to the azimuth -/
def PeriodicSph {α : Type} (F : PosSph → α) : Prop := ∀ r th phi, F ⟨r, th, phi + 2 * π⟩ = F ⟨r, th, phi⟩

/-- `g` is the gradient of `F` at `p`: along every curve through `p` that has a velocity there, the rate of change of `F`
is the sum of the components of `g` times the rates of change of the coordinates (total derivative) -/
def IsGradCar (F : PosCar → ℝ) (p : PosCar) (g : GradCar) : Prop :=
  ∀ (x y z : ℝ → ℝ) (x' y' z' t : ℝ), HasDerivAt x x' t → HasDerivAt y y' t → HasDerivAt z z' t →
    (⟨x t, y t, z t⟩ : PosCar) = p →
    HasDerivAt (fun s => F ⟨x s, y s, z s⟩) (g.dx * x' + g.dy * y' + g.dz * z') t
/-- the same for a function of cylindrical coordinates -/
def IsGradCyl (F : PosCyl → ℝ) (p : PosCyl) (g : GradCyl) : Prop :=
  ∀ (R z phi : ℝ → ℝ) (R' z' phi' t : ℝ), HasDerivAt R R' t → HasDerivAt z z' t → HasDerivAt phi phi' t →
    (⟨R t, z t, phi t⟩ : PosCyl) = p →
    HasDerivAt (fun s => F ⟨R s, z s, phi s⟩) (g.dR * R' + g.dz * z' + g.dphi * phi') t
/-- the same for a function of spherical coordinates -/
def IsGradSph (F : PosSph → ℝ) (p : PosSph) (g : GradSph) : Prop :=
  ∀ (r th phi : ℝ → ℝ) (r' th' phi' t : ℝ), HasDerivAt r r' t → HasDerivAt th th' t → HasDerivAt phi phi' t →
    (⟨r t, th t, phi t⟩ : PosSph) = p →
    HasDerivAt (fun s => F ⟨r s, th s, phi s⟩) (g.dr * r' + g.dtheta * th' + g.dphi * phi') t

/-- `h` is the matrix of second derivatives at `p` of a function whose gradient field is `G` -/
def IsHessCar (G : PosCar → GradCar) (p : PosCar) (h : HessCar) : Prop :=
  IsGradCar (fun q => (G q).dx) p ⟨h.dx2, h.dxdy, h.dxdz⟩ ∧
  IsGradCar (fun q => (G q).dy) p ⟨h.dxdy, h.dy2, h.dydz⟩ ∧
  IsGradCar (fun q => (G q).dz) p ⟨h.dxdz, h.dydz, h.dz2⟩
/-- the same in cylindrical coordinates -/
def IsHessCyl (G : PosCyl → GradCyl) (p : PosCyl) (h : HessCyl) : Prop :=
  IsGradCyl (fun q => (G q).dR) p ⟨h.dR2, h.dRdz, h.dRdphi⟩ ∧
  IsGradCyl (fun q => (G q).dz) p ⟨h.dRdz, h.dz2, h.dzdphi⟩ ∧
  IsGradCyl (fun q => (G q).dphi) p ⟨h.dRdphi, h.dzdphi, h.dphi2⟩
/-- the same in spherical coordinates -/
def IsHessSph (G : PosSph → GradSph) (p : PosSph) (h : HessSph) : Prop :=
  IsGradSph (fun q => (G q).dr) p ⟨h.dr2, h.drdtheta, h.drdphi⟩ ∧
  IsGradSph (fun q => (G q).dtheta) p ⟨h.drdtheta, h.dtheta2, h.dthetadphi⟩ ∧
  IsGradSph (fun q => (G q).dphi) p ⟨h.drdphi, h.dthetadphi, h.dphi2⟩

/-! ## these notions are the usual ones -/

/-- Fréchet differentiability gives `IsGradCar`; the components are the partial derivatives -/
theorem isGradCar_of_hasFDerivAt {F : PosCar → ℝ} {p : PosCar} {L : ℝ × ℝ × ℝ →L[ℝ] ℝ}
    (h : HasFDerivAt (fun v : ℝ × ℝ × ℝ => F ⟨v.1, v.2.1, v.2.2⟩) L (p.x, p.y, p.z)) :
    IsGradCar F p ⟨L (1, 0, 0), L (0, 1, 0), L (0, 0, 1)⟩ := by
  intro x y z x' y' z' t hx hy hz hp
  have e : (p.x, p.y, p.z) = (x t, y t, z t) := by rw [← hp]
  rw [e] at h
  have hc : HasDerivAt (fun s => (x s, y s, z s)) (x', y', z') t := hx.prodMk (hy.prodMk hz)
  have := h.comp_hasDerivAt t hc
  refine this.congr_deriv ?_
  have : ((x', y', z') : ℝ × ℝ × ℝ) = x' • (1, 0, 0) + y' • (0, 1, 0) + z' • (0, 0, 1) := by simp
  rw [this, map_add, map_add, map_smul, map_smul, map_smul]
  simp only [smul_eq_mul]; ring

/-- Fréchet differentiability gives `IsGradCyl`; the components are the partial derivatives -/
theorem isGradCyl_of_hasFDerivAt {F : PosCyl → ℝ} {p : PosCyl} {L : ℝ × ℝ × ℝ →L[ℝ] ℝ}
    (h : HasFDerivAt (fun v : ℝ × ℝ × ℝ => F ⟨v.1, v.2.1, v.2.2⟩) L (p.R, p.z, p.phi)) :
    IsGradCyl F p ⟨L (1, 0, 0), L (0, 1, 0), L (0, 0, 1)⟩ := by
  intro x y z x' y' z' t hx hy hz hp
  have e : (p.R, p.z, p.phi) = (x t, y t, z t) := by rw [← hp]
  rw [e] at h
  have hc : HasDerivAt (fun s => (x s, y s, z s)) (x', y', z') t := hx.prodMk (hy.prodMk hz)
  have := h.comp_hasDerivAt t hc
  refine this.congr_deriv ?_
  have : ((x', y', z') : ℝ × ℝ × ℝ) = x' • (1, 0, 0) + y' • (0, 1, 0) + z' • (0, 0, 1) := by simp
  rw [this, map_add, map_add, map_smul, map_smul, map_smul]
  simp only [smul_eq_mul]; ring

/-- Fréchet differentiability gives `IsGradSph`; the components are the partial derivatives -/
theorem isGradSph_of_hasFDerivAt {F : PosSph → ℝ} {p : PosSph} {L : ℝ × ℝ × ℝ →L[ℝ] ℝ}
    (h : HasFDerivAt (fun v : ℝ × ℝ × ℝ => F ⟨v.1, v.2.1, v.2.2⟩) L (p.r, p.theta, p.phi)) :
    IsGradSph F p ⟨L (1, 0, 0), L (0, 1, 0), L (0, 0, 1)⟩ := by
  intro x y z x' y' z' t hx hy hz hp
  have e : (p.r, p.theta, p.phi) = (x t, y t, z t) := by rw [← hp]
  rw [e] at h
  have hc : HasDerivAt (fun s => (x s, y s, z s)) (x', y', z') t := hx.prodMk (hy.prodMk hz)
  have := h.comp_hasDerivAt t hc
  refine this.congr_deriv ?_
  have : ((x', y', z') : ℝ × ℝ × ℝ) = x' • (1, 0, 0) + y' • (0, 1, 0) + z' • (0, 0, 1) := by simp
  rw [this, map_add, map_add, map_smul, map_smul, map_smul]
  simp only [smul_eq_mul]; ring

/-- `IsGradCar` determines the partial derivatives -/
theorem IsGradCar.partials {F : PosCar → ℝ} {p : PosCar} {g : GradCar} (h : IsGradCar F p g) :
    HasDerivAt (fun x => F ⟨x, p.y, p.z⟩) g.dx p.x ∧ HasDerivAt (fun y => F ⟨p.x, y, p.z⟩) g.dy p.y ∧
    HasDerivAt (fun z => F ⟨p.x, p.y, z⟩) g.dz p.z := by
  refine ⟨?_, ?_, ?_⟩
  · simpa using h _ _ _ _ _ _ p.x (hasDerivAt_id p.x) (hasDerivAt_const p.x p.y) (hasDerivAt_const p.x p.z) rfl
  · simpa using h _ _ _ _ _ _ p.y (hasDerivAt_const p.y p.x) (hasDerivAt_id p.y) (hasDerivAt_const p.y p.z) rfl
  · simpa using h _ _ _ _ _ _ p.z (hasDerivAt_const p.z p.x) (hasDerivAt_const p.z p.y) (hasDerivAt_id p.z) rfl

/-- an ordinary derivative is an angle derivative -/
theorem HasDerivAt.angle {φ : ℝ → ℝ} {φ' t : ℝ} (h : HasDerivAt φ φ' t) : HasAngleDerivAt φ φ' t :=
  ⟨φ, h, rfl, Filter.Eventually.of_forall fun s => ⟨0, by simp⟩⟩

theorem HasAngleDerivAt.congr_deriv {φ : ℝ → ℝ} {a b t : ℝ} (h : HasAngleDerivAt φ a t) (e : a = b) :
    HasAngleDerivAt φ b t := e ▸ h

/-- the angle derivative determines the derivative of cosine and sine -/
theorem HasAngleDerivAt.cos_sin {φ : ℝ → ℝ} {φ' t : ℝ} (h : HasAngleDerivAt φ φ' t) :
    HasDerivAt (fun s => cos (φ s)) (-sin (φ t) * φ') t ∧ HasDerivAt (fun s => sin (φ s)) (cos (φ t) * φ') t := by
  obtain ⟨ψ, h1, h2, h3⟩ := h
  rw [← h2]
  constructor
  · refine h1.cos.congr_of_eventuallyEq ?_
    filter_upwards [h3] with s hs
    obtain ⟨k, hk⟩ := hs
    rw [hk, cos_add_int_mul_two_pi]
  · refine h1.sin.congr_of_eventuallyEq ?_
    filter_upwards [h3] with s hs
    obtain ⟨k, hk⟩ := hs
    rw [hk, sin_add_int_mul_two_pi]

theorem PeriodicCyl.int {α : Type} {F : PosCyl → α} (h : PeriodicCyl F) (R z phi : ℝ) (k : ℤ) :
    F ⟨R, z, phi + k * (2 * π)⟩ = F ⟨R, z, phi⟩ := by
  have hp : Function.Periodic (fun phi => F ⟨R, z, phi⟩) (2 * π) := fun phi => h R z phi
  exact hp.int_mul k phi

theorem PeriodicSph.int {α : Type} {F : PosSph → α} (h : PeriodicSph F) (r th phi : ℝ) (k : ℤ) :
    F ⟨r, th, phi + k * (2 * π)⟩ = F ⟨r, th, phi⟩ := by
  have hp : Function.Periodic (fun phi => F ⟨r, th, phi⟩) (2 * π) := fun phi => h r th phi
  exact hp.int_mul k phi

/-- a periodic function may be followed along a curve whose azimuth is only defined modulo 2π -/
theorem IsGradCyl.angle {F : PosCyl → ℝ} {p : PosCyl} {g : GradCyl} (h : IsGradCyl F p g) (hF : PeriodicCyl F)
    {R z phi : ℝ → ℝ} {R' z' phi' t : ℝ} (hR : HasDerivAt R R' t) (hz : HasDerivAt z z' t)
    (hphi : HasAngleDerivAt phi phi' t) (hp : (⟨R t, z t, phi t⟩ : PosCyl) = p) :
    HasDerivAt (fun s => F ⟨R s, z s, phi s⟩) (g.dR * R' + g.dz * z' + g.dphi * phi') t := by
  obtain ⟨ψ, h1, h2, h3⟩ := hphi
  refine (h R z ψ R' z' phi' t hR hz h1 (by rw [h2]; exact hp)).congr_of_eventuallyEq ?_
  filter_upwards [h3] with s hs
  obtain ⟨k, hk⟩ := hs
  rw [hk]; exact hF.int _ _ _ _

/-- a periodic function may be followed along a curve whose azimuth is only defined modulo 2π -/
theorem IsGradSph.angle {F : PosSph → ℝ} {p : PosSph} {g : GradSph} (h : IsGradSph F p g) (hF : PeriodicSph F)
    {r th phi : ℝ → ℝ} {r' th' phi' t : ℝ} (hr : HasDerivAt r r' t) (ht : HasDerivAt th th' t)
    (hphi : HasAngleDerivAt phi phi' t) (hp : (⟨r t, th t, phi t⟩ : PosSph) = p) :
    HasDerivAt (fun s => F ⟨r s, th s, phi s⟩) (g.dr * r' + g.dtheta * th' + g.dphi * phi') t := by
  obtain ⟨ψ, h1, h2, h3⟩ := hphi
  refine (h r th ψ r' th' phi' t hr ht h1 (by rw [h2]; exact hp)).congr_of_eventuallyEq ?_
  filter_upwards [h3] with s hs
  obtain ⟨k, hk⟩ := hs
  rw [hk]; exact hF.int _ _ _ _

/-- the azimuth of a moving point, at every point off the axis including the branch cut -/
theorem hasAngleDerivAt_atan2 {x y : ℝ → ℝ} {x' y' t : ℝ} (hx : HasDerivAt x x' t) (hy : HasDerivAt y y' t)
    (h : ¬(x t = 0 ∧ y t = 0)) :
    HasAngleDerivAt (fun s => atan2 (y s) (x s)) ((x t * y' - y t * x') / (x t ^ 2 + y t ^ 2)) t := by
  have hR : √(x t ^ 2 + y t ^ 2) ≠ 0 := fun h0 => h (sum_sq_eq_zero h0)
  have hs0 := sq_sqrt_add (x t) (y t)
  have hn : x t ^ 2 + y t ^ 2 ≠ 0 := by rw [← hs0]; positivity
  have hn' : 0 < x t ^ 2 + y t ^ 2 := by positivity
  set x0 := x t with hx0
  set y0 := y t with hy0
  have hu : HasDerivAt (fun s => x s * x0 + y s * y0) (x' * x0 + y' * y0) t :=
    (hx.mul_const _).add (hy.mul_const _)
  have hv : HasDerivAt (fun s => y s * x0 - x s * y0) (y' * x0 - x' * y0) t :=
    (hy.mul_const _).sub (hx.mul_const _)
  have hd := hasDerivAt_atan2 hu hv (Or.inl (by
    show 0 < x t * x0 + y t * y0
    rw [← hx0, ← hy0]; nlinarith))
  refine ⟨fun s => atan2 y0 x0 + atan2 (y s * x0 - x s * y0) (x s * x0 + y s * y0), ?_, ?_, ?_⟩
  · refine (hd.const_add _).congr_deriv ?_
    have e1 : x t * x0 + y t * y0 = x0 ^ 2 + y0 ^ 2 := by rw [← hx0, ← hy0]; ring
    have e2 : y t * x0 - x t * y0 = 0 := by rw [← hx0, ← hy0]; ring
    rw [e1, e2]; field_simp; ring
  · show atan2 y0 x0 + atan2 (y t * x0 - x t * y0) (x t * x0 + y t * y0) = atan2 y0 x0
    have e1 : x t * x0 + y t * y0 = x0 ^ 2 + y0 ^ 2 := by rw [← hx0, ← hy0]; ring
    have e2 : y t * x0 - x t * y0 = 0 := by rw [← hx0, ← hy0]; ring
    rw [e1, e2]
    have : atan2 0 (x0 ^ 2 + y0 ^ 2) = 0 := by
      have := atan2_polar hn' (φ := 0) (by linarith [pi_pos]) pi_pos.le
      simpa using this
    rw [this, add_zero]
  · have hev : ∀ᶠ s in nhds t, √(x s ^ 2 + y s ^ 2) ≠ 0 :=
      (hasDerivAt_sqrt2 hx hy hR).continuousAt.eventually_ne hR
    filter_upwards [hev] with s hs
    have hρ : √((x s * x0 + y s * y0) ^ 2 + (y s * x0 - x s * y0) ^ 2) = √(x s ^ 2 + y s ^ 2) * √(x0 ^ 2 + y0 ^ 2) := by
      rw [← sqrt_mul (by positivity)]; congr 1; ring
    have hρ0 : √((x s * x0 + y s * y0) ^ 2 + (y s * x0 - x s * y0) ^ 2) ≠ 0 := by rw [hρ]; exact mul_ne_zero hs hR
    have c1 := cos_atan2 _ _ hρ0
    have c2 := sin_atan2 _ _ hρ0
    rw [hρ] at c1 c2
    have d1 := cos_atan2 _ _ hR
    have d2 := sin_atan2 _ _ hR
    apply angle_unique
    · rw [cos_add, c1, c2, d1, d2, cos_atan2 _ _ hs]
      field_simp
      rw [hs0]; ring
    · rw [sin_add, c1, c2, d1, d2, sin_atan2 _ _ hs]
      field_simp
      rw [hs0]; ring

end Verif.Coord
