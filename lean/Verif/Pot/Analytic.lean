import Verif.Pot.Radial

/-!
# C62, C63 (non-spherical part): Miyamoto–Nagai, logarithmic, harmonic potentials; binary black hole (C66)

Models `/repo/src/potential_analytic.cpp:78-222`.  Number model (E).
-/

namespace Verif.Pot

open Real Verif.Coord

/-- outputs of `evalCar` -/
structure OutCar where (pot : ℝ) (grad : GradCar) (hess : HessCar)
/-- outputs of `evalCyl` -/
structure OutCyl where (pot : ℝ) (grad : GradCyl) (hess : HessCyl)
/-- outputs of `evalSph` -/
structure OutSph where (pot : ℝ) (grad : GradSph) (hess : HessSph)

/-- potential_analytic.cpp:78-102 -/
noncomputable def miyamotoNagai (mass A B : ℝ) (pos : PosCyl) : OutCyl :=
  let zb := √(pos.z ^ 2 + B ^ 2)
  let azb2 := (A + zb) ^ 2
  let den2 := 1 / (pos.R ^ 2 + azb2)
  let denom := √den2
  let Rsc := pos.R * denom
  let zsc := pos.z * denom
  let mden3 := mass * denom * den2
  { pot := -mass * denom
    grad := ⟨mass * den2 * Rsc, mass * den2 * zsc * (1 + A / zb), 0⟩
    hess :=
    { dR2 := mden3 * (azb2 * den2 - 2 * Rsc ^ 2)
      dz2 := mden3 * ((Rsc ^ 2 - 2 * azb2 * den2) * (pos.z / zb) ^ 2 +
        B ^ 2 * (A / zb + 1) * (Rsc ^ 2 + azb2 * den2) / zb ^ 2)
      dRdz := mden3 * -3 * Rsc * zsc * (A / zb + 1)
      dRdphi := 0, dzdphi := 0, dphi2 := 0 } }

/-- potential_analytic.cpp:104-112 -/
noncomputable def miyamotoNagaiDens (mass A B : ℝ) (pos : PosCyl) : ℝ :=
  let zb := √(pos.z ^ 2 + B ^ 2)
  let azb2 := (A + zb) ^ 2
  1 / 4 / π * mass * B ^ 2 * (A * pos.R ^ 2 + (A + 3 * zb) * azb2) /
    (zb ^ 3 * √(pos.R ^ 2 + azb2) * (pos.R ^ 2 + azb2) ^ 2)

/-- potential_analytic.cpp:114-133; the arguments are the squared quantities stored by the constructor (potential_analytic.h:103-107) -/
noncomputable def logarithmic (v0squared coreRadius2 p2 q2 lengthUnit2 : ℝ) (pos : PosCar) : OutCar :=
  let m2 := coreRadius2 + pos.x ^ 2 + pos.y ^ 2 / p2 + pos.z ^ 2 / q2
  { pot := 0.5 * v0squared * log (m2 / lengthUnit2)
    grad := ⟨pos.x * v0squared / m2, pos.y * v0squared / m2 / p2, pos.z * v0squared / m2 / q2⟩
    hess :=
    { dx2 := v0squared * (1 / m2 - 2 * (pos.x / m2) ^ 2)
      dy2 := v0squared * (1 / m2 / p2 - 2 * (pos.y / (m2 * p2)) ^ 2)
      dz2 := v0squared * (1 / m2 / q2 - 2 * (pos.z / (m2 * q2)) ^ 2)
      dxdy := -v0squared * pos.x * pos.y * 2 / (m2 ^ 2 * p2)
      dydz := -v0squared * pos.y * pos.z * 2 / (m2 ^ 2 * p2 * q2)
      dxdz := -v0squared * pos.z * pos.x * 2 / (m2 ^ 2 * q2) } }

/-- potential_analytic.cpp:135-148 -/
noncomputable def harmonic (Omega2 p2 q2 : ℝ) (pos : PosCar) : OutCar :=
  { pot := 0.5 * Omega2 * (pos.x ^ 2 + pos.y ^ 2 / p2 + pos.z ^ 2 / q2)
    grad := ⟨pos.x * Omega2, pos.y * Omega2 / p2, pos.z * Omega2 / q2⟩
    hess := { dx2 := Omega2, dy2 := Omega2 / p2, dz2 := Omega2 / q2, dxdy := 0, dydz := 0, dxdz := 0 } }

/-! ## specification -/

/-- at `p`, the reported gradient is the gradient of the reported potential, and the reported Hessian is the derivative of the reported
gradient -/
def OkCar (P : PosCar → OutCar) (p : PosCar) : Prop :=
  IsGradCar (fun q => (P q).pot) p (P p).grad ∧ IsHessCar (fun q => (P q).grad) p (P p).hess
/-- the same in cylindrical coordinates -/
def OkCyl (P : PosCyl → OutCyl) (p : PosCyl) : Prop :=
  IsGradCyl (fun q => (P q).pot) p (P p).grad ∧ IsHessCyl (fun q => (P q).grad) p (P p).hess
/-- the same in spherical coordinates -/
def OkSph (P : PosSph → OutSph) (p : PosSph) : Prop :=
  IsGradSph (fun q => (P q).pot) p (P p).grad ∧ IsHessSph (fun q => (P q).grad) p (P p).hess

/-! ## Miyamoto–Nagai -/

/-- C62, Miyamoto–Nagai: at every point where the potential is smooth (not on the plane z=0 if B=0) -/
theorem C62_miyamotoNagai (mass A B : ℝ) (pos : PosCyl) (hA : 0 ≤ A) (h : 0 < pos.z ^ 2 + B ^ 2) :
    OkCyl (miyamotoNagai mass A B) pos := by
  -- derivatives of the auxiliary quantities along a curve
  have aux : ∀ (R z : ℝ → ℝ) (R' z' t : ℝ), HasDerivAt R R' t → HasDerivAt z z' t → 0 < z t ^ 2 + B ^ 2 →
      HasDerivAt (fun s => √(z s ^ 2 + B ^ 2)) (z t * z' / √(z t ^ 2 + B ^ 2)) t ∧
      HasDerivAt (fun s => R s ^ 2 + (A + √(z s ^ 2 + B ^ 2)) ^ 2)
        (2 * (R t * R' + (A + √(z t ^ 2 + B ^ 2)) * (z t * z' / √(z t ^ 2 + B ^ 2)))) t ∧
      0 < R t ^ 2 + (A + √(z t ^ 2 + B ^ 2)) ^ 2 := by
    intro R z R' z' t hR hz hp
    have h1 : HasDerivAt (fun s => √(z s ^ 2 + B ^ 2)) (z t * z' / √(z t ^ 2 + B ^ 2)) t := by
      refine (((hz.pow 2).add_const (B ^ 2)).sqrt hp.ne').congr_deriv ?_
      have := (sqrt_pos.mpr hp).ne'
      simp only [Pi.pow_apply]
      field_simp; ring
    refine ⟨h1, ?_, ?_⟩
    · refine ((hR.pow 2).add ((h1.const_add A).pow 2)).congr_deriv ?_
      push_cast; ring
    · have := sqrt_pos.mpr hp
      have : 0 < A + √(z t ^ 2 + B ^ 2) := by linarith
      positivity
  refine ⟨?_, ?_, ?_, ?_⟩
  · intro R z phi R' z' phi' t hR hz hphi e
    subst e
    obtain ⟨hzb, hu, hup⟩ := aux R z R' z' t hR hz h
    have hw := hasDerivAt_sqrt_inv hu hup
    simp only [miyamotoNagai]
    refine (hw.const_mul (-mass)).congr_deriv ?_
    generalize √(1 / (R t ^ 2 + (A + √(z t ^ 2 + B ^ 2)) ^ 2)) = w at *
    have := (sqrt_pos.mpr h).ne'
    have := hup.ne'
    generalize √(z t ^ 2 + B ^ 2) = zb at *
    field_simp
    ring
  · intro R z phi R' z' phi' t hR hz hphi e
    subst e
    obtain ⟨hzb, hu, hup⟩ := aux R z R' z' t hR hz h
    have hw := hasDerivAt_sqrt_inv hu hup
    have hi := (hasDerivAt_const t (1 : ℝ)).div hu hup.ne'
    simp only [miyamotoNagai]
    refine ((hi.const_mul mass).mul (hR.mul hw)).congr_deriv ?_
    simp only [Pi.mul_apply, Pi.div_apply]
    have hws : √(1 / (R t ^ 2 + (A + √(z t ^ 2 + B ^ 2)) ^ 2)) ^ 2 = 1 / (R t ^ 2 + (A + √(z t ^ 2 + B ^ 2)) ^ 2) := sq_sqrt (by positivity)
    generalize √(1 / (R t ^ 2 + (A + √(z t ^ 2 + B ^ 2)) ^ 2)) = w at *
    have := (sqrt_pos.mpr h).ne'
    have := hup.ne'
    generalize √(z t ^ 2 + B ^ 2) = zb at *
    have h3 : mass * w * (1 / (R t ^ 2 + (A + zb) ^ 2)) * -3 * (R t * w) * (z t * w) =
      mass * w * (1 / (R t ^ 2 + (A + zb) ^ 2)) * -3 * R t * z t * (1 / (R t ^ 2 + (A + zb) ^ 2)) := by
      rw [mul_assoc, show R t * w = R t * w from rfl, ← hws]; ring
    rw [h3]
    simp only [mul_pow, hws]
    field_simp
    ring
  · intro R z phi R' z' phi' t hR hz hphi e
    subst e
    obtain ⟨hzb, hu, hup⟩ := aux R z R' z' t hR hz h
    have hw := hasDerivAt_sqrt_inv hu hup
    have hi := (hasDerivAt_const t (1 : ℝ)).div hu hup.ne'
    have hzp := (sqrt_pos.mpr h).ne'
    have ha := ((hasDerivAt_const t A).div hzb hzp).const_add 1
    simp only [miyamotoNagai]
    refine (((hi.const_mul mass).mul (hz.mul hw)).mul ha).congr_deriv ?_
    simp only [Pi.mul_apply, Pi.div_apply]
    have hws : √(1 / (R t ^ 2 + (A + √(z t ^ 2 + B ^ 2)) ^ 2)) ^ 2 = 1 / (R t ^ 2 + (A + √(z t ^ 2 + B ^ 2)) ^ 2) := sq_sqrt (by positivity)
    have hzs : √(z t ^ 2 + B ^ 2) ^ 2 = z t ^ 2 + B ^ 2 := sq_sqrt h.le
    generalize √(1 / (R t ^ 2 + (A + √(z t ^ 2 + B ^ 2)) ^ 2)) = w at *
    have := hup.ne'
    generalize √(z t ^ 2 + B ^ 2) = zb at *
    have h3 : mass * w * (1 / (R t ^ 2 + (A + zb) ^ 2)) * -3 * (R t * w) * (z t * w) =
      mass * w * (1 / (R t ^ 2 + (A + zb) ^ 2)) * -3 * R t * z t * (1 / (R t ^ 2 + (A + zb) ^ 2)) := by
      rw [← hws]; ring
    rw [h3]
    have hB : B ^ 2 = zb ^ 2 - z t ^ 2 := by linarith
    simp only [mul_pow, hws, hB]
    field_simp
    ring
  · intro R z phi R' z' phi' t hR hz hphi e
    subst e
    simp only [miyamotoNagai]
    simpa using hasDerivAt_const t (0 : ℝ)

/-- C63, Miyamoto–Nagai: the explicit density is 1/(4π) times the Laplacian ∂²Φ/∂R² + ∂Φ/∂R/R + ∂²Φ/∂z² off the symmetry axis -/
theorem C63_miyamotoNagai (mass A B : ℝ) (pos : PosCyl) (hA : 0 ≤ A) (h : 0 < pos.z ^ 2 + B ^ 2) (hR : pos.R ≠ 0) :
    let o := miyamotoNagai mass A B pos
    miyamotoNagaiDens mass A B pos = (o.hess.dR2 + o.grad.dR / pos.R + o.hess.dz2 + o.hess.dphi2 / pos.R ^ 2) / (4 * π) := by
  obtain ⟨R, z, phi⟩ := pos
  simp only [miyamotoNagai, miyamotoNagaiDens] at *
  have hpi := pi_pos.ne'
  have hzp := (sqrt_pos.mpr h)
  have hzs : √(z ^ 2 + B ^ 2) ^ 2 = z ^ 2 + B ^ 2 := sq_sqrt h.le
  generalize √(z ^ 2 + B ^ 2) = zb at *
  have hup : 0 < R ^ 2 + (A + zb) ^ 2 := by positivity
  have hw : √(1 / (R ^ 2 + (A + zb) ^ 2)) = 1 / √(R ^ 2 + (A + zb) ^ 2) := by rw [sqrt_div' _ hup.le, sqrt_one]
  have hs : √(R ^ 2 + (A + zb) ^ 2) ^ 2 = R ^ 2 + (A + zb) ^ 2 := sq_sqrt hup.le
  have hsp := sqrt_pos.mpr hup
  rw [hw]
  generalize √(R ^ 2 + (A + zb) ^ 2) = u at *
  have hu2 : R ^ 2 = u ^ 2 - (A + zb) ^ 2 := by linarith
  have hz2 : z ^ 2 = zb ^ 2 - B ^ 2 := by linarith
  have hzp' := hzp.ne'
  have hsp' := hsp.ne'
  rw [← hs]
  field_simp
  rw [hu2, hz2]
  ring

/-- C63, Miyamoto–Nagai, on the symmetry axis (where ∂Φ/∂R/R has the limit ∂²Φ/∂R²) -/
theorem C63_miyamotoNagai_axis (mass A B z phi : ℝ) (hA : 0 ≤ A) (h : 0 < z ^ 2 + B ^ 2) :
    let o := miyamotoNagai mass A B ⟨0, z, phi⟩
    miyamotoNagaiDens mass A B ⟨0, z, phi⟩ = (2 * o.hess.dR2 + o.hess.dz2) / (4 * π) := by
  simp only [miyamotoNagai, miyamotoNagaiDens] at *
  have hpi := pi_pos.ne'
  have hzp := (sqrt_pos.mpr h)
  have hzs : √(z ^ 2 + B ^ 2) ^ 2 = z ^ 2 + B ^ 2 := sq_sqrt h.le
  generalize √(z ^ 2 + B ^ 2) = zb at *
  have hup : 0 < 0 ^ 2 + (A + zb) ^ 2 := by positivity
  have hw : √(1 / (0 ^ 2 + (A + zb) ^ 2)) = 1 / (A + zb) := by
    rw [show (1 : ℝ) / (0 ^ 2 + (A + zb) ^ 2) = (1 / (A + zb)) ^ 2 by rw [div_pow]; ring, sqrt_sq (by positivity)]
  have hw2 : √(0 ^ 2 + (A + zb) ^ 2) = A + zb := by
    rw [show (0 : ℝ) ^ 2 + (A + zb) ^ 2 = (A + zb) ^ 2 by ring, sqrt_sq (by positivity)]
  rw [hw, hw2]
  have hz2 : z ^ 2 = zb ^ 2 - B ^ 2 := by linarith
  have h1 : A + zb ≠ 0 := by positivity
  simp only [ne_eq, OfNat.ofNat_ne_zero, not_false_eq_true, zero_pow, zero_add, zero_mul]
  field_simp
  rw [hz2]
  ring

/-! ## logarithmic and harmonic -/

/-- C62, logarithmic potential: wherever the argument of the logarithm is positive -/
theorem C62_logarithmic (v c p2 q2 L : ℝ) (pos : PosCar) (hp : p2 ≠ 0) (hq : q2 ≠ 0) (hL : L ≠ 0)
    (hm : c + pos.x ^ 2 + pos.y ^ 2 / p2 + pos.z ^ 2 / q2 ≠ 0) : OkCar (logarithmic v c p2 q2 L) pos := by
  have aux : ∀ (x y z : ℝ → ℝ) (x' y' z' t : ℝ), HasDerivAt x x' t → HasDerivAt y y' t → HasDerivAt z z' t →
      HasDerivAt (fun s => c + x s ^ 2 + y s ^ 2 / p2 + z s ^ 2 / q2) (2 * (x t * x' + y t * y' / p2 + z t * z' / q2)) t := by
    intro x y z x' y' z' t hx hy hz
    refine ((((hx.pow 2).const_add c).add ((hy.pow 2).div_const p2)).add ((hz.pow 2).div_const q2)).congr_deriv ?_
    push_cast; ring
  refine ⟨?_, ?_, ?_, ?_⟩ <;> intro x y z x' y' z' t hx hy hz e <;> subst e <;> have hM := aux x y z x' y' z' t hx hy hz
  · simp only [logarithmic] at *
    refine (((hM.div_const L).log (div_ne_zero hm hL)).const_mul (0.5 * v)).congr_deriv ?_
    generalize c + x t ^ 2 + y t ^ 2 / p2 + z t ^ 2 / q2 = m at *
    field_simp; ring
  · simp only [logarithmic] at *
    refine ((hx.mul_const v).div hM hm).congr_deriv ?_
    generalize c + x t ^ 2 + y t ^ 2 / p2 + z t ^ 2 / q2 = m at *
    field_simp; ring
  · simp only [logarithmic] at *
    refine (((hy.mul_const v).div hM hm).div_const p2).congr_deriv ?_
    generalize c + x t ^ 2 + y t ^ 2 / p2 + z t ^ 2 / q2 = m at *
    field_simp; ring
  · simp only [logarithmic] at *
    refine (((hz.mul_const v).div hM hm).div_const q2).congr_deriv ?_
    generalize c + x t ^ 2 + y t ^ 2 / p2 + z t ^ 2 / q2 = m at *
    field_simp; ring

/-- C62, harmonic potential -/
theorem C62_harmonic (O2 p2 q2 : ℝ) (pos : PosCar) : OkCar (harmonic O2 p2 q2) pos := by
  refine ⟨?_, ?_, ?_, ?_⟩ <;> intro x y z x' y' z' t hx hy hz e <;> subst e <;> simp only [harmonic] at *
  · refine ((((hx.pow 2).add ((hy.pow 2).div_const p2)).add ((hz.pow 2).div_const q2)).const_mul (0.5 * O2)).congr_deriv ?_
    push_cast; ring
  · exact (hx.mul_const O2).congr_deriv (by ring)
  · exact ((hy.mul_const O2).div_const p2).congr_deriv (by ring)
  · exact ((hz.mul_const O2).div_const q2).congr_deriv (by ring)

example : OkCyl (miyamotoNagai 1 3 1) ⟨2, 0, 0⟩ := C62_miyamotoNagai 1 3 1 _ (by norm_num) (by norm_num)
example : OkCar (logarithmic 1 0 0.81 0.64 1) ⟨1, 2, 3⟩ :=
  C62_logarithmic 1 0 0.81 0.64 1 _ (by norm_num) (by norm_num) (by norm_num) (by norm_num)

end Verif.Pot
