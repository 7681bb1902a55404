import Verif.Coord.DerivSpec

/-!
# C56: the derivatives returned by `toPosDeriv` are the derivatives of the coordinate transformation

Every statement is about an arbitrary curve through the point: the rates of change of the transformed coordinates
(first derivatives) and of the reported first derivatives (second derivatives) are given by the reported numbers.
Taking a curve along one coordinate axis gives the partial derivatives.
-/

namespace Verif.Coord

open Real

/-- Cartesian → cylindrical, off the z axis -/
theorem C56_car_cyl {x y z : ℝ → ℝ} {x' y' z' t : ℝ}
    (hx : HasDerivAt x x' t) (hy : HasDerivAt y y' t) (hz : HasDerivAt z z' t) (h : ¬(x t = 0 ∧ y t = 0)) :
    let p : ℝ → PosCar := fun s => ⟨x s, y s, z s⟩
    let d := derivCarCyl (p t)
    let d2 := deriv2CarCyl (p t)
    HasDerivAt (fun s => (carToCyl (p s)).R) (d.dRdx * x' + d.dRdy * y') t ∧
    HasDerivAt (fun s => (carToCyl (p s)).z) z' t ∧
    HasAngleDerivAt (fun s => (carToCyl (p s)).phi) (d.dphidx * x' + d.dphidy * y') t ∧
    HasDerivAt (fun s => (derivCarCyl (p s)).dRdx) (d2.d2Rdx2 * x' + d2.d2Rdxdy * y') t ∧
    HasDerivAt (fun s => (derivCarCyl (p s)).dRdy) (d2.d2Rdxdy * x' + d2.d2Rdy2 * y') t ∧
    HasDerivAt (fun s => (derivCarCyl (p s)).dphidx) (d2.d2phidx2 * x' + d2.d2phidxdy * y') t ∧
    HasDerivAt (fun s => (derivCarCyl (p s)).dphidy) (d2.d2phidxdy * x' + d2.d2phidy2 * y') t := by
  have hR : ¬ √(x t ^ 2 + y t ^ 2) = 0 := fun h0 => h (sum_sq_eq_zero h0)
  have hs := sq_sqrt_add (x t) (y t)
  have hn : x t ^ 2 + y t ^ 2 ≠ 0 := by rw [← hs]; positivity
  have hdR := hasDerivAt_sqrt2 hx hy hR
  have hev : ∀ᶠ s in nhds t, √(x s ^ 2 + y s ^ 2) ≠ 0 := hdR.continuousAt.eventually_ne hR
  have e : ∀ s, √(x s ^ 2 + y s ^ 2) ≠ 0 → derivCarCyl ⟨x s, y s, z s⟩ =
      ⟨x s / √(x s ^ 2 + y s ^ 2), y s / √(x s ^ 2 + y s ^ 2),
       -(y s / √(x s ^ 2 + y s ^ 2)) / √(x s ^ 2 + y s ^ 2), x s / √(x s ^ 2 + y s ^ 2) / √(x s ^ 2 + y s ^ 2)⟩ := by
    intro s hs; simp only [derivCarCyl, hs, if_false]
  have hcos := hx.div hdR hR
  have hsin := hy.div hdR hR
  intro p d d2
  have hd : d = _ := e t hR
  have hd2 : d2 = deriv2CarCyl (p t) := rfl
  simp only [p, deriv2CarCyl, hR, if_false] at hd2
  rw [hd, hd2]
  refine ⟨?_, hz, ?_, ?_, ?_, ?_, ?_⟩
  · refine hdR.congr_deriv ?_; simp only; ring
  · refine (hasAngleDerivAt_atan2 hx hy h).congr_deriv ?_
    simp only; field_simp; rw [hs]; ring
  · refine (hcos.congr_of_eventuallyEq (by filter_upwards [hev] with s hs; simp only [p]; rw [e s hs]; rfl)).congr_deriv ?_
    simp only; field_simp; rw [hs]; ring
  · refine (hsin.congr_of_eventuallyEq (by filter_upwards [hev] with s hs; simp only [p]; rw [e s hs]; rfl)).congr_deriv ?_
    simp only; field_simp; rw [hs]; ring
  · refine ((hsin.neg.div hdR hR).congr_of_eventuallyEq
      (by filter_upwards [hev] with s hs; simp only [p]; rw [e s hs]; rfl)).congr_deriv ?_
    simp only [Pi.neg_apply, Pi.div_apply]; field_simp; rw [hs]; ring
  · refine ((hcos.div hdR hR).congr_of_eventuallyEq
      (by filter_upwards [hev] with s hs; simp only [p]; rw [e s hs]; rfl)).congr_deriv ?_
    simp only [Pi.div_apply]; field_simp; rw [hs]; ring

/-- cylindrical → Cartesian, everywhere -/
theorem C56_cyl_car {R z phi : ℝ → ℝ} {R' z' phi' t : ℝ}
    (hR : HasDerivAt R R' t) (hz : HasDerivAt z z' t) (hphi : HasDerivAt phi phi' t) :
    let p : ℝ → PosCyl := fun s => ⟨R s, z s, phi s⟩
    let d := derivCylCar (p t)
    let d2 := deriv2CylCar (p t)
    HasDerivAt (fun s => (cylToCar (p s)).x) (d.dxdR * R' + d.dxdphi * phi') t ∧
    HasDerivAt (fun s => (cylToCar (p s)).y) (d.dydR * R' + d.dydphi * phi') t ∧
    HasDerivAt (fun s => (cylToCar (p s)).z) z' t ∧
    HasDerivAt (fun s => (derivCylCar (p s)).dxdR) (d2.d2xdRdphi * phi') t ∧
    HasDerivAt (fun s => (derivCylCar (p s)).dydR) (d2.d2ydRdphi * phi') t ∧
    HasDerivAt (fun s => (derivCylCar (p s)).dxdphi) (d2.d2xdRdphi * R' + d2.d2xdphi2 * phi') t ∧
    HasDerivAt (fun s => (derivCylCar (p s)).dydphi) (d2.d2ydRdphi * R' + d2.d2ydphi2 * phi') t := by
  intro p d d2
  refine ⟨?_, ?_, hz, ?_, ?_, ?_, ?_⟩
  · refine (hR.mul hphi.cos).congr_deriv ?_; simp only [d, derivCylCar, p]; ring
  · refine (hR.mul hphi.sin).congr_deriv ?_; simp only [d, derivCylCar, p]; ring
  · exact hphi.cos
  · exact hphi.sin
  · refine (hR.mul hphi.sin).neg.congr_deriv ?_; simp only [d2, deriv2CylCar, p]; ring
  · refine (hR.mul hphi.cos).congr_deriv ?_; simp only [d2, deriv2CylCar, p]; ring

/-- spherical → cylindrical, everywhere -/
theorem C56_sph_cyl {r th phi : ℝ → ℝ} {r' th' phi' t : ℝ}
    (hr : HasDerivAt r r' t) (ht : HasDerivAt th th' t) (hphi : HasDerivAt phi phi' t) :
    let p : ℝ → PosSph := fun s => ⟨r s, th s, phi s⟩
    let d := derivSphCyl (p t)
    let d2 := deriv2SphCyl (p t)
    HasDerivAt (fun s => (sphToCyl (p s)).R) (d.dRdr * r' + d.dRdtheta * th') t ∧
    HasDerivAt (fun s => (sphToCyl (p s)).z) (d.dzdr * r' + d.dzdtheta * th') t ∧
    HasDerivAt (fun s => (sphToCyl (p s)).phi) phi' t ∧
    HasDerivAt (fun s => (derivSphCyl (p s)).dRdr) (d2.d2Rdrdtheta * th') t ∧
    HasDerivAt (fun s => (derivSphCyl (p s)).dRdtheta) (d2.d2Rdrdtheta * r' + d2.d2Rdtheta2 * th') t ∧
    HasDerivAt (fun s => (derivSphCyl (p s)).dzdr) (d2.d2zdrdtheta * th') t ∧
    HasDerivAt (fun s => (derivSphCyl (p s)).dzdtheta) (d2.d2zdrdtheta * r' + d2.d2zdtheta2 * th') t := by
  intro p d d2
  refine ⟨?_, ?_, hphi, ?_, ?_, ?_, ?_⟩
  · refine (hr.mul ht.sin).congr_deriv ?_; simp only [d, derivSphCyl, p]; ring
  · refine (hr.mul ht.cos).congr_deriv ?_; simp only [d, derivSphCyl, p]; ring
  · exact ht.sin
  · refine (hr.mul ht.cos).congr_deriv ?_; simp only [d2, deriv2SphCyl, p]; ring
  · exact ht.cos
  · refine (hr.mul ht.sin).neg.congr_deriv ?_; simp only [d2, deriv2SphCyl, p]; ring

/-- spherical → Cartesian, everywhere -/
theorem C56_sph_car {r th phi : ℝ → ℝ} {r' th' phi' t : ℝ}
    (hr : HasDerivAt r r' t) (ht : HasDerivAt th th' t) (hphi : HasDerivAt phi phi' t) :
    let p : ℝ → PosSph := fun s => ⟨r s, th s, phi s⟩
    let d := derivSphCar (p t)
    let d2 := deriv2SphCar (p t)
    HasDerivAt (fun s => (sphToCar (p s)).x) (d.dxdr * r' + d.dxdtheta * th' + d.dxdphi * phi') t ∧
    HasDerivAt (fun s => (sphToCar (p s)).y) (d.dydr * r' + d.dydtheta * th' + d.dydphi * phi') t ∧
    HasDerivAt (fun s => (sphToCar (p s)).z) (d.dzdr * r' + d.dzdtheta * th') t ∧
    HasDerivAt (fun s => (derivSphCar (p s)).dxdr) (d2.d2xdrdtheta * th' + d2.d2xdrdphi * phi') t ∧
    HasDerivAt (fun s => (derivSphCar (p s)).dydr) (d2.d2ydrdtheta * th' + d2.d2ydrdphi * phi') t ∧
    HasDerivAt (fun s => (derivSphCar (p s)).dzdr) (d2.d2zdrdtheta * th') t ∧
    HasDerivAt (fun s => (derivSphCar (p s)).dxdtheta)
      (d2.d2xdrdtheta * r' + d2.d2xdtheta2 * th' + d2.d2xdthetadphi * phi') t ∧
    HasDerivAt (fun s => (derivSphCar (p s)).dydtheta)
      (d2.d2ydrdtheta * r' + d2.d2ydtheta2 * th' + d2.d2ydthetadphi * phi') t ∧
    HasDerivAt (fun s => (derivSphCar (p s)).dzdtheta) (d2.d2zdrdtheta * r' + d2.d2zdtheta2 * th') t ∧
    HasDerivAt (fun s => (derivSphCar (p s)).dxdphi)
      (d2.d2xdrdphi * r' + d2.d2xdthetadphi * th' + d2.d2xdphi2 * phi') t ∧
    HasDerivAt (fun s => (derivSphCar (p s)).dydphi)
      (d2.d2ydrdphi * r' + d2.d2ydthetadphi * th' + d2.d2ydphi2 * phi') t := by
  intro p d d2
  refine ⟨?_, ?_, ?_, ?_, ?_, ?_, ?_, ?_, ?_, ?_, ?_⟩
  · refine (hr.mul (ht.sin.mul hphi.cos)).congr_deriv ?_
    simp only [d, derivSphCar, p, Pi.mul_apply]; ring
  · refine (hr.mul (ht.sin.mul hphi.sin)).congr_deriv ?_
    simp only [d, derivSphCar, p, Pi.mul_apply]; ring
  · refine (hr.mul ht.cos).congr_deriv ?_
    simp only [d, derivSphCar, p]; ring
  · refine (ht.sin.mul hphi.cos).congr_deriv ?_
    simp only [d2, deriv2SphCar, p]; ring
  · refine (ht.sin.mul hphi.sin).congr_deriv ?_
    simp only [d2, deriv2SphCar, p]; ring
  · exact ht.cos
  · refine ((hr.mul ht.cos).mul hphi.cos).congr_deriv ?_
    simp only [d2, deriv2SphCar, p, Pi.mul_apply]; ring
  · refine ((hr.mul ht.cos).mul hphi.sin).congr_deriv ?_
    simp only [d2, deriv2SphCar, p, Pi.mul_apply]; ring
  · refine (hr.mul ht.sin).neg.congr_deriv ?_
    simp only [d2, deriv2SphCar, p]; ring
  · refine ((hr.mul ht.sin).mul hphi.sin).neg.congr_deriv ?_
    simp only [d2, deriv2SphCar, p, Pi.mul_apply]; ring
  · refine ((hr.mul ht.sin).mul hphi.cos).congr_deriv ?_
    simp only [d2, deriv2SphCar, p, Pi.mul_apply]; ring

/-- cylindrical → spherical, R>0 -/
theorem C56_cyl_sph {R z phi : ℝ → ℝ} {R' z' phi' t : ℝ}
    (hR : HasDerivAt R R' t) (hz : HasDerivAt z z' t) (hphi : HasDerivAt phi phi' t) (hp : 0 < R t) :
    let p : ℝ → PosCyl := fun s => ⟨R s, z s, phi s⟩
    let d := derivCylSph (p t)
    let d2 := deriv2CylSph (p t)
    HasDerivAt (fun s => (cylToSph (p s)).r) (d.drdR * R' + d.drdz * z') t ∧
    HasDerivAt (fun s => (cylToSph (p s)).theta) (d.dthetadR * R' + d.dthetadz * z') t ∧
    HasDerivAt (fun s => (cylToSph (p s)).phi) phi' t ∧
    HasDerivAt (fun s => (derivCylSph (p s)).drdR) (d2.d2rdR2 * R' + d2.d2rdRdz * z') t ∧
    HasDerivAt (fun s => (derivCylSph (p s)).drdz) (d2.d2rdRdz * R' + d2.d2rdz2 * z') t ∧
    HasDerivAt (fun s => (derivCylSph (p s)).dthetadR) (d2.d2thetadR2 * R' + d2.d2thetadRdz * z') t ∧
    HasDerivAt (fun s => (derivCylSph (p s)).dthetadz) (d2.d2thetadRdz * R' + d2.d2thetadz2 * z') t := by
  have hr : ¬ √(R t ^ 2 + z t ^ 2) = 0 := fun h0 => hp.ne' (sum_sq_eq_zero h0).1
  have hs := sq_sqrt_add (R t) (z t)
  have hn : R t ^ 2 + z t ^ 2 ≠ 0 := by positivity
  have hdr := hasDerivAt_sqrt2 hR hz hr
  have hinv := (hasDerivAt_const t (1:ℝ)).div hdr hr
  have hco := hz.mul hinv
  have hsi := hR.mul hinv
  intro p d d2
  refine ⟨?_, ?_, hphi, ?_, ?_, ?_, ?_⟩
  · refine hdr.congr_deriv ?_; simp only [d, derivCylSph, p]; ring
  · refine (hasDerivAt_atan2 hz hR (Or.inr hp.ne')).congr_deriv ?_
    simp only [d, derivCylSph, p]
    rw [add_comm (z t ^ 2)]; field_simp; rw [hs]; ring
  · refine hsi.congr_deriv ?_
    simp only [d2, deriv2CylSph, p, Pi.div_apply]
    field_simp; rw [hs]; ring
  · refine hco.congr_deriv ?_
    simp only [d2, deriv2CylSph, p, Pi.div_apply]
    field_simp; rw [hs]; ring
  · refine (hco.mul hinv).congr_deriv ?_
    simp only [d2, deriv2CylSph, p, Pi.mul_apply, Pi.div_apply]
    field_simp; rw [hs]; ring
  · refine (hsi.neg.mul hinv).congr_deriv ?_
    simp only [d2, deriv2CylSph, p, Pi.neg_apply, Pi.mul_apply, Pi.div_apply]
    field_simp; rw [hs]; ring

/-- Cartesian → spherical, off the z axis -/
theorem C56_car_sph {x y z : ℝ → ℝ} {x' y' z' t : ℝ}
    (hx : HasDerivAt x x' t) (hy : HasDerivAt y y' t) (hz : HasDerivAt z z' t) (h : ¬(x t = 0 ∧ y t = 0)) :
    let p : ℝ → PosCar := fun s => ⟨x s, y s, z s⟩
    let d := derivCarSph (p t)
    let d2 := deriv2CarSph (p t)
    HasDerivAt (fun s => (carToSph (p s)).r) (d.drdx * x' + d.drdy * y' + d.drdz * z') t ∧
    HasDerivAt (fun s => (carToSph (p s)).theta) (d.dthetadx * x' + d.dthetady * y' + d.dthetadz * z') t ∧
    HasAngleDerivAt (fun s => (carToSph (p s)).phi) (d.dphidx * x' + d.dphidy * y') t ∧
    HasDerivAt (fun s => (derivCarSph (p s)).drdx) (d2.d2rdx2 * x' + d2.d2rdxdy * y' + d2.d2rdxdz * z') t ∧
    HasDerivAt (fun s => (derivCarSph (p s)).drdy) (d2.d2rdxdy * x' + d2.d2rdy2 * y' + d2.d2rdydz * z') t ∧
    HasDerivAt (fun s => (derivCarSph (p s)).drdz) (d2.d2rdxdz * x' + d2.d2rdydz * y' + d2.d2rdz2 * z') t ∧
    HasDerivAt (fun s => (derivCarSph (p s)).dthetadx)
      (d2.d2thetadx2 * x' + d2.d2thetadxdy * y' + d2.d2thetadxdz * z') t ∧
    HasDerivAt (fun s => (derivCarSph (p s)).dthetady)
      (d2.d2thetadxdy * x' + d2.d2thetady2 * y' + d2.d2thetadydz * z') t ∧
    HasDerivAt (fun s => (derivCarSph (p s)).dthetadz)
      (d2.d2thetadxdz * x' + d2.d2thetadydz * y' + d2.d2thetadz2 * z') t ∧
    HasDerivAt (fun s => (derivCarSph (p s)).dphidx) (d2.d2phidx2 * x' + d2.d2phidxdy * y') t ∧
    HasDerivAt (fun s => (derivCarSph (p s)).dphidy) (d2.d2phidxdy * x' + d2.d2phidy2 * y') t := by
  have hR : ¬ √(x t ^ 2 + y t ^ 2) = 0 := fun h0 => h (sum_sq_eq_zero h0)
  have hRp : 0 < √(x t ^ 2 + y t ^ 2) := lt_of_le_of_ne (sqrt_nonneg _) (Ne.symm hR)
  have hs := sq_sqrt_add (x t) (y t)
  have hn : x t ^ 2 + y t ^ 2 ≠ 0 := by rw [← hs]; positivity
  have hn' : 0 < x t ^ 2 + y t ^ 2 := by positivity
  have hm : x t ^ 2 + y t ^ 2 + z t ^ 2 ≠ 0 := by positivity
  have hdR := hasDerivAt_sqrt2 hx hy hR
  have hR2 : HasDerivAt (fun s => x s ^ 2 + y s ^ 2) (2 * x t * x' + 2 * y t * y') t := by
    refine ((hx.pow 2).add (hy.pow 2)).congr_deriv ?_; simp
  have hr2 : HasDerivAt (fun s => x s ^ 2 + y s ^ 2 + z s ^ 2) (2 * x t * x' + 2 * y t * y' + 2 * z t * z') t := by
    refine (((hx.pow 2).add (hy.pow 2)).add (hz.pow 2)).congr_deriv ?_; simp
  have hr : √(x t ^ 2 + y t ^ 2 + z t ^ 2) ≠ 0 := by
    apply ne_of_gt; apply sqrt_pos.mpr; positivity
  have hrs : √(x t ^ 2 + y t ^ 2 + z t ^ 2) ^ 2 = x t ^ 2 + y t ^ 2 + z t ^ 2 := sq_sqrt (by positivity)
  have hdr : HasDerivAt (fun s => √(x s ^ 2 + y s ^ 2 + z s ^ 2))
      ((x t * x' + y t * y' + z t * z') / √(x t ^ 2 + y t ^ 2 + z t ^ 2)) t := by
    refine (hr2.sqrt hm).congr_deriv ?_; field_simp
  have hinv := (hasDerivAt_const t (1:ℝ)).div hdr hr
  have htemp := hz.div (hdR.mul hr2) (mul_ne_zero hR hm)
  have hth := hasDerivAt_atan2 hz hdR (Or.inr hR)
  intro p d d2
  refine ⟨?_, ?_, ?_, ?_, ?_, ?_, ?_, ?_, ?_, ?_, ?_⟩
  · refine hdr.congr_deriv ?_; simp only [d, derivCarSph, p]; ring
  · refine hth.congr_deriv ?_
    simp only [d, derivCarSph, p]
    rw [hs, show z t ^ 2 + (x t ^ 2 + y t ^ 2) = x t ^ 2 + y t ^ 2 + z t ^ 2 by ring]
    field_simp; rw [hs]; ring
  · refine (hasAngleDerivAt_atan2 hx hy h).congr_deriv ?_
    simp only [d, derivCarSph, p]; field_simp; ring
  · refine (hx.mul hinv).congr_deriv ?_
    simp only [d2, deriv2CarSph, p, Pi.div_apply]; field_simp; rw [hrs]; ring
  · refine (hy.mul hinv).congr_deriv ?_
    simp only [d2, deriv2CarSph, p, Pi.div_apply]; field_simp; rw [hrs]; ring
  · refine (hz.mul hinv).congr_deriv ?_
    simp only [d2, deriv2CarSph, p, Pi.div_apply]; field_simp; rw [hrs]; ring
  · refine (hx.mul htemp).congr_deriv ?_
    simp only [d2, deriv2CarSph, p, Pi.div_apply, Pi.mul_apply]; field_simp; rw [hs]; ring
  · refine (hy.mul htemp).congr_deriv ?_
    simp only [d2, deriv2CarSph, p, Pi.div_apply, Pi.mul_apply]; field_simp; rw [hs]; ring
  · refine (hdR.neg.div hr2 hm).congr_deriv ?_
    simp only [d2, deriv2CarSph, p, Pi.neg_apply]; field_simp; rw [hs]; ring
  · refine (hy.neg.div hR2 hn).congr_deriv ?_
    simp only [d2, deriv2CarSph, p, Pi.neg_apply]; field_simp; ring
  · refine (hx.div hR2 hn).congr_deriv ?_
    simp only [d2, deriv2CarSph, p]; field_simp; ring

/-- non-triviality: at (3,4,12) the reported derivatives are the expected numbers -/
example : (derivCarCyl ⟨3, 4, 12⟩).dphidx = -4 / 25 ∧ (derivCarCyl ⟨3, 4, 12⟩).dRdy = 4 / 5 := by
  have h : √(3 ^ 2 + 4 ^ 2 : ℝ) = 5 := by
    rw [show (3 ^ 2 + 4 ^ 2 : ℝ) = 5 ^ 2 by norm_num]; exact sqrt_sq (by norm_num)
  simp only [derivCarCyl, h]
  norm_num

/-- the position returned together with the derivatives is the plain conversion -/
theorem C56_position (p : PosCar) : posDerivCarCyl p = carToCyl p := by
  simp only [posDerivCarCyl, carToCyl]
  split_ifs with h
  · obtain ⟨hx, hy⟩ := sum_sq_eq_zero h
    rw [h, hx, hy]
    have : atan2 0 0 = 0 := by simp [atan2, show (⟨0, 0⟩ : ℂ) = 0 from rfl]
    rw [this]
  · rfl

/-! ## C57: gradients and Hessians transform by the chain rule

`evalAndConvert` (coord.h:830-855) evaluates a function in its own coordinates and returns
`toGrad`/`toHess` of the results; the theorems say that the numbers are the gradient and the Hessian of the function
seen in the output coordinates, for every function.  Functions of the cylindrical or spherical azimuth must be
2π-periodic in it, otherwise they are not functions of the point. -/

/-- function of cylindrical coordinates seen in Cartesian coordinates -/
theorem C57_grad_cyl_car (F : PosCyl → ℝ) (p : PosCar) (g : GradCyl) (h : ¬(p.x = 0 ∧ p.y = 0))
    (hF : PeriodicCyl F) (hg : IsGradCyl F (carToCyl p) g) :
    IsGradCar (fun q => F (carToCyl q)) p (toGradCylCar g (derivCarCyl p)) := by
  intro x y z x' y' z' t hx hy hz hp
  subst hp
  obtain ⟨h1, h2, h3, -⟩ := C56_car_cyl hx hy hz h
  refine (hg.angle hF h1 h2 h3 rfl).congr_deriv ?_
  simp only [toGradCylCar]; ring

/-- function of cylindrical coordinates seen in Cartesian coordinates -/
theorem C57_hess_cyl_car (G : PosCyl → GradCyl) (p : PosCar) (H : HessCyl) (h : ¬(p.x = 0 ∧ p.y = 0))
    (hG : PeriodicCyl G) (hH : IsHessCyl G (carToCyl p) H) :
    IsHessCar (fun q => toGradCylCar (G (carToCyl q)) (derivCarCyl q)) p
      (toHessCylCar (G (carToCyl p)) H (derivCarCyl p) (deriv2CarCyl p)) := by
  obtain ⟨a1, a2, a3⟩ := hH
  have p1 : PeriodicCyl fun q => (G q).dR := fun R z f => congrArg (·.dR) (hG R z f)
  have p2 : PeriodicCyl fun q => (G q).dz := fun R z f => congrArg (·.dz) (hG R z f)
  have p3 : PeriodicCyl fun q => (G q).dphi := fun R z f => congrArg (·.dphi) (hG R z f)
  refine ⟨?_, ?_, ?_⟩ <;>
  · intro x y z x' y' z' t hx hy hz hp
    subst hp
    obtain ⟨h1, h2, h3, h4, h5, h6, h7⟩ := C56_car_cyl hx hy hz h
    have b1 := a1.angle p1 h1 h2 h3 rfl
    have b2 := a2.angle p2 h1 h2 h3 rfl
    have b3 := a3.angle p3 h1 h2 h3 rfl
    first
    | refine ((b1.mul h4).add (b3.mul h6)).congr_deriv ?_
      simp only [toHessCylCar]; ring
    | refine ((b1.mul h5).add (b3.mul h7)).congr_deriv ?_
      simp only [toHessCylCar]; ring
    | refine b2.congr_deriv ?_
      simp only [toHessCylCar]; ring

/-- function of spherical coordinates seen in Cartesian coordinates -/
theorem C57_grad_sph_car (F : PosSph → ℝ) (p : PosCar) (g : GradSph) (h : ¬(p.x = 0 ∧ p.y = 0))
    (hF : PeriodicSph F) (hg : IsGradSph F (carToSph p) g) :
    IsGradCar (fun q => F (carToSph q)) p (toGradSphCar g (derivCarSph p)) := by
  intro x y z x' y' z' t hx hy hz hp
  subst hp
  obtain ⟨h1, h2, h3, -⟩ := C56_car_sph hx hy hz h
  refine (hg.angle hF h1 h2 h3 rfl).congr_deriv ?_
  simp only [toGradSphCar]; ring

/-- function of spherical coordinates seen in Cartesian coordinates -/
theorem C57_hess_sph_car (G : PosSph → GradSph) (p : PosCar) (H : HessSph) (h : ¬(p.x = 0 ∧ p.y = 0))
    (hG : PeriodicSph G) (hH : IsHessSph G (carToSph p) H) :
    IsHessCar (fun q => toGradSphCar (G (carToSph q)) (derivCarSph q)) p
      (toHessSphCar (G (carToSph p)) H (derivCarSph p) (deriv2CarSph p)) := by
  obtain ⟨a1, a2, a3⟩ := hH
  have p1 : PeriodicSph fun q => (G q).dr := fun R z f => congrArg (·.dr) (hG R z f)
  have p2 : PeriodicSph fun q => (G q).dtheta := fun R z f => congrArg (·.dtheta) (hG R z f)
  have p3 : PeriodicSph fun q => (G q).dphi := fun R z f => congrArg (·.dphi) (hG R z f)
  refine ⟨?_, ?_, ?_⟩ <;>
  · intro x y z x' y' z' t hx hy hz hp
    subst hp
    obtain ⟨h1, h2, h3, h4, h5, h6, h7, h8, h9, h10, h11⟩ := C56_car_sph hx hy hz h
    have b1 := a1.angle p1 h1 h2 h3 rfl
    have b2 := a2.angle p2 h1 h2 h3 rfl
    have b3 := a3.angle p3 h1 h2 h3 rfl
    first
    | refine (((b1.mul h4).add (b2.mul h7)).add (b3.mul h10)).congr_deriv ?_
      simp only [toHessSphCar]; ring
    | refine (((b1.mul h5).add (b2.mul h8)).add (b3.mul h11)).congr_deriv ?_
      simp only [toHessSphCar]; ring
    | refine ((b1.mul h6).add (b2.mul h9)).congr_deriv ?_
      simp only [toHessSphCar]; ring

/-- function of Cartesian coordinates seen in cylindrical coordinates (everywhere) -/
theorem C57_grad_car_cyl (F : PosCar → ℝ) (p : PosCyl) (g : GradCar) (hg : IsGradCar F (cylToCar p) g) :
    IsGradCyl (fun q => F (cylToCar q)) p (toGradCarCyl g (derivCylCar p)) := by
  intro R z phi R' z' phi' t hR hz hphi hp
  subst hp
  obtain ⟨h1, h2, h3, -⟩ := C56_cyl_car hR hz hphi
  refine (hg _ _ _ _ _ _ t h1 h2 h3 rfl).congr_deriv ?_
  simp only [toGradCarCyl]; ring

/-- function of Cartesian coordinates seen in cylindrical coordinates (everywhere) -/
theorem C57_hess_car_cyl (G : PosCar → GradCar) (p : PosCyl) (H : HessCar) (hH : IsHessCar G (cylToCar p) H) :
    IsHessCyl (fun q => toGradCarCyl (G (cylToCar q)) (derivCylCar q)) p
      (toHessCarCyl (G (cylToCar p)) H (derivCylCar p) (deriv2CylCar p)) := by
  obtain ⟨a1, a2, a3⟩ := hH
  refine ⟨?_, ?_, ?_⟩ <;>
  · intro R z phi R' z' phi' t hR hz hphi hp
    subst hp
    obtain ⟨h1, h2, h3, h4, h5, h6, h7⟩ := C56_cyl_car hR hz hphi
    have b1 := a1 _ _ _ _ _ _ t h1 h2 h3 rfl
    have b2 := a2 _ _ _ _ _ _ t h1 h2 h3 rfl
    have b3 := a3 _ _ _ _ _ _ t h1 h2 h3 rfl
    first
    | refine ((b1.mul h4).add (b2.mul h5)).congr_deriv ?_
      simp only [toHessCarCyl]; ring
    | refine ((b1.mul h6).add (b2.mul h7)).congr_deriv ?_
      simp only [toHessCarCyl]; ring
    | refine b3.congr_deriv ?_
      simp only [toHessCarCyl]; ring

/-- function of Cartesian coordinates seen in spherical coordinates (everywhere) -/
theorem C57_grad_car_sph (F : PosCar → ℝ) (p : PosSph) (g : GradCar) (hg : IsGradCar F (sphToCar p) g) :
    IsGradSph (fun q => F (sphToCar q)) p (toGradCarSph g (derivSphCar p)) := by
  intro R z phi R' z' phi' t hR hz hphi hp
  subst hp
  obtain ⟨h1, h2, h3, -⟩ := C56_sph_car hR hz hphi
  refine (hg _ _ _ _ _ _ t h1 h2 h3 rfl).congr_deriv ?_
  simp only [toGradCarSph]; ring

/-- function of Cartesian coordinates seen in spherical coordinates (everywhere) -/
theorem C57_hess_car_sph (G : PosCar → GradCar) (p : PosSph) (H : HessCar) (hH : IsHessCar G (sphToCar p) H) :
    IsHessSph (fun q => toGradCarSph (G (sphToCar q)) (derivSphCar q)) p
      (toHessCarSph (G (sphToCar p)) H (derivSphCar p) (deriv2SphCar p)) := by
  obtain ⟨a1, a2, a3⟩ := hH
  refine ⟨?_, ?_, ?_⟩ <;>
  · intro R z phi R' z' phi' t hR hz hphi hp
    subst hp
    obtain ⟨h1, h2, h3, h4, h5, h6, h7, h8, h9, h10, h11⟩ := C56_sph_car hR hz hphi
    have b1 := a1 _ _ _ _ _ _ t h1 h2 h3 rfl
    have b2 := a2 _ _ _ _ _ _ t h1 h2 h3 rfl
    have b3 := a3 _ _ _ _ _ _ t h1 h2 h3 rfl
    first
    | refine (((b1.mul h4).add (b2.mul h5)).add (b3.mul h6)).congr_deriv ?_
      simp only [toHessCarSph]; ring
    | refine (((b1.mul h7).add (b2.mul h8)).add (b3.mul h9)).congr_deriv ?_
      simp only [toHessCarSph]; ring
    | refine ((b1.mul h10).add (b2.mul h11)).congr_deriv ?_
      simp only [toHessCarSph]; ring

/-- function of spherical coordinates seen in cylindrical coordinates (R>0) -/
theorem C57_grad_sph_cyl (F : PosSph → ℝ) (p : PosCyl) (g : GradSph) (hR0 : 0 < p.R)
    (hg : IsGradSph F (cylToSph p) g) :
    IsGradCyl (fun q => F (cylToSph q)) p (toGradSphCyl g (derivCylSph p)) := by
  intro R z phi R' z' phi' t hR hz hphi hp
  subst hp
  obtain ⟨h1, h2, h3, -⟩ := C56_cyl_sph hR hz hphi hR0
  refine (hg _ _ _ _ _ _ t h1 h2 h3 rfl).congr_deriv ?_
  simp only [toGradSphCyl]; ring

/-- function of spherical coordinates seen in cylindrical coordinates (R>0) -/
theorem C57_hess_sph_cyl (G : PosSph → GradSph) (p : PosCyl) (H : HessSph) (hR0 : 0 < p.R)
    (hH : IsHessSph G (cylToSph p) H) :
    IsHessCyl (fun q => toGradSphCyl (G (cylToSph q)) (derivCylSph q)) p
      (toHessSphCyl (G (cylToSph p)) H (derivCylSph p) (deriv2CylSph p)) := by
  obtain ⟨a1, a2, a3⟩ := hH
  refine ⟨?_, ?_, ?_⟩ <;>
  · intro R z phi R' z' phi' t hR hz hphi hp
    subst hp
    obtain ⟨h1, h2, h3, h4, h5, h6, h7⟩ := C56_cyl_sph hR hz hphi hR0
    have b1 := a1 _ _ _ _ _ _ t h1 h2 h3 rfl
    have b2 := a2 _ _ _ _ _ _ t h1 h2 h3 rfl
    have b3 := a3 _ _ _ _ _ _ t h1 h2 h3 rfl
    first
    | refine ((b1.mul h4).add (b2.mul h6)).congr_deriv ?_
      simp only [toHessSphCyl]; ring
    | refine ((b1.mul h5).add (b2.mul h7)).congr_deriv ?_
      simp only [toHessSphCyl]; ring
    | refine b3.congr_deriv ?_
      simp only [toHessSphCyl]; ring

/-- function of cylindrical coordinates seen in spherical coordinates (everywhere) -/
theorem C57_grad_cyl_sph (F : PosCyl → ℝ) (p : PosSph) (g : GradCyl) (hg : IsGradCyl F (sphToCyl p) g) :
    IsGradSph (fun q => F (sphToCyl q)) p (toGradCylSph g (derivSphCyl p)) := by
  intro R z phi R' z' phi' t hR hz hphi hp
  subst hp
  obtain ⟨h1, h2, h3, -⟩ := C56_sph_cyl hR hz hphi
  refine (hg _ _ _ _ _ _ t h1 h2 h3 rfl).congr_deriv ?_
  simp only [toGradCylSph]; ring

/-- function of cylindrical coordinates seen in spherical coordinates (everywhere) -/
theorem C57_hess_cyl_sph (G : PosCyl → GradCyl) (p : PosSph) (H : HessCyl) (hH : IsHessCyl G (sphToCyl p) H) :
    IsHessSph (fun q => toGradCylSph (G (sphToCyl q)) (derivSphCyl q)) p
      (toHessCylSph (G (sphToCyl p)) H (derivSphCyl p) (deriv2SphCyl p)) := by
  obtain ⟨a1, a2, a3⟩ := hH
  refine ⟨?_, ?_, ?_⟩ <;>
  · intro R z phi R' z' phi' t hR hz hphi hp
    subst hp
    obtain ⟨h1, h2, h3, h4, h5, h6, h7⟩ := C56_sph_cyl hR hz hphi
    have b1 := a1 _ _ _ _ _ _ t h1 h2 h3 rfl
    have b2 := a2 _ _ _ _ _ _ t h1 h2 h3 rfl
    have b3 := a3 _ _ _ _ _ _ t h1 h2 h3 rfl
    first
    | refine ((b1.mul h4).add (b2.mul h6)).congr_deriv ?_
      simp only [toHessCylSph]; ring
    | refine ((b1.mul h5).add (b2.mul h7)).congr_deriv ?_
      simp only [toHessCylSph]; ring
    | refine b3.congr_deriv ?_
      simp only [toHessCylSph]; ring

/-- non-triviality: F(R,z,φ) = R² z cos φ has a gradient everywhere, is periodic, and the hypotheses of
`C57_grad_cyl_car` hold at (3,4,12) -/
example : ∃ g, PeriodicCyl (fun q => q.R ^ 2 * q.z * cos q.phi) ∧
    IsGradCyl (fun q => q.R ^ 2 * q.z * cos q.phi) (carToCyl ⟨3, 4, 12⟩) g ∧ ¬((3:ℝ) = 0 ∧ (4:ℝ) = 0) := by
  refine ⟨⟨2 * (carToCyl ⟨3, 4, 12⟩).R * (carToCyl ⟨3, 4, 12⟩).z * cos (carToCyl ⟨3, 4, 12⟩).phi,
    (carToCyl ⟨3, 4, 12⟩).R ^ 2 * cos (carToCyl ⟨3, 4, 12⟩).phi,
    -((carToCyl ⟨3, 4, 12⟩).R ^ 2 * (carToCyl ⟨3, 4, 12⟩).z * sin (carToCyl ⟨3, 4, 12⟩).phi)⟩, ?_, ?_, by norm_num⟩
  · intro R z phi; simp only [cos_add_two_pi]
  · intro R z phi R' z' phi' t hR hz hphi hp
    refine (((hR.pow 2).mul hz).mul hphi.cos).congr_deriv ?_
    rw [← hp]; simp only [Pi.mul_apply, Pi.pow_apply]; norm_num; ring

end Verif.Coord
