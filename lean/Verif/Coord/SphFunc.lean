import Verif.Coord.DerivSpec

/-!
# C60: spherically symmetric functions

Models `/repo/src/coord.cpp:922-1008` (`evalAndConvertSph`).
Number model (E).
-/

namespace Verif.Coord

open Real

/-! ## evalAndConvertSph -/

open Classical in
/-- coord.cpp:922-956, gradient output in Cartesian coordinates; `der` is the derivative of the function at
`r = √(x²+y²+z²)` -/
noncomputable def sphGradCar (der : ℝ) (pos : PosCar) : GradCar :=
  let r := √(pos.x ^ 2 + pos.y ^ 2 + pos.z ^ 2)
  let x_over_r := if r = 0 then 0 else pos.x / r
  let y_over_r := if r = 0 then 0 else pos.y / r
  let z_over_r := if r = 0 then 0 else pos.z / r
  ⟨x_over_r * der, y_over_r * der, z_over_r * der⟩

open Classical in
/-- coord.cpp:922-956, Hessian output; `none` stands for the infinite values produced by `der/r` at r=0 when der≠0 -/
noncomputable def sphHessCar (der der2 : ℝ) (pos : PosCar) : Option HessCar :=
  let r := √(pos.x ^ 2 + pos.y ^ 2 + pos.z ^ 2)
  let x_over_r := if r = 0 then 0 else pos.x / r
  let y_over_r := if r = 0 then 0 else pos.y / r
  let z_over_r := if r = 0 then 0 else pos.z / r
  if r = 0 ∧ der ≠ 0 then none else
  let der_over_r := if r = 0 then der2 else der / r
  let dd := if r = 0 then 0 else der2 - der_over_r
  some
  { dx2 := x_over_r ^ 2 * dd + der_over_r
    dy2 := y_over_r ^ 2 * dd + der_over_r
    dz2 := z_over_r ^ 2 * dd + der_over_r
    dxdy := x_over_r * y_over_r * dd
    dydz := y_over_r * z_over_r * dd
    dxdz := x_over_r * z_over_r * dd }

open Classical in
/-- coord.cpp:958-990, gradient output in cylindrical coordinates -/
noncomputable def sphGradCyl (der : ℝ) (pos : PosCyl) : GradCyl :=
  let r := √(pos.R ^ 2 + pos.z ^ 2)
  let R_over_r := if r = 0 then 0 else pos.R / r
  let z_over_r := if r = 0 then 0 else pos.z / r
  ⟨R_over_r * der, z_over_r * der, 0⟩

open Classical in
/-- coord.cpp:958-990, Hessian output in cylindrical coordinates -/
noncomputable def sphHessCyl (der der2 : ℝ) (pos : PosCyl) : Option HessCyl :=
  let r := √(pos.R ^ 2 + pos.z ^ 2)
  let R_over_r := if r = 0 then 0 else pos.R / r
  let z_over_r := if r = 0 then 0 else pos.z / r
  if r = 0 ∧ der ≠ 0 then none else
  let der_over_r := if r = 0 then der2 else der / r
  let dd := if r = 0 then 0 else der2 - der_over_r
  some
  { dR2 := R_over_r ^ 2 * dd + der_over_r
    dz2 := z_over_r ^ 2 * dd + der_over_r
    dRdz := R_over_r * z_over_r * dd
    dRdphi := 0, dzdphi := 0, dphi2 := 0 }

/-- coord.cpp:992-1007, gradient in spherical coordinates -/
def sphGradSph (der : ℝ) (_ : PosSph) : GradSph := ⟨der, 0, 0⟩
/-- coord.cpp:992-1007, Hessian in spherical coordinates -/
def sphHessSph (der2 : ℝ) (_ : PosSph) : HessSph :=
  { dr2 := der2, dtheta2 := 0, dphi2 := 0, drdtheta := 0, drdphi := 0, dthetadphi := 0 }

/-- the function of a point defined by a function of the spherical radius -/
noncomputable def ofRadiusCar (f : ℝ → ℝ) (p : PosCar) : ℝ := f (√(p.x ^ 2 + p.y ^ 2 + p.z ^ 2))
/-- the function of a point defined by a function of the spherical radius -/
noncomputable def ofRadiusCyl (f : ℝ → ℝ) (p : PosCyl) : ℝ := f (√(p.R ^ 2 + p.z ^ 2))

theorem hasDerivAt_sqrt3 {x y z : ℝ → ℝ} {x' y' z' t : ℝ} (hx : HasDerivAt x x' t) (hy : HasDerivAt y y' t)
    (hz : HasDerivAt z z' t) (h : √(x t ^ 2 + y t ^ 2 + z t ^ 2) ≠ 0) :
    HasDerivAt (fun s => √(x s ^ 2 + y s ^ 2 + z s ^ 2))
      ((x t * x' + y t * y' + z t * z') / √(x t ^ 2 + y t ^ 2 + z t ^ 2)) t := by
  have hn : x t ^ 2 + y t ^ 2 + z t ^ 2 ≠ 0 := by
    intro h0; rw [h0] at h; simp at h
  have := (((hx.pow 2).add (hy.pow 2)).add (hz.pow 2)).sqrt hn
  refine this.congr_deriv ?_
  simp only [Pi.add_apply, Pi.pow_apply]
  field_simp
  ring

/-- away from the origin the reported gradient is the gradient (Cartesian) -/
theorem C60_grad_car (f : ℝ → ℝ) (der : ℝ) (p : PosCar) (hp : √(p.x ^ 2 + p.y ^ 2 + p.z ^ 2) ≠ 0)
    (hf : HasDerivAt f der (√(p.x ^ 2 + p.y ^ 2 + p.z ^ 2))) :
    IsGradCar (ofRadiusCar f) p (sphGradCar der p) := by
  intro x y z x' y' z' t hx hy hz e
  subst e
  refine (hf.comp t (hasDerivAt_sqrt3 hx hy hz hp)).congr_deriv ?_
  simp only [sphGradCar, hp, if_false]; ring

/-- away from the origin the reported Hessian is the derivative of the reported gradient (Cartesian) -/
theorem C60_hess_car (f' : ℝ → ℝ) (der2 : ℝ) (p : PosCar) (hp : √(p.x ^ 2 + p.y ^ 2 + p.z ^ 2) ≠ 0)
    (hf : HasDerivAt f' der2 (√(p.x ^ 2 + p.y ^ 2 + p.z ^ 2))) :
    ∃ H, sphHessCar (f' (√(p.x ^ 2 + p.y ^ 2 + p.z ^ 2))) der2 p = some H ∧
      IsHessCar (fun q => sphGradCar (f' (√(q.x ^ 2 + q.y ^ 2 + q.z ^ 2))) q) p H := by
  refine ⟨_, (by simp only [sphHessCar, hp, false_and, if_false]; rfl), ?_⟩
  refine ⟨?_, ?_, ?_⟩ <;>
  · intro x y z x' y' z' t hx hy hz e
    subst e
    have hdr := hasDerivAt_sqrt3 hx hy hz hp
    have hev : ∀ᶠ s in nhds t, √(x s ^ 2 + y s ^ 2 + z s ^ 2) ≠ 0 := hdr.continuousAt.eventually_ne hp
    have hd := hf.comp t hdr
    have hrs : √(x t ^ 2 + y t ^ 2 + z t ^ 2) ^ 2 = x t ^ 2 + y t ^ 2 + z t ^ 2 := sq_sqrt (by positivity)
    first
    | refine (((hx.div hdr hp).mul hd).congr_of_eventuallyEq ?_).congr_deriv ?_
      · filter_upwards [hev] with s hs
        simp only [sphGradCar, hs, if_false, Pi.mul_apply, Pi.div_apply, Function.comp]
      · simp only [Pi.div_apply, Function.comp]; field_simp; rw [hrs]; ring
    | refine (((hy.div hdr hp).mul hd).congr_of_eventuallyEq ?_).congr_deriv ?_
      · filter_upwards [hev] with s hs
        simp only [sphGradCar, hs, if_false, Pi.mul_apply, Pi.div_apply, Function.comp]
      · simp only [Pi.div_apply, Function.comp]; field_simp; rw [hrs]; ring
    | refine (((hz.div hdr hp).mul hd).congr_of_eventuallyEq ?_).congr_deriv ?_
      · filter_upwards [hev] with s hs
        simp only [sphGradCar, hs, if_false, Pi.mul_apply, Pi.div_apply, Function.comp]
      · simp only [Pi.div_apply, Function.comp]; field_simp; rw [hrs]; ring

/-- away from the origin the reported gradient is the gradient (cylindrical) -/
theorem C60_grad_cyl (f : ℝ → ℝ) (der : ℝ) (p : PosCyl) (hp : √(p.R ^ 2 + p.z ^ 2) ≠ 0)
    (hf : HasDerivAt f der (√(p.R ^ 2 + p.z ^ 2))) :
    IsGradCyl (ofRadiusCyl f) p (sphGradCyl der p) := by
  intro R z phi R' z' phi' t hR hz hphi e
  subst e
  refine (hf.comp t (hasDerivAt_sqrt2 hR hz hp)).congr_deriv ?_
  simp only [sphGradCyl, hp, if_false]; ring

/-- away from the origin the reported Hessian is the derivative of the reported gradient (cylindrical) -/
theorem C60_hess_cyl (f' : ℝ → ℝ) (der2 : ℝ) (p : PosCyl) (hp : √(p.R ^ 2 + p.z ^ 2) ≠ 0)
    (hf : HasDerivAt f' der2 (√(p.R ^ 2 + p.z ^ 2))) :
    ∃ H, sphHessCyl (f' (√(p.R ^ 2 + p.z ^ 2))) der2 p = some H ∧
      IsHessCyl (fun q => sphGradCyl (f' (√(q.R ^ 2 + q.z ^ 2))) q) p H := by
  refine ⟨_, (by simp only [sphHessCyl, hp, false_and, if_false]; rfl), ?_⟩
  refine ⟨?_, ?_, ?_⟩ <;>
  · intro R z phi R' z' phi' t hR hz hphi e
    subst e
    have hdr := hasDerivAt_sqrt2 hR hz hp
    have hev : ∀ᶠ s in nhds t, √(R s ^ 2 + z s ^ 2) ≠ 0 := hdr.continuousAt.eventually_ne hp
    have hd := hf.comp t hdr
    have hrs := sq_sqrt_add (R t) (z t)
    first
    | refine (((hR.div hdr hp).mul hd).congr_of_eventuallyEq ?_).congr_deriv ?_
      · filter_upwards [hev] with s hs
        simp only [sphGradCyl, hs, if_false, Pi.mul_apply, Pi.div_apply, Function.comp]
      · simp only [Pi.div_apply, Function.comp]; field_simp; rw [hrs]; ring
    | refine (((hz.div hdr hp).mul hd).congr_of_eventuallyEq ?_).congr_deriv ?_
      · filter_upwards [hev] with s hs
        simp only [sphGradCyl, hs, if_false, Pi.mul_apply, Pi.div_apply, Function.comp]
      · simp only [Pi.div_apply, Function.comp]; field_simp; rw [hrs]; ring
    | refine (hasDerivAt_const t (0:ℝ)).congr_deriv ?_
      simp

/-- spherical coordinates, everywhere -/
theorem C60_sph (f f' : ℝ → ℝ) (der2 : ℝ) (p : PosSph) (hf : HasDerivAt f (f' p.r) p.r) (hf' : HasDerivAt f' der2 p.r) :
    IsGradSph (fun q => f q.r) p (sphGradSph (f' p.r) p) ∧
    IsHessSph (fun q => sphGradSph (f' q.r) q) p (sphHessSph der2 p) := by
  refine ⟨?_, ?_, ?_, ?_⟩
  · intro r th phi r' th' phi' t hr ht hphi e
    subst e
    refine (hf.comp t hr).congr_deriv ?_
    simp [sphGradSph]
  · intro r th phi r' th' phi' t hr ht hphi e
    subst e
    refine (hf'.comp t hr).congr_deriv ?_
    simp [sphHessSph]
  · intro r th phi r' th' phi' t hr ht hphi e
    refine (hasDerivAt_const t (0:ℝ)).congr_deriv ?_
    simp [sphHessSph]
  · intro r th phi r' th' phi' t hr ht hphi e
    refine (hasDerivAt_const t (0:ℝ)).congr_deriv ?_
    simp [sphHessSph]

/-- auxiliary: the radius of a differentiable curve through the origin is at most linear in time -/
theorem radius_isBigO {x y z : ℝ → ℝ} {x' y' z' t : ℝ} (hx : HasDerivAt x x' t) (hy : HasDerivAt y y' t)
    (hz : HasDerivAt z z' t) (h0 : x t = 0 ∧ y t = 0 ∧ z t = 0) :
    (fun s => √(x s ^ 2 + y s ^ 2 + z s ^ 2)) =O[nhds t] (fun s => s - t) := by
  have bx := hx.isBigO_sub
  have by' := hy.isBigO_sub
  have bz := hz.isBigO_sub
  simp only [h0.1, h0.2.1, h0.2.2, sub_zero] at bx by' bz
  have hb : (fun s => √(x s ^ 2 + y s ^ 2 + z s ^ 2)) =O[nhds t] (fun s => |x s| + |y s| + |z s|) := by
    apply Asymptotics.isBigO_of_le
    intro s
    rw [Real.norm_eq_abs, Real.norm_eq_abs, abs_of_nonneg (sqrt_nonneg _), abs_of_nonneg (by positivity)]
    apply sqrt_le_iff.mpr
    refine ⟨by positivity, ?_⟩
    have h1 := abs_nonneg (x s); have h2 := abs_nonneg (y s); have h3 := abs_nonneg (z s)
    rw [← sq_abs (x s), ← sq_abs (y s), ← sq_abs (z s)]
    nlinarith [mul_nonneg h1 h2, mul_nonneg h1 h3, mul_nonneg h2 h3]
  exact hb.trans ((bx.norm_left.add by'.norm_left).add bz.norm_left)

/-- at the origin, for a function with zero slope there (one-sided derivative), the gradient is the reported zero -/
theorem C60_grad_car_origin (f : ℝ → ℝ) (hf : HasDerivWithinAt f 0 (Set.Ici 0) 0) (d : ℝ) :
    IsGradCar (ofRadiusCar f) ⟨0, 0, 0⟩ (sphGradCar d ⟨0, 0, 0⟩) := by
  intro x y z x' y' z' t hx hy hz e
  simp only [PosCar.mk.injEq] at e
  have hr := radius_isBigO hx hy hz e
  have hg : sphGradCar d ⟨0, 0, 0⟩ = ⟨0, 0, 0⟩ := by simp [sphGradCar]
  rw [hg]; simp only [zero_mul, add_zero]
  rw [hasDerivAt_iff_isLittleO]
  have hlim : Filter.Tendsto (fun s => √(x s ^ 2 + y s ^ 2 + z s ^ 2)) (nhds t) (nhdsWithin 0 (Set.Ici 0)) := by
    apply tendsto_nhdsWithin_of_tendsto_nhds_of_eventually_within
    · have hc : ContinuousAt (fun s => √(x s ^ 2 + y s ^ 2 + z s ^ 2)) t :=
        (((hx.continuousAt.pow 2).add (hy.continuousAt.pow 2)).add (hz.continuousAt.pow 2)).sqrt
      have h := hc.tendsto
      simp only [e.1, e.2.1, e.2.2] at h
      simpa using h
    · exact Filter.Eventually.of_forall fun s => sqrt_nonneg _
  have h1 := (hasDerivWithinAt_iff_isLittleO.mp hf).comp_tendsto hlim
  simp only [Function.comp_def, smul_eq_mul, mul_zero, sub_zero] at h1
  have h2 := h1.trans_isBigO hr
  refine h2.congr_left ?_
  intro s
  simp [ofRadiusCar, e.1, e.2.1, e.2.2]

/-- at the origin the reported Hessian is the derivative of the reported gradient, for a function whose derivative
`f'` vanishes at 0 and has the one-sided derivative `der2` there -/
theorem C60_hess_car_origin (f' : ℝ → ℝ) (der2 : ℝ) (h0 : f' 0 = 0) (hf : HasDerivWithinAt f' der2 (Set.Ici 0) 0) :
    ∃ H, sphHessCar (f' 0) der2 ⟨0, 0, 0⟩ = some H ∧
      IsHessCar (fun q => sphGradCar (f' (√(q.x ^ 2 + q.y ^ 2 + q.z ^ 2))) q) ⟨0, 0, 0⟩ H := by
  refine ⟨⟨der2, der2, der2, 0, 0, 0⟩, by simp [sphHessCar, h0], ?_⟩
  -- the function u * f'(r)/r for a coordinate u
  have key : ∀ (u x y z : ℝ → ℝ) (u' x' y' z' t : ℝ), HasDerivAt u u' t → HasDerivAt x x' t → HasDerivAt y y' t →
      HasDerivAt z z' t → u t = 0 → x t = 0 ∧ y t = 0 ∧ z t = 0 →
      (∀ s, |u s| ≤ √(x s ^ 2 + y s ^ 2 + z s ^ 2)) →
      HasDerivAt (fun s => (if √(x s ^ 2 + y s ^ 2 + z s ^ 2) = 0 then 0 else u s / √(x s ^ 2 + y s ^ 2 + z s ^ 2)) *
        f' (√(x s ^ 2 + y s ^ 2 + z s ^ 2))) (der2 * u') t := by
    intro u x y z u' x' y' z' t hu hx hy hz hut e hle
    have hr := radius_isBigO hx hy hz e
    have hlim : Filter.Tendsto (fun s => √(x s ^ 2 + y s ^ 2 + z s ^ 2)) (nhds t) (nhdsWithin 0 (Set.Ici 0)) := by
      apply tendsto_nhdsWithin_of_tendsto_nhds_of_eventually_within
      · have hc : ContinuousAt (fun s => √(x s ^ 2 + y s ^ 2 + z s ^ 2)) t :=
          (((hx.continuousAt.pow 2).add (hy.continuousAt.pow 2)).add (hz.continuousAt.pow 2)).sqrt
        have h := hc.tendsto
        simp only [e.1, e.2.1, e.2.2] at h
        simpa using h
      · exact Filter.Eventually.of_forall fun s => sqrt_nonneg _
    have h1 := (hasDerivWithinAt_iff_isLittleO.mp hf).comp_tendsto hlim
    simp only [Function.comp_def, smul_eq_mul, sub_zero, h0] at h1
    have h2 := h1.trans_isBigO hr
    have h3 : HasDerivAt (fun s => der2 * u s) (der2 * u') t := hu.const_mul der2
    rw [hasDerivAt_iff_isLittleO] at h3 ⊢
    have h4 : (fun s => (if √(x s ^ 2 + y s ^ 2 + z s ^ 2) = 0 then 0 else u s / √(x s ^ 2 + y s ^ 2 + z s ^ 2)) *
        f' (√(x s ^ 2 + y s ^ 2 + z s ^ 2)) - der2 * u s) =o[nhds t] (fun s => s - t) := by
      refine Asymptotics.IsBigO.trans_isLittleO (Asymptotics.isBigO_of_le _ ?_) h2
      intro s
      have hle := hle s
      set r := √(x s ^ 2 + y s ^ 2 + z s ^ 2) with hrdef
      have hrn : 0 ≤ r := sqrt_nonneg _
      by_cases hr0 : r = 0
      · have : u s = 0 := by rw [hr0] at hle; exact abs_nonpos_iff.mp hle
        simp [hr0, this, h0]
      · have hrp : 0 < r := lt_of_le_of_ne hrn (Ne.symm hr0)
        simp only [hr0, if_false, Real.norm_eq_abs]
        have : u s / r * f' r - der2 * u s = u s / r * (f' r - r * der2) := by field_simp
        rw [this, abs_mul, abs_div, abs_of_pos hrp]
        have h5 : |u s| / r ≤ 1 := by rw [div_le_one hrp]; exact hle
        calc |u s| / r * |f' r - r * der2| ≤ 1 * |f' r - r * der2| :=
              mul_le_mul_of_nonneg_right h5 (abs_nonneg _)
          _ = _ := one_mul _
    refine (h4.add h3).congr_left ?_
    intro s
    simp [hut, e.1, e.2.1, e.2.2]
  have l1 : ∀ a b c : ℝ, |a| ≤ √(a ^ 2 + b ^ 2 + c ^ 2) := fun a b c => by
    rw [← sqrt_sq_eq_abs]; exact sqrt_le_sqrt (by nlinarith [sq_nonneg b, sq_nonneg c])
  have l2 : ∀ a b c : ℝ, |b| ≤ √(a ^ 2 + b ^ 2 + c ^ 2) := fun a b c => by
    rw [← sqrt_sq_eq_abs]; exact sqrt_le_sqrt (by nlinarith [sq_nonneg a, sq_nonneg c])
  have l3 : ∀ a b c : ℝ, |c| ≤ √(a ^ 2 + b ^ 2 + c ^ 2) := fun a b c => by
    rw [← sqrt_sq_eq_abs]; exact sqrt_le_sqrt (by nlinarith [sq_nonneg a, sq_nonneg b])
  refine ⟨?_, ?_, ?_⟩
  · intro x y z x' y' z' t hx hy hz e
    simp only [PosCar.mk.injEq] at e
    have := key x x y z x' x' y' z' t hx hx hy hz e.1 e (fun s => l1 _ _ _)
    refine this.congr_deriv ?_
    simp
  · intro x y z x' y' z' t hx hy hz e
    simp only [PosCar.mk.injEq] at e
    have := key y x y z y' x' y' z' t hy hx hy hz e.2.1 e (fun s => l2 _ _ _)
    refine this.congr_deriv ?_
    simp
  · intro x y z x' y' z' t hx hy hz e
    simp only [PosCar.mk.injEq] at e
    have := key z x y z z' x' y' z' t hz hx hy hz e.2.2 e (fun s => l3 _ _ _)
    refine this.congr_deriv ?_
    simp

/-- non-triviality: f(r)=r³ at the point (3,4,12): gradient 3r²·(x/r) -/
example : IsGradCar (ofRadiusCar fun r => r ^ 3) ⟨3, 4, 12⟩ (sphGradCar (3 * 13 ^ 2) ⟨3, 4, 12⟩) ∧
    (sphGradCar (3 * 13 ^ 2) ⟨3, 4, 12⟩).dx = 117 := by
  have h : √(3 ^ 2 + 4 ^ 2 + 12 ^ 2 : ℝ) = 13 := by
    rw [show (3 ^ 2 + 4 ^ 2 + 12 ^ 2 : ℝ) = 13 ^ 2 by norm_num]; exact sqrt_sq (by norm_num)
  constructor
  · apply C60_grad_car
    · show √(3 ^ 2 + 4 ^ 2 + 12 ^ 2 : ℝ) ≠ 0
      rw [h]; norm_num
    · show HasDerivAt _ _ √(3 ^ 2 + 4 ^ 2 + 12 ^ 2 : ℝ)
      rw [h]; simpa using hasDerivAt_pow 3 (13:ℝ)
  · simp only [sphGradCar, h]; norm_num

end Verif.Coord
