import Verif.DensGrid.ProjClassic
import Verif.DensGrid.CylProps
import Verif.SphHarm.AzimuthOrtho

/-! C94, cylindrical scheme: the projection of a density is what addPoint accumulates over the points of a product quadrature rule in R, z, phi. -/

namespace Verif.DensGrid

open Real Verif.Coord

noncomputable section

/-! ### specification -/

/-- angles and weights of the quadrature rule on the circle for densities that are even in phi: 2M+1 equally spaced points with equal weights, of which only those with phi in [0,pi) are used -/
def ringPhi (M i : ℕ) : ℝ := 2 * π / (2 * M + 1) * i
def ringW (M i : ℕ) : ℝ := 2 * π / (2 * M + 1) * (if i = 0 then 1 else 2)

/-- the point with the given cylindrical coordinates -/
def cylPoint (R z phi : ℝ) : PosCar := ⟨R * cos phi, R * sin phi, z⟩

/-- weight of the quadrature point: 2 halves of the space times the volume element R, times the lengths of the segments and the weights of quadrature rules in each coordinate -/
def Cyl.qweight (g : Cyl) (M kR aR kz az i : ℕ) : ℝ :=
  2 * ((node g.gridR (kR + 1) - node g.gridR kR) * glw 6 aR) * ((node g.gridz (kz + 1) - node g.gridz kz) * glw 6 az) * ringW M i * qrad g.gridR kR aR

/-! ### azimuthal rule -/

theorem ringPhi_eq (M i : ℕ) : Verif.Fourier.phi M i = ringPhi M i := by
  unfold Verif.Fourier.phi ringPhi
  have : (2 * (M : ℝ) + 1) ≠ 0 := by positivity
  have : ((M : ℝ) + 1 / 2) ≠ 0 := by positivity
  field_simp

theorem ringW_eq (M i : ℕ) : Verif.Fourier.wt M false i = ringW M i := by
  unfold Verif.Fourier.wt ringW
  have : (2 * (M : ℝ) + 1) ≠ 0 := by positivity
  have : ((M : ℝ) + 1 / 2) ≠ 0 := by positivity
  simp only [Bool.false_eq_true, false_or]
  field_simp

/-- the sums of cosines over the circle -/
theorem ring_cos (M : ℕ) {m : ℕ} (hm : m ≤ M) : ∑ i ∈ Finset.range (M + 1), ringW M i * cos (m * ringPhi M i) = if m = 0 then 2 * π else 0 := by
  have := Verif.SphHarm.azimuth_ortho M false m 0 (by simp) (by omega) (by simp) (by omega)
  simp only [Verif.Fourier.size, Bool.false_eq_true, if_false] at this
  rw [show (if m = 0 then 2 * π else 0) = (if (m : ℤ) = 0 then (if (m : ℤ) = 0 then 2 * π else π) else 0) by
    by_cases h : m = 0
    · simp [h]
    · rw [if_neg h, if_neg (by omega)], ← this]
  refine Finset.sum_congr rfl fun i _ => ?_
  rw [ringW_eq, ringPhi_eq]
  simp [Verif.SphHarm.trigM]

theorem coefs_get (M : ℕ) (values : ℕ → ℝ) (m : ℕ) : (Verif.Fourier.transform M false values 1).getD m 0 = if m ≤ M then ∑ i ∈ Finset.range (M + 1), ringW M i * cos (m * ringPhi M i) * values i else 0 := by
  by_cases h : m ≤ M
  · have := Verif.SphHarm.transform_get M false values 1 m (by simp) (by omega)
    simp only [Bool.false_eq_true, if_false, sub_zero, Int.toNat_natCast, Verif.Fourier.size, mul_one] at this
    rw [this, if_pos h]
    refine Finset.sum_congr rfl fun i _ => ?_
    rw [ringW_eq, ringPhi_eq]
    simp [Verif.SphHarm.trigM]
  · rw [if_neg h, List.getD_eq_default]
    simp [Verif.Fourier.transform, Verif.Fourier.size]; omega

/-! ### contributions -/

/-- the contribution of a unit term of the harmonic 2ν -/
def Cyl.term (g : Cyl) (linear : Bool) (kR kz : ℕ) (offR offz : ℝ) (ν q : ℕ) : ℝ :=
  if linear then contrib (g.step1 kR kz offR offz 1 (2 * ν)) q else if g.idx0 ν kR kz = q then 1 else 0

theorem pLoop_eq (g : Cyl) (linear : Bool) (kR kz : ℕ) (offR offz weight : ℝ) (coef : ℕ → ℝ) (q : ℕ) : ∀ fuel μ, g.mmax / 2 + 1 ≤ fuel + μ →
    contrib (g.pLoop linear kR kz offR offz weight coef fuel (2 * μ)) q = ((List.range' μ (g.mmax / 2 + 1 - μ)).map fun ν => coef (2 * ν) * weight * (if ν = 0 then 1 else 2) * g.term linear kR kz offR offz ν q).sum
  | 0, μ, h => by
    rw [show g.mmax / 2 + 1 - μ = 0 by omega]; simp [Cyl.pLoop, contrib_nil]
  | fuel + 1, μ, h => by
    rw [Cyl.pLoop]
    by_cases hc : 2 * μ > g.mmax
    · rw [if_pos hc, show g.mmax / 2 + 1 - μ = 0 by omega]; simp [contrib_nil]
    · rw [if_neg hc, show 2 * μ + 2 = 2 * (μ + 1) by ring]
      simp only
      rw [contrib_append, pLoop_eq g linear kR kz offR offz weight coef q fuel (μ + 1) (by omega), show g.mmax / 2 + 1 - μ = (g.mmax / 2 + 1 - (μ + 1)) + 1 by omega, List.range'_succ, List.map_cons, List.sum_cons]
      congr 1
      have hf : (1 + if 2 * μ > 0 then (1 : ℝ) else 0) = if μ = 0 then 1 else 2 := by
        by_cases h0 : μ = 0
        · rw [if_pos h0, if_neg (by omega)]; norm_num
        · rw [if_neg h0, if_pos (by omega)]; norm_num
      rw [hf]
      cases linear
      · simp only [Bool.false_eq_true, if_false, Cyl.term]
        rw [contrib_cons, contrib_nil, cell0_eq]
        by_cases hq : g.idx0 μ kR kz = q
        · rw [if_pos hq, if_pos (by simpa using hq)]; ring
        · rw [if_neg hq, if_neg (by simpa using hq)]; ring
      · simp only [if_true, Cyl.term]
        have := step1_contrib g (kR := kR) (kz := kz) offR offz (coef (2 * μ) * weight * (if μ = 0 then 1 else 2)) μ q
        rw [step1_contrib g offR offz 1 μ q, one_mul, ← this]
        rfl

theorem cylPoint_R {R : ℝ} (hR : 0 ≤ R) (z phi : ℝ) : √((cylPoint R z phi).x ^ 2 + (cylPoint R z phi).y ^ 2) = R := by
  rw [cylPoint]
  simp only
  rw [show (R * cos phi) ^ 2 + (R * sin phi) ^ 2 = R ^ 2 * (cos phi ^ 2 + sin phi ^ 2) by ring, cos_sq_add_sin_sq, mul_one, sqrt_sq hR]

/-- addPoint at the point with the given cylindrical coordinates -/
theorem add_term {g : Cyl} (hv : g.Valid) (linear : Bool) {R z : ℝ} (phi mult : ℝ) {kR kz : ℕ} (hR : InSeg g.gridR kR R) (hz : InSeg g.gridz kz z) (hR0 : 0 < R) (hz0 : 0 ≤ z) (q : ℕ) :
    contrib (g.add linear (cylPoint R z phi) mult) q = ∑ ν ∈ Finset.range (g.mmax / 2 + 1), mult * azim ν phi * g.term linear kR kz (frac g.gridR kR R) (frac g.gridz kz z) ν q := by
  have eR := cylPoint_R hR0.le z phi
  have ez : |(cylPoint R z phi).z| = z := abs_of_nonneg hz0
  by_cases h0 : mult = 0
  · subst h0
    have : g.add linear (cylPoint R z phi) 0 = [] := by unfold Cyl.add; simp
    rw [this, contrib_nil]; simp
  have e := C54_car_cyl_car (cylPoint R z phi)
  have ex : √((cylPoint R z phi).x ^ 2 + (cylPoint R z phi).y ^ 2) * cos (atan2 (cylPoint R z phi).y (cylPoint R z phi).x) = (cylPoint R z phi).x := congrArg PosCar.x e
  have ey : √((cylPoint R z phi).x ^ 2 + (cylPoint R z phi).y ^ 2) * sin (atan2 (cylPoint R z phi).y (cylPoint R z phi).x) = (cylPoint R z phi).y := congrArg PosCar.y e
  have ha : ∀ μ, azim μ (atan2 (cylPoint R z phi).y (cylPoint R z phi).x) = azim μ phi := fun μ =>
    azim_unique ex.symm ey.symm (by rw [eR]; rfl) (by rw [eR]; rfl) (by rw [eR]; exact hR0) μ
  have hR' : InSeg g.gridR kR (√((cylPoint R z phi).x ^ 2 + (cylPoint R z phi).y ^ 2)) := by rw [eR]; exact hR
  have hz' : InSeg g.gridz kz |(cylPoint R z phi).z| := by rw [ez]; exact hz
  cases linear
  · rw [cyl_add0 hv h0 hR' hz']
    have hl : ∀ (l : List ℕ), contrib (l.map fun μ => ((g.idx0 μ kR kz : ℤ), mult * azim μ (atan2 (cylPoint R z phi).y (cylPoint R z phi).x))) q = (l.map fun μ => mult * azim μ phi * (if g.idx0 μ kR kz = q then 1 else 0)).sum := by
      intro l
      induction l with
      | nil => rfl
      | cons a l ih =>
        rw [List.map_cons, contrib_cons, ih, List.map_cons, List.sum_cons, ha]
        congr 1
        by_cases hq : g.idx0 a kR kz = q
        · rw [if_pos hq, if_pos (by simpa using hq)]; ring
        · rw [if_neg hq, if_neg (by simpa using hq)]; ring
    rw [hl, sum_range_list]
    rfl
  · rw [(cyl_add1 hv h0 hR' hz').2, eR, ez, Cyl.basis, Finset.mul_sum]
    refine Finset.sum_congr rfl fun μ _ => ?_
    rw [ha]
    simp only [Cyl.term, if_true, step1_contrib]
    simp only [hatR_sum hv.okR hR.lt hR.lo hR.hi, hatR_sum hv.okz hz.lt hz.lo hz.hi]
    unfold frac
    ring

/-! ### the property -/

/-- C94, cylindrical scheme: the projection of a density is the sum of the increments made by addPoint over the points of the quadrature rule in every cell, with the masses `weight * density`, where M is at least the order of the grid; a density that claims to be axisymmetric must not depend on phi. -/
theorem C94_cyl {mmax : ℤ} {gR gz : List ℝ} {g : Cyl} (hg : mkCyl mmax gR gz = some g) (linear : Bool) (d : Dens) (hd : d.zrot = true → ∀ R z phi phi', d.rho R z phi = d.rho R z phi') (q : ℕ) :
    g.proj linear d q = ∑ kR ∈ Finset.range g.gridR.length, ∑ aR ∈ Finset.range 6, ∑ kz ∈ Finset.range g.gridz.length, ∑ az ∈ Finset.range 6, ∑ i ∈ Finset.range (max g.mmax 16 + 1),
      contrib (g.add linear (cylPoint (qrad g.gridR kR aR) (qrad g.gridz kz az) (ringPhi (max g.mmax 16) i))
        (g.qweight (max g.mmax 16) kR aR kz az i * d.rho (qrad g.gridR kR aR) (qrad g.gridz kz az) (ringPhi (max g.mmax 16) i))) q := by
  have hv := (mkCyl_valid hg).1
  set M := max g.mmax 16 with hM
  rw [Cyl.proj, applyUpd_eq, zero_add]
  simp only [contrib_loop]
  rw [ordRad, ← sum_divmod g.gridR.length 6 (by norm_num) fun kR aR => ∑ kz ∈ Finset.range g.gridz.length, ∑ az ∈ Finset.range 6, ∑ i ∈ Finset.range (M + 1),
      contrib (g.add linear (cylPoint (qrad g.gridR kR aR) (qrad g.gridz kz az) (ringPhi M i)) (g.qweight M kR aR kz az i * d.rho (qrad g.gridR kR aR) (qrad g.gridz kz az) (ringPhi M i))) q]
  refine Finset.sum_congr rfl fun iR hiR => ?_
  rw [← sum_divmod g.gridz.length 6 (by norm_num) fun kz az => ∑ i ∈ Finset.range (M + 1),
      contrib (g.add linear (cylPoint (qrad g.gridR (iR / 6) (iR % 6)) (qrad g.gridz kz az) (ringPhi M i)) (g.qweight M (iR / 6) (iR % 6) kz az i * d.rho (qrad g.gridR (iR / 6) (iR % 6)) (qrad g.gridz kz az) (ringPhi M i))) q]
  refine Finset.sum_congr rfl fun iz hiz => ?_
  rw [Finset.mem_range] at hiR hiz
  have hkR : iR / 6 < g.gridR.length := by omega
  have hkz : iz / 6 < g.gridz.length := by omega
  have haR : iR % 6 < 6 := Nat.mod_lt _ (by norm_num)
  have haz : iz % 6 < 6 := Nat.mod_lt _ (by norm_num)
  have r1 := qrad_range hv.okR hkR haR
  have z1 := qrad_range hv.okz hkz haz
  have r0 := node_nonneg hv.okR hkR.le
  have z0 := node_nonneg hv.okz hkz.le
  simp only [add_term hv linear _ _ (qrad_seg hv.okR hkR haR) (qrad_seg hv.okz hkz haz) (by linarith) (by linarith : 0 ≤ qrad g.gridz (iz / 6) (iz % 6)) q]
  rw [Finset.sum_comm]
  have hp := pLoop_eq g linear (iR / 6) (iz / 6) (glp 6 (iR % 6)) (glp 6 (iz % 6)) (g.projWeight iR iz) (g.projCoefs d iR iz) q (g.mmax + 1) 0 (by omega)
  rw [mul_zero, Nat.sub_zero, ← List.range_eq_range', sum_range_list] at hp
  refine hp.trans (Finset.sum_congr rfl fun ν hν => ?_)
  rw [Finset.mem_range] at hν
  rw [qrad_frac hv.okR hkR, qrad_frac hv.okz hkz, ← Finset.sum_mul]
  congr 1
  -- the Fourier coefficient
  have hmM : 2 * ν ≤ M := by omega
  have hco : g.projCoefs d iR iz (2 * ν) = ∑ i ∈ Finset.range (M + 1), ringW M i * cos ((2 * ν : ℕ) * ringPhi M i) * d.rho (qrad g.gridR (iR / 6) (iR % 6)) (qrad g.gridz (iz / 6) (iz % 6)) (ringPhi M i) := by
    rw [Cyl.projCoefs, coefs_get]
    simp only [rOf_eq, ordRad, ringPhi_eq]
    by_cases hz : d.zrot = true
    · have hT : g.mTmp d = 0 := by rw [Cyl.mTmp, if_pos hz]
      rw [hT]
      have hc := fun i => hd hz (qrad g.gridR (iR / 6) (iR % 6)) (qrad g.gridz (iz / 6) (iz % 6)) (ringPhi M i) 0
      simp only [hc, ← Finset.sum_mul]
      rw [ring_cos M hmM]
      by_cases h0 : ν = 0
      · subst h0
        simp [ringW, ringPhi]
      · rw [if_neg (by omega), if_neg (by omega), zero_mul]
    · have hT : g.mTmp d = M := by rw [Cyl.mTmp, if_neg hz]; rfl
      rw [hT, if_pos hmM]
  rw [hco, Finset.sum_mul, Finset.sum_mul]
  refine Finset.sum_congr rfl fun i _ => ?_
  unfold Cyl.projWeight Cyl.qweight azim
  simp only [rOf_eq, r1Of_eq, r2Of_eq, ordRad]
  by_cases h0 : ν = 0
  · subst h0; simp; ring
  · rw [if_neg h0, if_neg h0]; push_cast; ring

/-- the number of elements with m=0 -/
def Cyl.nAxi (g : Cyl) (linear : Bool) : ℕ := if linear then (g.gridR.length + 1) * (g.gridz.length + 1) else g.gridR.length * g.gridz.length

theorem cyl_point_sum {g : Cyl} (hv : g.Valid) (linear : Bool) {R z : ℝ} (phi mult : ℝ) {kR kz : ℕ} (hR : InSeg g.gridR kR R) (hz : InSeg g.gridz kz z) (hR0 : 0 < R) (hz0 : 0 ≤ z) :
    ∑ q ∈ Finset.range (g.nAxi linear), contrib (g.add linear (cylPoint R z phi) mult) q = mult := by
  have eR := cylPoint_R hR0.le z phi
  have ez : |(cylPoint R z phi).z| = z := abs_of_nonneg hz0
  by_cases h0 : mult = 0
  · subst h0
    have : g.add linear (cylPoint R z phi) 0 = [] := by unfold Cyl.add; simp
    rw [this]; simp [contrib_nil]
  cases linear
  · simp only [add_term hv false phi mult hR hz hR0 hz0, Cyl.term, Bool.false_eq_true, if_false]
    rw [Finset.sum_comm, Finset.sum_range_succ', Finset.sum_eq_zero]
    · rw [← Finset.mul_sum, Finset.sum_ite_eq, if_pos]
      · simp [azim]
      · rw [Finset.mem_range, Cyl.nAxi, Cyl.idx0]
        have h1 := hR.lt
        have h2 := hz.lt
        have : (kz + 1) * g.gridR.length ≤ g.gridz.length * g.gridR.length := Nat.mul_le_mul_right _ (by omega)
        simp only [Bool.false_eq_true, if_false]
        nlinarith
    · intro ν _
      refine Finset.sum_eq_zero fun q hq => ?_
      rw [Finset.mem_range, Cyl.nAxi] at hq
      simp only [Bool.false_eq_true, if_false] at hq
      rw [if_neg, mul_zero]
      rw [Cyl.idx0]
      have : (1 * g.gridz.length) * g.gridR.length ≤ ((ν + 1) * g.gridz.length) * g.gridR.length := Nat.mul_le_mul_right _ (Nat.mul_le_mul_right _ (by omega))
      nlinarith
  · have hR' : InSeg g.gridR kR (√((cylPoint R z phi).x ^ 2 + (cylPoint R z phi).y ^ 2)) := by rw [eR]; exact hR
    have hz' : InSeg g.gridz kz |(cylPoint R z phi).z| := by rw [ez]; exact hz
    simp only [(cyl_add1 hv h0 hR' hz').2, eR, ez]
    rw [← Finset.mul_sum, Cyl.nAxi, if_pos rfl, cyl_basis_sum hv _ hR0.le (hR.hi.trans (hv.okR.le hR.lt le_rfl)) hz0 (hz.hi.trans (hv.okz.le hz.lt le_rfl)), mul_one]

/-- The sum of the elements with m=0, which come first, is the approximation of the mass within the grid provided by the quadrature rule. -/
theorem C94_cyl_mass {mmax : ℤ} {gR gz : List ℝ} {g : Cyl} (hg : mkCyl mmax gR gz = some g) (linear : Bool) (d : Dens) (hd : d.zrot = true → ∀ R z phi phi', d.rho R z phi = d.rho R z phi') :
    ∑ q ∈ Finset.range (g.nAxi linear), g.proj linear d q = ∑ kR ∈ Finset.range g.gridR.length, ∑ aR ∈ Finset.range 6, ∑ kz ∈ Finset.range g.gridz.length, ∑ az ∈ Finset.range 6, ∑ i ∈ Finset.range (max g.mmax 16 + 1),
      g.qweight (max g.mmax 16) kR aR kz az i * d.rho (qrad g.gridR kR aR) (qrad g.gridz kz az) (ringPhi (max g.mmax 16) i) := by
  have hv := (mkCyl_valid hg).1
  simp only [C94_cyl hg linear d hd]
  rw [Finset.sum_comm]
  refine Finset.sum_congr rfl fun kR hkR => ?_
  rw [Finset.sum_comm]
  refine Finset.sum_congr rfl fun aR haR => ?_
  rw [Finset.sum_comm]
  refine Finset.sum_congr rfl fun kz hkz => ?_
  rw [Finset.sum_comm]
  refine Finset.sum_congr rfl fun az haz => ?_
  rw [Finset.sum_comm]
  refine Finset.sum_congr rfl fun i _ => ?_
  rw [Finset.mem_range] at hkR haR hkz haz
  have r1 := qrad_range hv.okR hkR haR
  have z1 := qrad_range hv.okz hkz haz
  have r0 := node_nonneg hv.okR hkR.le
  have z0 := node_nonneg hv.okz hkz.le
  exact cyl_point_sum hv linear _ _ (qrad_seg hv.okR hkR haR) (qrad_seg hv.okz hkz haz) (by linarith) (by linarith)

/-- All points of the quadrature rule are within their cells and have positive weights. -/
theorem C94_cyl_points {mmax : ℤ} {gR gz : List ℝ} {g : Cyl} (hg : mkCyl mmax gR gz = some g) {kR aR kz az : ℕ} (M i : ℕ) (hkR : kR < g.gridR.length) (haR : aR < 6) (hkz : kz < g.gridz.length) (haz : az < 6) :
    0 < g.qweight M kR aR kz az i ∧ (node g.gridR kR < qrad g.gridR kR aR ∧ qrad g.gridR kR aR < node g.gridR (kR + 1)) ∧ node g.gridz kz < qrad g.gridz kz az ∧ qrad g.gridz kz az < node g.gridz (kz + 1) := by
  have hv := (mkCyl_valid hg).1
  have r1 := qrad_range hv.okR hkR haR
  have z1 := qrad_range hv.okz hkz haz
  have r0 := node_nonneg hv.okR hkR.le
  refine ⟨?_, r1, z1⟩
  have h1 := glw6_pos haR
  have h2 := glw6_pos haz
  have h3 : 0 < node g.gridR (kR + 1) - node g.gridR kR := by linarith [hv.okR.step hkR]
  have h4 : 0 < node g.gridz (kz + 1) - node g.gridz kz := by linarith [hv.okz.step hkz]
  have h5 : 0 < qrad g.gridR kR aR := by linarith
  have h6 : 0 < ringW M i := by
    unfold ringW
    have := pi_pos
    split_ifs <;> positivity
  unfold Cyl.qweight
  positivity

/-- an axisymmetric density that says so, and a non-axisymmetric one -/
example : ((⟨fun R _ _ => R, true, true⟩ : Dens).zrot = true → ∀ R z phi phi', (⟨fun R _ _ => R, true, true⟩ : Dens).rho R z phi = (⟨fun R _ _ => R, true, true⟩ : Dens).rho R z phi') ∧
    ((⟨fun _ _ phi => 2 + cos phi, false, false⟩ : Dens).zrot = true → ∀ R z phi phi', (⟨fun _ _ phi => 2 + cos phi, false, false⟩ : Dens).rho R z phi = (⟨fun _ _ phi => 2 + cos phi, false, false⟩ : Dens).rho R z phi') :=
  ⟨fun _ _ _ _ _ => rfl, fun h => by cases h⟩

end

end Verif.DensGrid
