import Verif.Pot.Symmetry
import Verif.SphHarm.Fourier

/-!
# C65: averaging over angles

Models `/repo/src/potential_base.cpp:195-590` (`sphericalAverage`, `azimuthalAverage`, `GetPotential`, `Sphericalized<BasePotential>::evalDeriv`,
`Axisymmetrized<BasePotential>::evalCyl`).  Number model (E), the quadrature constants are the decimal literals of the code.
Infinite arguments are not modelled.
-/

namespace Verif.Pot

open Real Verif.Coord

/-! ## model -/

/-- potential_base.cpp:226, 264: `M_PI/(nphi+0.5) * i`, `nphi=8` -/
noncomputable def avgPhi (i : ℕ) : ℝ := π / (8 + 0.5) * i
/-- potential_base.cpp:207-208 -/
noncomputable def costh (i : ℕ) : ℝ :=
  ([0.9775206135612875, 0.8853209468390958, 0.7342101772154106, 0.5471536263305554, 0.3526247171131696, 0.1802406917368924,
    0.0562625605369222, 0] : List ℝ).getD i 0
/-- potential_base.cpp:209-210 -/
noncomputable def sinth (i : ℕ) : ℝ :=
  ([0.2108398682952634, 0.4649804523718464, 0.6789222456756852, 0.8370322031996875, 0.9357648256270681, 0.9836225358551961,
    0.9984160076249926, 1] : List ℝ).getD i 0
/-- potential_base.cpp:211-212 -/
noncomputable def gweight (i : ℕ) : ℝ :=
  ([0.02862720368606458, 0.06241197533246655, 0.08675369890862478, 0.09789304186312342, 0.09412938634727970, 0.07603265516169632,
    0.04633953870074772, 0.015625] : List ℝ).getD i 0

/-- potential_base.cpp:247-277; `rows i` are the `K` values which `fnc.evalCyl` stores for the i-th point at `result[i*K .. i*K+K-1]` -/
noncomputable def azimuthalAverage (ysym : Bool) (K : ℕ) (fnc : PosCyl → List ℝ) (R z : ℝ) : List ℝ :=
  let npoints := if ysym then 8 + 1 else 2 * 8 + 1
  let pos : ℕ → PosCyl := fun i => ⟨R, z, avgPhi i⟩
  let values : ℕ → ℝ := fun j => (fnc (pos (j / K))).getD (j % K) 0
  (List.range K).map fun k =>
    (∑ i ∈ Finset.range npoints, values (i * K + k) * (if ysym && decide (i > 0) then 2 else 1)) * (1 / (2 * 8 + 1))

/-- potential_base.cpp:222-225: the points, `ith < Ntheta`, `iph < Nphi` -/
noncomputable def sphPoint (r : ℝ) (ith iph : ℕ) : PosCyl :=
  ⟨r * sinth (ith % 8), r * (costh (ith % 8) * (if ith < 8 then 1 else -1)), avgPhi iph⟩

/-- potential_base.cpp:199-244 -/
noncomputable def sphericalAverage (zrot ysym zsym : Bool) (K : ℕ) (fnc : PosCyl → List ℝ) (r : ℝ) : List ℝ :=
  let Nphi := if zrot then 1 else if ysym then 8 + 1 else 2 * 8 + 1
  let Ntheta := if zsym then 8 else 2 * 8 - 1
  let values : ℕ → ℝ := fun j => (fnc (sphPoint r (j / K / Nphi) (j / K % Nphi))).getD (j % K) 0
  (List.range K).map fun k =>
    let s := ∑ ith ∈ Finset.range Ntheta, ∑ iph ∈ Finset.range Nphi,
      values ((ith * Nphi + iph) * K + k) * (gweight (ith % 8) * (if zsym && decide (ith < 8 - 1) then 2 else 1) * (if ysym && decide (iph > 0) then 2 else 1))
    if Nphi > 1 then s * (1 / (2 * 8 + 1)) else s

/-- potential_base.cpp:279-327 (`GetPotential::evalSph`), the values stored for one point; `invr` is computed from the first point -/
noncomputable def getSph (needPhi needDer needDer2 : Bool) (invr : ℝ) (pot : PosCyl → OutCyl) (pos : PosCyl) : List ℝ :=
  let o := pot pos
  let dRdr := pos.R * invr
  let dzdr := pos.z * invr
  let dPhidr := o.grad.dR * dRdr + o.grad.dz * dzdr
  let d2Phidr2 := o.hess.dR2 * dRdr ^ 2 + o.hess.dz2 * dzdr ^ 2 + 2 * o.hess.dRdz * dRdr * dzdr
  if needDer2 then
    if needDer then if needPhi then [o.pot, dPhidr, d2Phidr2] else [dPhidr, d2Phidr2]
    else if needPhi then [o.pot, d2Phidr2] else [d2Phidr2]
  else if needDer then if needPhi then [o.pot, dPhidr] else [dPhidr]
  else if needPhi then [o.pot] else []
/-- potential_base.cpp:288 -/
noncomputable def sphInvr (r : ℝ) : ℝ := 1 / (√((sphPoint r 0 0).R ^ 2 + (sphPoint r 0 0).z ^ 2) + 1e-100)

/-- potential_base.cpp:329-378 (`GetPotential::evalCyl`), the values stored for one point -/
def getCyl (needPhi needDer needDer2 : Bool) (pot : PosCyl → OutCyl) (pos : PosCyl) : List ℝ :=
  let o := pot pos
  if needDer2 then
    if needDer then
      if needPhi then [o.pot, o.grad.dR, o.grad.dz, o.hess.dR2, o.hess.dz2, o.hess.dRdz]
      else [o.grad.dR, o.grad.dz, o.hess.dR2, o.hess.dz2, o.hess.dRdz]
    else if needPhi then [o.pot, o.hess.dR2, o.hess.dz2, o.hess.dRdz] else [o.hess.dR2, o.hess.dz2, o.hess.dRdz]
  else if needDer then if needPhi then [o.pot, o.grad.dR, o.grad.dz] else [o.grad.dR, o.grad.dz]
  else if needPhi then [o.pot] else []

/-- outputs of `evalDeriv`, only the requested ones -/
structure OutDer where (val der der2 : Option ℝ)

open Classical in
/-- potential_base.cpp:434-485 -/
noncomputable def sphericalizedEval (zrot ysym zsym spherical : Bool) (pot : PosCyl → OutCyl) (val der der2 : Bool) (r : ℝ) : OutDer :=
  if spherical = true ∨ r = 0 then
    let o := pot ⟨r, 0, 0⟩
    ⟨if val then some o.pot else none, if der then some o.grad.dR else none, if der2 then some o.hess.dR2 else none⟩
  else
    let avg (K : ℕ) (a b c : Bool) := sphericalAverage zrot ysym zsym K (getSph a b c (sphInvr r) pot) r
    if val then
      if der then
        if der2 then
          let result := avg 3 true true true
          ⟨result[0]?, result[1]?, result[2]?⟩
        else
          let result := avg 2 true true false
          ⟨result[0]?, result[1]?, none⟩
      else if der2 then
        let result := avg 2 true false true
        ⟨result[0]?, none, result[1]?⟩
      else
        let result := avg 1 true false false
        ⟨result[0]?, none, none⟩
    else if der then
      if der2 then
        let result := avg 2 false true true
        ⟨none, result[0]?, result[1]?⟩
      else
        let result := avg 1 false true false
        ⟨none, result[0]?, none⟩
    else if der2 then
      let result := avg 1 false false true
      ⟨none, none, result[0]?⟩
    else ⟨none, none, none⟩

/-- outputs of `evalCyl`, only the requested ones (the elements not mentioned are assigned zero) -/
structure OutAxi where (val : Option ℝ) (dR dz : Option ℝ) (dR2 dz2 dRdz : Option ℝ)

open Classical in
/-- potential_base.cpp:520-590, not z-rotation symmetric, not at the origin -/
noncomputable def axisymmetrizedEval (ysym : Bool) (pot : PosCyl → OutCyl) (value grad hess : Bool) (pos : PosCyl) : OutAxi :=
  let avg (K : ℕ) (a b c : Bool) := azimuthalAverage ysym K (getCyl a b c pot) pos.R pos.z
  if value then
    if grad then
      if hess then
        let result := avg 6 true true true
        ⟨result[0]?, result[1]?, result[2]?, result[3]?, result[4]?, result[5]?⟩
      else
        let result := avg 3 true true false
        ⟨result[0]?, result[1]?, result[2]?, none, none, none⟩
    else if hess then
      let result := avg 4 true false true
      ⟨result[0]?, none, none, result[1]?, result[2]?, result[3]?⟩
    else
      let result := avg 1 true false false
      ⟨result[0]?, none, none, none, none, none⟩
  else if grad then
    if hess then
      let result := avg 5 false true true
      ⟨none, result[0]?, result[1]?, result[2]?, result[3]?, result[4]?⟩
    else
      let result := avg 2 false true false
      ⟨none, result[0]?, result[1]?, none, none, none⟩
  else if hess then
    let result := avg 3 false false true
    ⟨none, none, none, result[0]?, result[1]?, result[2]?⟩
  else ⟨none, none, none, none, none, none⟩

/-! ## specification -/

/-- average over the azimuth at 17 equally spaced points -/
noncomputable def meanPhi (g : ℝ → ℝ) : ℝ := (∑ i ∈ Finset.range 17, g (2 * π * i / 17)) / 17

/-- weighted average over the sphere of radius `r`: 15 values of cos(theta), symmetric in the sign, times 17 azimuths -/
noncomputable def meanSphere (g : PosCyl → ℝ) (r : ℝ) : ℝ :=
  (∑ i ∈ Finset.range 7, gweight i * (meanPhi (fun phi => g ⟨r * sinth i, r * costh i, phi⟩) + meanPhi (fun phi => g ⟨r * sinth i, -(r * costh i), phi⟩)))
    + gweight 7 * meanPhi (fun phi => g ⟨r, 0, phi⟩)

/-- output if requested -/
def want (b : Bool) (x : ℝ) : Option ℝ := if b then some x else none

/-! ## azimuthal average -/

theorem avgPhi_eq (i : ℕ) : avgPhi i = 2 * π * i / 17 := by rw [avgPhi]; ring

/-- C65: the shortcut for a y-symmetric function gives the same as the full sum -/
theorem meanPhi_ysym (g : ℝ → ℝ) (hev : ∀ p, g (-p) = g p) (hper : ∀ p, g (p + 2 * π) = g p) :
    (∑ i ∈ Finset.range 9, g (2 * π * i / 17) * (if i > 0 then 2 else 1)) / 17 = meanPhi g := by
  have key : ∀ a b : ℕ, a + b = 17 → g (2 * π * b / 17) = g (2 * π * a / 17) := by
    intro a b hab
    refine (congrArg g ?_).trans ((hper _).trans (hev (2 * π * a / 17)))
    have : (b : ℝ) = 17 - a := by have : (a : ℝ) + b = 17 := by exact_mod_cast hab
                                  linarith
    rw [this]; ring
  rw [meanPhi]
  simp only [Finset.sum_range_succ, Finset.sum_range_zero]
  have h1 := key 1 16 rfl
  have h2 := key 2 15 rfl
  have h3 := key 3 14 rfl
  have h4 := key 4 13 rfl
  have h5 := key 5 12 rfl
  have h6 := key 6 11 rfl
  have h7 := key 7 10 rfl
  have h8 := key 8 9 rfl
  rw [h1, h2, h3, h4, h5, h6, h7, h8]
  norm_num
  ring

theorem azAvg_get (ysym : Bool) (K : ℕ) (fnc : PosCyl → List ℝ) (R z : ℝ) (k : ℕ) (hk : k < K)
    (hs : ysym = true → ∀ p, (fnc ⟨R, z, -p⟩).getD k 0 = (fnc ⟨R, z, p⟩).getD k 0 ∧ (fnc ⟨R, z, p + 2 * π⟩).getD k 0 = (fnc ⟨R, z, p⟩).getD k 0) :
    (azimuthalAverage ysym K fnc R z)[k]? = some (meanPhi fun phi => (fnc ⟨R, z, phi⟩).getD k 0) := by
  have hdiv : ∀ i, (i * K + k) / K = i := fun i => by
    rw [Nat.mul_comm, Nat.mul_add_div (by omega), Nat.div_eq_of_lt hk, Nat.add_zero]
  have hmod : ∀ i, (i * K + k) % K = k := fun i => by
    rw [Nat.mul_comm, Nat.mul_add_mod, Nat.mod_eq_of_lt hk]
  simp only [azimuthalAverage, List.getElem?_map, List.getElem?_range hk, Option.map_some, hdiv, hmod, avgPhi_eq]
  congr 1
  cases ysym
  · simp only [Bool.false_eq_true, if_false, Bool.false_and, mul_one, meanPhi]
    norm_num
    ring
  · have := meanPhi_ysym (fun phi => (fnc ⟨R, z, phi⟩).getD k 0) (fun p => (hs rfl p).1) (fun p => (hs rfl p).2)
    rw [← this]
    simp only [if_true, Bool.true_and, decide_eq_true_eq]
    norm_num
    ring

/-- C65: the average over 17 points is the exact mean for every trigonometric polynomial of order up to 16 -/
theorem C65_exact_phi (a b : ℕ → ℝ) :
    let g := fun p : ℝ => ∑ m ∈ Finset.range 17, (a m * cos (m * p) + b m * sin (m * p))
    meanPhi g = 1 / (2 * π) * ∫ p in (0 : ℝ)..(2 * π), g p ∧ meanPhi g = a 0 := by
  intro g
  have hq : ∀ f : ℝ → ℝ, meanPhi f = 1 / (2 * π) * Fourier.quad 8 f := by
    intro f
    have e : ∀ i : ℕ, Fourier.phi 8 i = 2 * π * i / 17 := fun i => by rw [Fourier.phi]; push_cast; ring
    rw [meanPhi, Fourier.quad]
    simp only [e]
    push_cast
    norm_num
    field_simp
  have hE : Fourier.ExactQ 8 g := by
    refine Fourier.ExactQ.sum 17 fun m hm => ?_
    have h1 := (Fourier.exact_cos 8 (m : ℤ) (by push_cast; rw [abs_of_nonneg (by positivity)]; omega)).smul (a m)
    have h2 := (Fourier.exact_sin 8 (m : ℤ) (by push_cast; rw [abs_of_nonneg (by positivity)]; omega)).smul (b m)
    have := h1.add h2
    simpa using this
  refine ⟨by rw [hq, hE.2], ?_⟩
  have hm : meanPhi g = ∑ m ∈ Finset.range 17, (a m * meanPhi (fun p => cos (m * p)) + b m * meanPhi (fun p => sin (m * p))) := by
    simp only [meanPhi, g]
    rw [Finset.sum_comm, Finset.sum_div]
    refine Finset.sum_congr rfl fun m _ => ?_
    rw [Finset.sum_add_distrib, ← Finset.mul_sum, ← Finset.mul_sum]
    ring
  have hz : ∀ m : ℕ, m ≠ 0 → m < 17 → meanPhi (fun p => cos (m * p)) = 0 ∧ meanPhi (fun p => sin (m * p)) = 0 := by
    intro m h0 h1
    have := Fourier.sum_cos_sin 8 (m : ℤ) (by exact_mod_cast h0) (by push_cast; rw [abs_of_nonneg (by positivity)]; omega)
    have e : ∀ i : ℕ, Fourier.phi 8 i = 2 * π * i / 17 := fun i => by rw [Fourier.phi]; push_cast; ring
    simp only [e, Int.cast_natCast] at this
    norm_num at this
    simp only [meanPhi]
    exact ⟨by rw [this.1, zero_div], by rw [this.2, zero_div]⟩
  rw [hm, Finset.sum_eq_single 0]
  · simp [meanPhi]
  · intro m hm h0
    obtain ⟨e1, e2⟩ := hz m h0 (Finset.mem_range.1 hm)
    rw [e1, e2, mul_zero, mul_zero, add_zero]
  · simp

/-- C65: the outputs of the axisymmetrized potential, for every combination of requested outputs: each is the azimuthal mean of the same quantity
of the original potential; the shortcut for y-symmetric potentials does not change this -/
theorem C65_axisymmetrized (ysym : Bool) (pot : PosCyl → OutCyl) (pos : PosCyl) (value grad hess : Bool)
    (hs : ysym = true → ∀ p a b c, (∀ k, (getCyl a b c pot ⟨pos.R, pos.z, -p⟩).getD k 0 = (getCyl a b c pot ⟨pos.R, pos.z, p⟩).getD k 0) ∧
      (∀ k, (getCyl a b c pot ⟨pos.R, pos.z, p + 2 * π⟩).getD k 0 = (getCyl a b c pot ⟨pos.R, pos.z, p⟩).getD k 0)) :
    axisymmetrizedEval ysym pot value grad hess pos =
      { val := want value (meanPhi fun phi => (pot ⟨pos.R, pos.z, phi⟩).pot)
        dR := want grad (meanPhi fun phi => (pot ⟨pos.R, pos.z, phi⟩).grad.dR)
        dz := want grad (meanPhi fun phi => (pot ⟨pos.R, pos.z, phi⟩).grad.dz)
        dR2 := want hess (meanPhi fun phi => (pot ⟨pos.R, pos.z, phi⟩).hess.dR2)
        dz2 := want hess (meanPhi fun phi => (pot ⟨pos.R, pos.z, phi⟩).hess.dz2)
        dRdz := want hess (meanPhi fun phi => (pot ⟨pos.R, pos.z, phi⟩).hess.dRdz) } := by
  have key : ∀ (K : ℕ) (a b c : Bool) (k : ℕ), k < K → (azimuthalAverage ysym K (getCyl a b c pot) pos.R pos.z)[k]? =
      some (meanPhi fun phi => (getCyl a b c pot ⟨pos.R, pos.z, phi⟩).getD k 0) := fun K a b c k hk =>
    azAvg_get ysym K _ _ _ k hk fun h p => ⟨(hs h p a b c).1 k, (hs h p a b c).2 k⟩
  cases value <;> cases grad <;> cases hess <;>
    simp only [axisymmetrizedEval, Bool.false_eq_true, if_true, if_false, key, want, getCyl, Nat.one_lt_ofNat, Nat.ofNat_pos,
      show 2 < 3 by decide, show 2 < 4 by decide, show 3 < 4 by decide, show 2 < 5 by decide, show 3 < 5 by decide, show 4 < 5 by decide,
      show 2 < 6 by decide, show 3 < 6 by decide, show 4 < 6 by decide, show 5 < 6 by decide, zero_lt_one] <;> rfl

theorem grad_of_sym (sig : ℝ → ℝ) (F : PosCyl → ℝ) (hF : ∀ q : PosCyl, 0 < q.R → F ⟨q.R, q.z, sig q.phi⟩ = F q) (p : PosCyl) (hp : 0 < p.R) (g g' : GradCyl)
    (hg : IsGradCyl F p g) (hg' : IsGradCyl F ⟨p.R, p.z, sig p.phi⟩ g') : g'.dR = g.dR ∧ g'.dz = g.dz := by
  constructor
  · have h1 := hg (fun s => p.R + s) (fun _ => p.z) (fun _ => p.phi) 1 0 0 0 ((hasDerivAt_id 0).const_add p.R) (hasDerivAt_const _ _) (hasDerivAt_const _ _)
      (by simp)
    have h2 := hg' (fun s => p.R + s) (fun _ => p.z) (fun _ => sig p.phi) 1 0 0 0 ((hasDerivAt_id 0).const_add p.R) (hasDerivAt_const _ _)
      (hasDerivAt_const _ _) (by simp)
    have he : (fun s => F ⟨p.R + s, p.z, p.phi⟩) =ᶠ[nhds 0] fun s => F ⟨p.R + s, p.z, sig p.phi⟩ := by
      filter_upwards [Ioi_mem_nhds (show -p.R < 0 by linarith)] with s hs
      exact (hF ⟨p.R + s, p.z, p.phi⟩ (by have := Set.mem_Ioi.1 hs; simp only []; linarith)).symm
    have := (h1.congr_of_eventuallyEq he.symm).unique h2
    linarith
  · have h1 := hg (fun _ => p.R) (fun s => p.z + s) (fun _ => p.phi) 0 1 0 0 (hasDerivAt_const _ _) ((hasDerivAt_id 0).const_add p.z) (hasDerivAt_const _ _)
      (by simp)
    have h2 := hg' (fun _ => p.R) (fun s => p.z + s) (fun _ => sig p.phi) 0 1 0 0 (hasDerivAt_const _ _) ((hasDerivAt_id 0).const_add p.z)
      (hasDerivAt_const _ _) (by simp)
    have he : (fun s => F ⟨p.R, p.z + s, p.phi⟩) = fun s => F ⟨p.R, p.z + s, sig p.phi⟩ := funext fun s => (hF ⟨p.R, p.z + s, p.phi⟩ hp).symm
    rw [he] at h1
    have := h1.unique h2
    linarith

/-- if the potential is unchanged by an operation on the azimuth, so are its derivatives in the meridional plane -/
theorem out_of_sym (sig : ℝ → ℝ) (pot : PosCyl → OutCyl) (hok : ∀ p : PosCyl, 0 < p.R → OkCyl pot p)
    (hF : ∀ q : PosCyl, 0 < q.R → (pot ⟨q.R, q.z, sig q.phi⟩).pot = (pot q).pot) (p : PosCyl) (hp : 0 < p.R) (a b c : Bool) (k : ℕ) :
    (getCyl a b c pot ⟨p.R, p.z, sig p.phi⟩).getD k 0 = (getCyl a b c pot p).getD k 0 := by
  have hg : ∀ q : PosCyl, 0 < q.R → (pot ⟨q.R, q.z, sig q.phi⟩).grad.dR = (pot q).grad.dR ∧ (pot ⟨q.R, q.z, sig q.phi⟩).grad.dz = (pot q).grad.dz :=
    fun q hq => grad_of_sym sig (fun q => (pot q).pot) hF q hq _ _ (hok q hq).1 (hok ⟨q.R, q.z, sig q.phi⟩ hq).1
  have h1 := grad_of_sym sig (fun q => (pot q).grad.dR) (fun q hq => (hg q hq).1) p hp _ _ (hok p hp).2.1 (hok ⟨p.R, p.z, sig p.phi⟩ hp).2.1
  have h2 := grad_of_sym sig (fun q => (pot q).grad.dz) (fun q hq => (hg q hq).2) p hp _ _ (hok p hp).2.2.1 (hok ⟨p.R, p.z, sig p.phi⟩ hp).2.2.1
  simp only [] at h1 h2
  simp only [getCyl, hF p hp, (hg p hp).1, (hg p hp).2, h1.1, h1.2, h2.2]

/-- the averaged potential with all its derivatives (specification) -/
noncomputable def meanOut (pot : PosCyl → OutCyl) (pos : PosCyl) : OutCyl :=
  { pot := meanPhi fun phi => (pot ⟨pos.R, pos.z, phi⟩).pot
    grad := ⟨meanPhi fun phi => (pot ⟨pos.R, pos.z, phi⟩).grad.dR, meanPhi fun phi => (pot ⟨pos.R, pos.z, phi⟩).grad.dz, 0⟩
    hess :=
    { dR2 := meanPhi fun phi => (pot ⟨pos.R, pos.z, phi⟩).hess.dR2
      dz2 := meanPhi fun phi => (pot ⟨pos.R, pos.z, phi⟩).hess.dz2
      dRdz := meanPhi fun phi => (pot ⟨pos.R, pos.z, phi⟩).hess.dRdz
      dRdphi := 0, dzdphi := 0, dphi2 := 0 } }

/-- C65: off the z axis, the axisymmetrized potential reports, for every combination of requests, the azimuthal means; and these form a potential
with consistent first and second derivatives that does not depend on the azimuth -/
theorem C65_axisymmetrized_ok (ysym : Bool) (pot : PosCyl → OutCyl) (pos : PosCyl) (value grad hess : Bool) (hR : 0 < pos.R)
    (hok : ∀ p : PosCyl, 0 < p.R → OkCyl pot p)
    (hper : ∀ q : PosCyl, (pot ⟨q.R, q.z, q.phi + 2 * π⟩).pot = (pot q).pot)
    (hsym : ysym = true → ∀ q : PosCyl, (pot ⟨q.R, q.z, -q.phi⟩).pot = (pot q).pot) :
    axisymmetrizedEval ysym pot value grad hess pos =
      { val := want value (meanOut pot pos).pot
        dR := want grad (meanOut pot pos).grad.dR, dz := want grad (meanOut pot pos).grad.dz
        dR2 := want hess (meanOut pot pos).hess.dR2, dz2 := want hess (meanOut pot pos).hess.dz2, dRdz := want hess (meanOut pot pos).hess.dRdz } ∧
    OkCyl (meanOut pot) pos ∧ ∀ phi, meanOut pot ⟨pos.R, pos.z, phi⟩ = meanOut pot pos := by
  refine ⟨?_, ?_, fun phi => rfl⟩
  · refine C65_axisymmetrized ysym pot pos value grad hess fun hy p a b c => ⟨fun k => ?_, fun k => ?_⟩
    · exact out_of_sym (fun x => -x) pot hok (fun q _ => hsym hy q) ⟨pos.R, pos.z, p⟩ hR a b c k
    · exact out_of_sym (fun x => x + 2 * π) pot hok (fun q _ => hper q) ⟨pos.R, pos.z, p⟩ hR a b c k
  · have key : ∀ (F : PosCyl → ℝ) (G : PosCyl → GradCyl), (∀ phi, IsGradCyl F ⟨pos.R, pos.z, phi⟩ (G ⟨pos.R, pos.z, phi⟩)) →
        IsGradCyl (fun q => meanPhi fun phi => F ⟨q.R, q.z, phi⟩) pos
          ⟨meanPhi fun phi => (G ⟨pos.R, pos.z, phi⟩).dR, meanPhi fun phi => (G ⟨pos.R, pos.z, phi⟩).dz, 0⟩ := by
      intro F G h R z phi R' z' phi' t hR hz hphi hp
      have h1 : ∀ i ∈ Finset.range 17, HasDerivAt (fun s => F ⟨R s, z s, 2 * π * i / 17⟩)
          ((G ⟨pos.R, pos.z, 2 * π * i / 17⟩).dR * R' + (G ⟨pos.R, pos.z, 2 * π * i / 17⟩).dz * z') t := by
        intro i _
        refine (h (2 * π * i / 17) R z (fun _ => 2 * π * i / 17) R' z' 0 t hR hz (hasDerivAt_const _ _) ?_).congr_deriv (by ring)
        rw [← hp]
      refine ((HasDerivAt.fun_sum h1).div_const 17).congr_deriv ?_
      simp only [meanPhi, Finset.sum_add_distrib, ← Finset.sum_mul]
      ring
    have hk : ∀ phi, OkCyl pot ⟨pos.R, pos.z, phi⟩ := fun phi => hok _ hR
    refine ⟨key (fun q => (pot q).pot) (fun q => (pot q).grad) fun phi => (hk phi).1,
      key (fun q => (pot q).grad.dR) (fun q => ⟨(pot q).hess.dR2, (pot q).hess.dRdz, (pot q).hess.dRdphi⟩) fun phi => (hk phi).2.1,
      key (fun q => (pot q).grad.dz) (fun q => ⟨(pot q).hess.dRdz, (pot q).hess.dz2, (pot q).hess.dzdphi⟩) fun phi => (hk phi).2.2.1, ?_⟩
    intro R z phi R' z' phi' t _ _ _ _
    exact (hasDerivAt_const t 0).congr_deriv (by simp only [meanOut]; ring)

/-! ## spherical average -/

theorem sum_range15 (f : ℕ → ℝ) : ∑ i ∈ Finset.range 15, f i = (∑ i ∈ Finset.range 7, (f i + f (i + 8))) + f 7 := by
  simp only [Finset.sum_range_succ, Finset.sum_range_zero]; ring

theorem sphPoint_lo (r : ℝ) (i j : ℕ) (hi : i < 8) : sphPoint r i j = ⟨r * sinth i, r * costh i, 2 * π * j / 17⟩ := by
  simp only [sphPoint, Nat.mod_eq_of_lt hi, if_pos hi, mul_one, avgPhi_eq]
theorem sphPoint_hi (r : ℝ) (i j : ℕ) (hi : i < 7) : sphPoint r (i + 8) j = ⟨r * sinth i, -(r * costh i), 2 * π * j / 17⟩ := by
  have h1 : (i + 8) % 8 = i := by omega
  simp only [sphPoint, h1, if_neg (show ¬ i + 8 < 8 by omega), avgPhi_eq]
  congr 1; ring
theorem sphPoint_eq (r : ℝ) (j : ℕ) : sphPoint r 7 j = ⟨r, 0, 2 * π * j / 17⟩ := by
  rw [sphPoint_lo r 7 j (by norm_num)]
  norm_num [sinth, costh]

theorem sinth_pos (i : ℕ) (hi : i < 8) : 0 < sinth i := by
  interval_cases i <;> norm_num [sinth]

/-- each of the `K` results is the weighted mean over the sphere, whichever symmetry shortcuts are used -/
theorem sphAvg_get (zrot ysym zsym : Bool) (K : ℕ) (fnc : PosCyl → List ℝ) (r : ℝ) (hr : 0 < r) (k : ℕ) (hk : k < K)
    (h0 : zrot = true → ∀ R z p q, 0 < R → (fnc ⟨R, z, p⟩).getD k 0 = (fnc ⟨R, z, q⟩).getD k 0)
    (h1 : ysym = true → ∀ R z p, 0 < R → (fnc ⟨R, z, -p⟩).getD k 0 = (fnc ⟨R, z, p⟩).getD k 0 ∧ (fnc ⟨R, z, p + 2 * π⟩).getD k 0 = (fnc ⟨R, z, p⟩).getD k 0)
    (h2 : zsym = true → ∀ R z p, 0 < R → (fnc ⟨R, -z, p⟩).getD k 0 = (fnc ⟨R, z, p⟩).getD k 0) :
    (sphericalAverage zrot ysym zsym K fnc r)[k]? = some (meanSphere (fun q => (fnc q).getD k 0) r) := by
  set G : PosCyl → ℝ := fun q => (fnc q).getD k 0 with hG
  have hdiv : ∀ i, (i * K + k) / K = i := fun i => by
    rw [Nat.mul_comm, Nat.mul_add_div (by omega), Nat.div_eq_of_lt hk, Nat.add_zero]
  have hmod : ∀ i, (i * K + k) % K = k := fun i => by
    rw [Nat.mul_comm, Nat.mul_add_mod, Nat.mod_eq_of_lt hk]
  -- inner sum
  have inner : ∀ ith, (let Nphi := if zrot then 1 else if ysym then 8 + 1 else 2 * 8 + 1
      (∑ iph ∈ Finset.range Nphi, G (sphPoint r ith iph) * (if ysym && decide (iph > 0) then 2 else 1)) * (if Nphi > 1 then 1 / (2 * 8 + 1) else 1)) =
      meanPhi fun phi => G ⟨(sphPoint r ith 0).R, (sphPoint r ith 0).z, phi⟩ := by
    intro ith
    obtain ⟨A, B, hA, hp⟩ : ∃ A B, 0 < A ∧ ∀ iph, sphPoint r ith iph = ⟨A, B, 2 * π * iph / 17⟩ :=
      ⟨_, _, mul_pos hr (sinth_pos (ith % 8) (Nat.mod_lt _ (by norm_num))), fun iph => by simp only [sphPoint, avgPhi_eq]; rfl⟩
    simp only [hp]
    cases zrot with
    | true =>
      have hc : ∀ p, G ⟨A, B, p⟩ = G ⟨A, B, 0⟩ := fun p => h0 rfl _ _ _ _ hA
      simp only [if_true, Finset.sum_range_one, meanPhi, hc, gt_iff_lt, lt_irrefl, decide_false, Bool.and_false, Bool.false_eq_true, if_false]
      simp
    | false =>
      cases ysym with
      | true =>
        rw [← meanPhi_ysym _ (fun p => (h1 rfl _ _ p hA).1) (fun p => (h1 rfl _ _ p hA).2)]
        simp only [if_true, Bool.true_and, decide_eq_true_eq, Bool.false_eq_true, if_false]
        norm_num
        ring
      | false =>
        simp only [Bool.false_eq_true, if_false, Bool.false_and, mul_one, meanPhi]
        norm_num
        ring
  have hpos : 0 < (if zrot then 1 else if ysym then 8 + 1 else 2 * 8 + 1) := by split_ifs <;> norm_num
  have hout : ∀ Nphi Ntheta : ℕ, 0 < Nphi → ∑ ith ∈ Finset.range Ntheta, ∑ iph ∈ Finset.range Nphi,
      (fnc (sphPoint r (((ith * Nphi + iph) * K + k) / K / Nphi) (((ith * Nphi + iph) * K + k) / K % Nphi))).getD (((ith * Nphi + iph) * K + k) % K) 0 *
        (gweight (ith % 8) * (if zsym && decide (ith < 8 - 1) then 2 else 1) * (if ysym && decide (iph > 0) then 2 else 1)) =
      ∑ ith ∈ Finset.range Ntheta, gweight (ith % 8) * (if zsym && decide (ith < 8 - 1) then 2 else 1) *
        ∑ iph ∈ Finset.range Nphi, G (sphPoint r ith iph) * (if ysym && decide (iph > 0) then 2 else 1) := by
    intro Nphi Ntheta hN
    refine Finset.sum_congr rfl fun ith _ => ?_
    rw [Finset.mul_sum]
    refine Finset.sum_congr rfl fun iph hi => ?_
    have hi := Finset.mem_range.1 hi
    have e1 : (ith * Nphi + iph) / Nphi = ith := by rw [Nat.mul_comm, Nat.mul_add_div hN, Nat.div_eq_of_lt hi, Nat.add_zero]
    have e2 : (ith * Nphi + iph) % Nphi = iph := by rw [Nat.mul_comm, Nat.mul_add_mod, Nat.mod_eq_of_lt hi]
    rw [hdiv, hmod, e1, e2]
    ring
  simp only [sphericalAverage, List.getElem?_map, List.getElem?_range hk, Option.map_some]
  congr 1
  rw [hout _ _ hpos]
  have hif : ∀ (c : Prop) [Decidable c] (S : ℝ), (if c then S * (1 / (2 * 8 + 1)) else S) = S * (if c then 1 / (2 * 8 + 1) else 1) := by
    intro c _ S; split_ifs <;> ring
  rw [hif, Finset.sum_mul]
  have hmul : ∀ ith, gweight (ith % 8) * (if zsym && decide (ith < 8 - 1) then 2 else 1) *
      (∑ iph ∈ Finset.range (if zrot then 1 else if ysym then 8 + 1 else 2 * 8 + 1), G (sphPoint r ith iph) * (if ysym && decide (iph > 0) then 2 else 1)) *
      (if (if zrot then 1 else if ysym then 8 + 1 else 2 * 8 + 1) > 1 then 1 / (2 * 8 + 1) else 1) =
      gweight (ith % 8) * (if zsym && decide (ith < 8 - 1) then 2 else 1) * meanPhi fun phi => G ⟨(sphPoint r ith 0).R, (sphPoint r ith 0).z, phi⟩ := by
    intro ith
    rw [← inner ith, mul_assoc]
  simp only [hmul]
  rw [meanSphere]
  cases zsym with
  | true =>
    simp only [if_true, Bool.true_and, decide_eq_true_eq]
    rw [Finset.sum_range_succ]
    congr 1
    · refine Finset.sum_congr rfl fun i hi => ?_
      have hi := Finset.mem_range.1 hi
      rw [Nat.mod_eq_of_lt (by omega), if_pos (by omega), sphPoint_lo r i 0 (by omega)]
      have : (meanPhi fun phi => G ⟨r * sinth i, -(r * costh i), phi⟩) = meanPhi fun phi => G ⟨r * sinth i, r * costh i, phi⟩ := by
        congr 1; funext phi; exact h2 rfl _ _ _ (mul_pos hr (sinth_pos i (by omega)))
      rw [this]; ring
    · rw [sphPoint_eq]; norm_num
  | false =>
    simp only [Bool.false_eq_true, if_false, Bool.false_and, mul_one]
    rw [show 2 * 8 - 1 = 15 by norm_num, sum_range15]
    congr 1
    · refine Finset.sum_congr rfl fun i hi => ?_
      have hi := Finset.mem_range.1 hi
      rw [Nat.mod_eq_of_lt (by omega), show (i + 8) % 8 = i by omega, sphPoint_lo r i 0 (by omega), sphPoint_hi r i 0 hi]
      ring
    · rw [sphPoint_eq]

theorem meanPhi_const (c : ℝ) : meanPhi (fun _ => c) = c := by simp [meanPhi]

theorem meanPhi_hasDeriv (F : ℝ → ℝ → ℝ) (D : ℝ → ℝ) (r : ℝ) (h : ∀ phi, HasDerivAt (fun s => F s phi) (D phi) r) :
    HasDerivAt (fun s => meanPhi (F s)) (meanPhi D) r := by
  have := HasDerivAt.fun_sum (u := Finset.range 17) (A := fun i s => F s (2 * π * i / 17)) (A' := fun i => D (2 * π * i / 17)) (x := r) fun i _ => h _
  exact this.div_const 17

/-- derivative of the average over a sphere with respect to the radius -/
theorem meanSphere_hasDeriv (F D : PosCyl → ℝ) (r : ℝ)
    (h : ∀ s c phi : ℝ, (∃ i < 8, s = sinth i) → HasDerivAt (fun u => F ⟨u * s, u * c, phi⟩) (D ⟨r * s, r * c, phi⟩) r) :
    HasDerivAt (fun u => meanSphere F u) (meanSphere D r) r := by
  have hb := (meanPhi_hasDeriv (fun u phi => F ⟨u, 0, phi⟩) (fun phi => D ⟨r, 0, phi⟩) r fun phi => by
    have := h 1 0 phi ⟨7, by norm_num, by norm_num [sinth]⟩
    simpa only [mul_one, mul_zero] using this).const_mul (gweight 7)
  refine HasDerivAt.add (HasDerivAt.fun_sum fun i hi => ?_) hb
  have hi := Finset.mem_range.1 hi
  refine HasDerivAt.const_mul (gweight i) (HasDerivAt.add ?_ ?_)
  · exact meanPhi_hasDeriv (fun u phi => F ⟨u * sinth i, u * costh i, phi⟩) _ r fun phi => h _ _ phi ⟨i, by omega, rfl⟩
  · refine meanPhi_hasDeriv (fun u phi => F ⟨u * sinth i, -(u * costh i), phi⟩) _ r fun phi => ?_
    have := h (sinth i) (-costh i) phi ⟨i, by omega, rfl⟩
    simpa only [mul_neg] using this

theorem meanSphere_congr (F G : PosCyl → ℝ) (r : ℝ) (hr : 0 < r) (h : ∀ q : PosCyl, 0 < q.R → F q = G q) : meanSphere F r = meanSphere G r := by
  simp only [meanSphere]
  congr 1
  · refine Finset.sum_congr rfl fun i hi => ?_
    have hp := mul_pos hr (sinth_pos i (by have := Finset.mem_range.1 hi; omega))
    congr 2 <;> congr 1 <;> funext phi <;> exact h _ hp
  · congr 2; funext phi; exact h _ hr

theorem meanPhi_smul (c : ℝ) (f : ℝ → ℝ) : meanPhi (fun p => c * f p) = c * meanPhi f := by
  simp only [meanPhi, ← Finset.mul_sum]; ring

theorem meanSphere_smul (c : ℝ) (F : PosCyl → ℝ) (r : ℝ) : meanSphere (fun q => c * F q) r = c * meanSphere F r := by
  simp only [meanSphere, meanPhi_smul]
  rw [mul_add, Finset.mul_sum]
  congr 1
  · exact Finset.sum_congr rfl fun i _ => by ring
  · ring

/-- the ratio between the exact derivative of the radius along a ray and what the code uses -/
noncomputable def kappa (r : ℝ) : ℝ := r * sphInvr r

theorem kappa_bound (r : ℝ) (hr : 1e-80 ≤ r) : |kappa r - 1| ≤ 1e-16 := by
  have h0 : 0 < r := by linarith [show (0 : ℝ) < 1e-80 by norm_num]
  have e : √((sphPoint r 0 0).R ^ 2 + (sphPoint r 0 0).z ^ 2) = r * √(sinth 0 ^ 2 + costh 0 ^ 2) := by
    rw [sphPoint_lo r 0 0 (by norm_num)]
    simp only []
    rw [show (r * sinth 0) ^ 2 + (r * costh 0) ^ 2 = r ^ 2 * (sinth 0 ^ 2 + costh 0 ^ 2) by ring, sqrt_mul (by positivity), sqrt_sq h0.le]
  have hs : 1 - 2e-17 ≤ √(sinth 0 ^ 2 + costh 0 ^ 2) ∧ √(sinth 0 ^ 2 + costh 0 ^ 2) ≤ 1 := by
    constructor
    · apply le_sqrt_of_sq_le
      norm_num [sinth, costh]
    · apply sqrt_le_one.2
      norm_num [sinth, costh]
  rw [kappa, sphInvr, e]
  set q := √(sinth 0 ^ 2 + costh 0 ^ 2)
  have hd : 0 < r * q + 1e-100 := by nlinarith [hs.1]
  rw [mul_one_div, div_sub_one hd.ne', abs_div, abs_of_pos hd, div_le_iff₀ hd, abs_le]
  constructor <;> nlinarith [hs.1, hs.2]

/-- symmetries of the potential claimed by its flags (specification); operations on `(z, phi)` -/
structure CylSym (zrot ysym zsym : Bool) (Phi : PosCyl → ℝ) : Prop where
  per : ∀ q : PosCyl, Phi ⟨q.R, q.z, q.phi + 2 * π⟩ = Phi q
  rot : zrot = true → ∀ (q : PosCyl) p, Phi ⟨q.R, q.z, p⟩ = Phi q
  refly : ysym = true → ∀ q : PosCyl, Phi ⟨q.R, q.z, -q.phi⟩ = Phi q
  reflz : zsym = true → ∀ q : PosCyl, Phi ⟨q.R, -q.z, q.phi⟩ = Phi q

/-- generalization of `grad_of_sym` to operations that also flip the sign of `z` (`e = 1` or `-1`) -/
theorem grad_of_sym' (sig : ℝ → ℝ) (e c : ℝ) (F : PosCyl → ℝ) (hF : ∀ q : PosCyl, 0 < q.R → F ⟨q.R, e * q.z, sig q.phi⟩ = c * F q)
    (p : PosCyl) (hp : 0 < p.R) (g g' : GradCyl) (hg : IsGradCyl F p g) (hg' : IsGradCyl F ⟨p.R, e * p.z, sig p.phi⟩ g') :
    g'.dR = c * g.dR ∧ e * g'.dz = c * g.dz := by
  constructor
  · have h1 := hg (fun s => p.R + s) (fun _ => p.z) (fun _ => p.phi) 1 0 0 0 ((hasDerivAt_id 0).const_add p.R) (hasDerivAt_const _ _) (hasDerivAt_const _ _)
      (by simp)
    have h2 := hg' (fun s => p.R + s) (fun _ => e * p.z) (fun _ => sig p.phi) 1 0 0 0 ((hasDerivAt_id 0).const_add p.R) (hasDerivAt_const _ _)
      (hasDerivAt_const _ _) (by simp)
    have he : (fun s => c * F ⟨p.R + s, p.z, p.phi⟩) =ᶠ[nhds 0] fun s => F ⟨p.R + s, e * p.z, sig p.phi⟩ := by
      filter_upwards [Ioi_mem_nhds (show -p.R < 0 by linarith)] with s hs
      exact (hF ⟨p.R + s, p.z, p.phi⟩ (by have := Set.mem_Ioi.1 hs; simp only []; linarith)).symm
    have := ((h1.const_mul c).congr_of_eventuallyEq he.symm).unique h2
    linarith
  · have h1 := hg (fun _ => p.R) (fun s => p.z + s) (fun _ => p.phi) 0 1 0 0 (hasDerivAt_const _ _) ((hasDerivAt_id 0).const_add p.z) (hasDerivAt_const _ _)
      (by simp)
    have h2 := hg' (fun _ => p.R) (fun s => e * (p.z + s)) (fun _ => sig p.phi) 0 (e * 1) 0 0 (hasDerivAt_const _ _)
      (((hasDerivAt_id 0).const_add p.z).const_mul e) (hasDerivAt_const _ _) (by simp)
    have he : (fun s => c * F ⟨p.R, p.z + s, p.phi⟩) = fun s => F ⟨p.R, e * (p.z + s), sig p.phi⟩ := funext fun s => (hF ⟨p.R, p.z + s, p.phi⟩ hp).symm
    have h1 := h1.const_mul c
    rw [he] at h1
    have := h1.unique h2
    linarith

theorem sphRow_of_sym (sig : ℝ → ℝ) (e : ℝ) (hee : e * e = 1) (pot : PosCyl → OutCyl) (hok : ∀ p : PosCyl, 0 < p.R → OkCyl pot p)
    (hF : ∀ q : PosCyl, 0 < q.R → (pot ⟨q.R, e * q.z, sig q.phi⟩).pot = (pot q).pot) (p : PosCyl) (hp : 0 < p.R) (a b c : Bool) (invr : ℝ) :
    getSph a b c invr pot ⟨p.R, e * p.z, sig p.phi⟩ = getSph a b c invr pot p := by
  have hg : ∀ q : PosCyl, 0 < q.R → (pot ⟨q.R, e * q.z, sig q.phi⟩).grad.dR = (pot q).grad.dR ∧
      (pot ⟨q.R, e * q.z, sig q.phi⟩).grad.dz = e * (pot q).grad.dz := by
    intro q hq
    have := grad_of_sym' sig e 1 (fun q => (pot q).pot) (fun q hq => by rw [one_mul]; exact hF q hq) q hq _ _ (hok q hq).1 (hok ⟨q.R, e * q.z, sig q.phi⟩ hq).1
    refine ⟨by rw [this.1, one_mul], ?_⟩
    have h2 := this.2
    linear_combination e * h2 - (pot ⟨q.R, e * q.z, sig q.phi⟩).grad.dz * hee
  have h1 := grad_of_sym' sig e 1 (fun q => (pot q).grad.dR) (fun q hq => by rw [one_mul]; exact (hg q hq).1) p hp _ _ (hok p hp).2.1
    (hok ⟨p.R, e * p.z, sig p.phi⟩ hp).2.1
  have h2 := grad_of_sym' sig e e (fun q => (pot q).grad.dz) (fun q hq => (hg q hq).2) p hp _ _ (hok p hp).2.2.1 (hok ⟨p.R, e * p.z, sig p.phi⟩ hp).2.2.1
  simp only [one_mul] at h1 h2
  have k1 : (pot ⟨p.R, e * p.z, sig p.phi⟩).hess.dz2 = (pot p).hess.dz2 := by
    linear_combination e * h2.2 - ((pot ⟨p.R, e * p.z, sig p.phi⟩).hess.dz2 - (pot p).hess.dz2) * hee
  have k2 : (pot ⟨p.R, e * p.z, sig p.phi⟩).hess.dRdz * e = (pot p).hess.dRdz := by linear_combination h1.2
  have e1 : (pot ⟨p.R, e * p.z, sig p.phi⟩).grad.dR * (p.R * invr) + (pot ⟨p.R, e * p.z, sig p.phi⟩).grad.dz * (e * p.z * invr) =
      (pot p).grad.dR * (p.R * invr) + (pot p).grad.dz * (p.z * invr) := by
    rw [(hg p hp).1, (hg p hp).2]; linear_combination (pot p).grad.dz * p.z * invr * hee
  have e2 : (pot ⟨p.R, e * p.z, sig p.phi⟩).hess.dR2 * (p.R * invr) ^ 2 + (pot ⟨p.R, e * p.z, sig p.phi⟩).hess.dz2 * (e * p.z * invr) ^ 2 +
      2 * (pot ⟨p.R, e * p.z, sig p.phi⟩).hess.dRdz * (p.R * invr) * (e * p.z * invr) =
      (pot p).hess.dR2 * (p.R * invr) ^ 2 + (pot p).hess.dz2 * (p.z * invr) ^ 2 + 2 * (pot p).hess.dRdz * (p.R * invr) * (p.z * invr) := by
    rw [h1.1, k1]
    linear_combination (pot p).hess.dz2 * (p.z * invr) ^ 2 * hee + 2 * (p.R * invr) * (p.z * invr) * k2
  simp only [getSph, hF p hp, e1, e2]

/-- C65: the outputs of the sphericalized potential for every combination of requests, whatever shortcuts its symmetry flags allow -/
theorem C65_sphericalized (zrot ysym zsym : Bool) (pot : PosCyl → OutCyl) (r : ℝ) (hr : 0 < r) (val der der2 : Bool)
    (hok : ∀ p : PosCyl, 0 < p.R → OkCyl pot p) (hs : CylSym zrot ysym zsym fun q => (pot q).pot) :
    ∃ D D2 : ℝ,
      HasDerivAt (fun u => meanSphere (fun q => (pot q).pot) u) D r ∧
      (∀ᶠ u in nhds r, ∃ Du, HasDerivAt (fun u => meanSphere (fun q => (pot q).pot) u) Du u) ∧
      HasDerivAt (deriv fun u => meanSphere (fun q => (pot q).pot) u) D2 r ∧
      sphericalizedEval zrot ysym zsym false pot val der der2 r =
        { val := want val (meanSphere (fun q => (pot q).pot) r), der := want der (kappa r * D), der2 := want der2 (kappa r ^ 2 * D2) } := by
  -- the radial derivatives at a point, times powers of r
  set P1 : PosCyl → ℝ := fun q => (pot q).grad.dR * q.R + (pot q).grad.dz * q.z with hP1
  set P2 : PosCyl → ℝ := fun q => (pot q).hess.dR2 * q.R ^ 2 + (pot q).hess.dz2 * q.z ^ 2 + 2 * (pot q).hess.dRdz * q.R * q.z with hP2
  have hd1 : ∀ u, 0 < u → HasDerivAt (fun u => meanSphere (fun q => (pot q).pot) u) (meanSphere (fun q => 1 / u * P1 q) u) u := by
    intro u hu
    refine meanSphere_hasDeriv _ _ u fun s c phi hsc => ?_
    obtain ⟨i, hi, rfl⟩ := hsc
    have h := (hok ⟨u * sinth i, u * c, phi⟩ (mul_pos hu (sinth_pos i hi))).1 (fun v => v * sinth i) (fun v => v * c) (fun _ => phi) _ _ 0 u
      ((hasDerivAt_id u).mul_const (sinth i)) ((hasDerivAt_id u).mul_const c) (hasDerivAt_const _ _) rfl
    refine h.congr_deriv ?_
    simp only [hP1]
    field_simp
    ring
  have hd2 : HasDerivAt (fun u => meanSphere (fun q => 1 / u * P1 q) u) (meanSphere (fun q => 1 / r ^ 2 * P2 q) r) r := by
    have e : (fun u => meanSphere (fun q => 1 / u * P1 q) u) = fun u => 1 / u * meanSphere P1 u := funext fun u => meanSphere_smul _ _ _
    have h1 : HasDerivAt (fun u => meanSphere P1 u) (meanSphere (fun q => 1 / r * (P1 q + P2 q)) r) r := by
      refine meanSphere_hasDeriv _ _ r fun s c phi hsc => ?_
      obtain ⟨i, hi, rfl⟩ := hsc
      have hp := hok ⟨r * sinth i, r * c, phi⟩ (mul_pos hr (sinth_pos i hi))
      have ha := (hasDerivAt_id r).mul_const (sinth i)
      have hb := (hasDerivAt_id r).mul_const c
      have g1 := hp.2.1 (fun v => v * sinth i) (fun v => v * c) (fun _ => phi) _ _ 0 r ha hb (hasDerivAt_const _ _) rfl
      have g2 := hp.2.2.1 (fun v => v * sinth i) (fun v => v * c) (fun _ => phi) _ _ 0 r ha hb (hasDerivAt_const _ _) rfl
      refine ((g1.mul ha).add (g2.mul hb)).congr_deriv ?_
      simp only [hP1, hP2, id]
      field_simp
      ring
    rw [e]
    have hi : HasDerivAt (fun u : ℝ => 1 / u) (-1 / r ^ 2) r := by
      have := (hasDerivAt_const r (1 : ℝ)).div (hasDerivAt_id r) hr.ne'
      refine this.congr_deriv ?_
      simp
    refine (hi.mul h1).congr_deriv ?_
    rw [meanSphere_smul, meanSphere_smul]
    have hadd : meanSphere (fun q => P1 q + P2 q) r = meanSphere P1 r + meanSphere P2 r := by
      simp only [meanSphere, meanPhi, Finset.sum_add_distrib, add_div]
      rw [← sub_eq_zero]
      simp only [mul_add, Finset.sum_add_distrib]
      ring
    rw [hadd]
    field_simp
    ring
  refine ⟨meanSphere (fun q => 1 / r * P1 q) r, meanSphere (fun q => 1 / r ^ 2 * P2 q) r, hd1 r hr, ?_, ?_, ?_⟩
  · filter_upwards [Ioi_mem_nhds hr] with u hu
    exact ⟨_, hd1 u hu⟩
  · refine hd2.congr_of_eventuallyEq ?_
    filter_upwards [Ioi_mem_nhds hr] with u hu
    exact (hd1 u hu).deriv
  · have key : ∀ (K : ℕ) (a b c : Bool) (k : ℕ), k < K →
        (sphericalAverage zrot ysym zsym K (getSph a b c (sphInvr r) pot) r)[k]? =
          some (meanSphere (fun q => (getSph a b c (sphInvr r) pot q).getD k 0) r) := by
      intro K a b c k hk
      refine sphAvg_get zrot ysym zsym K _ r hr k hk ?_ ?_ ?_
      · intro h R z p q hR
        have := sphRow_of_sym (fun _ => p) 1 (by norm_num) pot hok (fun s _ => by rw [one_mul]; exact hs.rot h s p) ⟨R, z, q⟩ hR a b c (sphInvr r)
        simp only [one_mul] at this
        rw [this]
      · intro h R z p hR
        have h1 := sphRow_of_sym (fun x => -x) 1 (by norm_num) pot hok (fun s _ => by rw [one_mul]; exact hs.refly h s) ⟨R, z, p⟩ hR a b c (sphInvr r)
        have h2 := sphRow_of_sym (fun x => x + 2 * π) 1 (by norm_num) pot hok (fun s _ => by rw [one_mul]; exact hs.per s) ⟨R, z, p⟩ hR a b c (sphInvr r)
        simp only [one_mul] at h1 h2
        rw [h1, h2]
        exact ⟨rfl, rfl⟩
      · intro h R z p hR
        have h1 := sphRow_of_sym (fun x => x) (-1) (by norm_num) pot hok (fun s _ => by rw [neg_one_mul]; exact hs.reflz h s) ⟨R, z, p⟩ hR a b c (sphInvr r)
        simp only [neg_one_mul] at h1
        rw [h1]
    have v1 : meanSphere (fun q => (pot q).grad.dR * (q.R * sphInvr r) + (pot q).grad.dz * (q.z * sphInvr r)) r =
        kappa r * meanSphere (fun q => 1 / r * P1 q) r := by
      rw [← meanSphere_smul]
      congr 1; funext q
      simp only [hP1, kappa]
      field_simp
    have v2 : meanSphere (fun q => (pot q).hess.dR2 * (q.R * sphInvr r) ^ 2 + (pot q).hess.dz2 * (q.z * sphInvr r) ^ 2 +
        2 * (pot q).hess.dRdz * (q.R * sphInvr r) * (q.z * sphInvr r)) r = kappa r ^ 2 * meanSphere (fun q => 1 / r ^ 2 * P2 q) r := by
      rw [← meanSphere_smul]
      congr 1; funext q
      simp only [hP2, kappa]
      field_simp
    rw [← v1, ← v2]
    cases val <;> cases der <;> cases der2 <;>
      simp only [sphericalizedEval, false_or, hr.ne', Bool.false_eq_true, if_true, if_false, key, want, getSph, Nat.one_lt_ofNat, Nat.ofNat_pos,
        show 2 < 3 by decide, zero_lt_one] <;> rfl

/-! ## exactness -/

theorem quad_moment (k : ℕ) (hk : k ≤ 14) :
    |(∑ i ∈ Finset.range 7, gweight i * (costh i ^ k + (-costh i) ^ k)) + gweight 7 * costh 7 ^ k - (1 / 2) * ∫ x in (-1 : ℝ)..1, x ^ k| ≤ 6.2e-15 := by
  rw [integral_pow]
  interval_cases k <;> norm_num [Finset.sum_range_succ, gweight, costh, abs_le]

/-- C65: the average over the sphere is exact up to the errors of the tabulated weights (they sum up to 1+6.14e-15) for every function whose axisymmetric part is a polynomial in cos(theta) of degree up to
14 and whose other azimuthal harmonics have order up to 16 (arbitrary functions of theta); the spherical harmonics with l up to 14 are such functions -/
theorem C65_exact_sphere (F : PosCyl → ℝ) (r : ℝ) (n : ℕ) (hn : n ≤ 15) (c : ℕ → ℝ) (a b : ℕ → ℝ → ℝ → ℝ)
    (hF : ∀ s x phi : ℝ, F ⟨r * s, r * x, phi⟩ = (∑ k ∈ Finset.range n, c k * x ^ k) +
      ∑ m ∈ Finset.range 17, (if m = 0 then 0 else a m s x * cos (m * phi) + b m s x * sin (m * phi))) :
    |meanSphere F r - (1 / 2) * ∫ x in (-1 : ℝ)..1, ∑ k ∈ Finset.range n, c k * x ^ k| ≤ 6.2e-15 * ∑ k ∈ Finset.range n, |c k| := by
  have hphi : ∀ s x, (meanPhi fun phi => F ⟨r * s, r * x, phi⟩) = ∑ k ∈ Finset.range n, c k * x ^ k := by
    intro s x
    have h := (C65_exact_phi (fun m => if m = 0 then ∑ k ∈ Finset.range n, c k * x ^ k else a m s x) (fun m => b m s x)).2
    simp only [if_true] at h
    rw [← h]
    congr 1
    funext phi
    rw [hF, Finset.sum_range_succ' _ 16, Finset.sum_range_succ' _ 16]
    simp only [if_true, Nat.add_eq_zero_iff, one_ne_zero, and_false, if_false, Nat.cast_zero, zero_mul, cos_zero, sin_zero, mul_one, mul_zero, add_zero]
    ring
  have h7 : (meanPhi fun phi => F ⟨r, 0, phi⟩) = ∑ k ∈ Finset.range n, c k * (costh 7) ^ k := by
    have := hphi 1 (costh 7)
    rw [← this]
    norm_num [costh]
  have hneg : ∀ i, (meanPhi fun phi => F ⟨r * sinth i, -(r * costh i), phi⟩) = ∑ k ∈ Finset.range n, c k * (-costh i) ^ k := by
    intro i
    rw [← hphi (sinth i) (-costh i)]
    simp only [mul_neg]
  rw [meanSphere, h7]
  simp only [hneg, hphi]
  rw [intervalIntegral.integral_finsetSum (f := fun k x => c k * x ^ k) fun k _ => ((continuous_const.mul (continuous_pow k)).intervalIntegrable _ _)]
  simp only [intervalIntegral.integral_const_mul]
  have e : (∑ i ∈ Finset.range 7, gweight i * ((∑ k ∈ Finset.range n, c k * costh i ^ k) + ∑ k ∈ Finset.range n, c k * (-costh i) ^ k)) +
      gweight 7 * (∑ k ∈ Finset.range n, c k * costh 7 ^ k) - 1 / 2 * ∑ k ∈ Finset.range n, c k * ∫ x in (-1 : ℝ)..1, x ^ k =
      ∑ k ∈ Finset.range n, c k * ((∑ i ∈ Finset.range 7, gweight i * (costh i ^ k + (-costh i) ^ k)) + gweight 7 * costh 7 ^ k -
        (1 / 2) * ∫ x in (-1 : ℝ)..1, x ^ k) := by
    simp only [← Finset.sum_add_distrib, Finset.mul_sum]
    rw [Finset.sum_comm, ← Finset.sum_add_distrib, ← Finset.sum_sub_distrib]
    refine Finset.sum_congr rfl fun k _ => ?_
    rw [mul_sub, mul_add, Finset.mul_sum]
    congr 1
    · congr 1
      · exact Finset.sum_congr rfl fun i _ => by ring
      · ring
    · ring
  rw [e]
  refine (Finset.abs_sum_le_sum_abs _ _).trans ?_
  rw [Finset.mul_sum]
  refine Finset.sum_le_sum fun k hk => ?_
  rw [abs_mul, mul_comm]
  exact mul_le_mul_of_nonneg_right (quad_moment k (by have := Finset.mem_range.1 hk; omega)) (abs_nonneg _)

/-! ## at the origin -/

/-- flattened harmonic potential in cylindrical coordinates: the output of the generic conversion of `harmonic 1 1 (1/4)` -/
noncomputable def flatHarmonic (pos : PosCyl) : OutCyl :=
  ⟨0.5 * (pos.R ^ 2 + 4 * pos.z ^ 2), ⟨pos.R, 4 * pos.z, 0⟩, { dR2 := 1, dz2 := 4, dRdz := 0, dRdphi := 0, dzdphi := 0, dphi2 := 0 }⟩

theorem flatHarmonic_is (p : PosCyl) : (flatHarmonic p).pot = (harmonic 1 1 (1 / 4) (cylToCar p)).pot := by
  simp only [flatHarmonic, harmonic, cylToCar]
  have := sin_sq_add_cos_sq p.phi
  linear_combination (-(1 / 2 : ℝ)) * p.R ^ 2 * this

theorem flatHarmonic_ok (p : PosCyl) : OkCyl flatHarmonic p := by
  refine ⟨?_, ?_, ?_, ?_⟩ <;> intro R z phi R' z' phi' t hR hz hphi e <;> subst e <;> simp only [flatHarmonic] at *
  · refine (((hR.pow 2).add ((hz.pow 2).const_mul 4)).const_mul 0.5).congr_deriv ?_
    push_cast; ring
  · exact hR.congr_deriv (by ring)
  · exact (hz.const_mul 4).congr_deriv (by ring)
  · exact (hasDerivAt_const _ _).congr_deriv (by ring)

theorem flatHarmonic_sym : CylSym true true true fun q => (flatHarmonic q).pot :=
  ⟨fun _ => rfl, fun _ _ _ => rfl, fun _ _ => rfl, fun _ q => by simp [flatHarmonic]⟩

/-- non-vacuity of `C65_sphericalized`: the flattened harmonic potential, all outputs requested -/
example : ∃ D D2 : ℝ, HasDerivAt (fun u => meanSphere (fun q => (flatHarmonic q).pot) u) D 2 ∧
    sphericalizedEval true true true false flatHarmonic true true true 2 =
      { val := some (meanSphere (fun q => (flatHarmonic q).pot) 2), der := some (kappa 2 * D), der2 := some (kappa 2 ^ 2 * D2) } := by
  obtain ⟨D, D2, h1, -, -, h2⟩ := C65_sphericalized true true true flatHarmonic 2 (by norm_num) true true true (fun p _ => flatHarmonic_ok p) flatHarmonic_sym
  exact ⟨D, D2, h1, h2⟩

/-- C65 fails at the origin: the second derivative reported there is that along the x axis, not the mean over directions, so that it differs from the
value at every (not astronomically small) radius -/
theorem C65_origin_refuted :
    (sphericalizedEval true true true false flatHarmonic false false true 0).der2 = some 1 ∧
    ∀ r : ℝ, 1e-80 ≤ r → ∃ d, (sphericalizedEval true true true false flatHarmonic false false true r).der2 = some d ∧ 1.9 ≤ d := by
  constructor
  · simp [sphericalizedEval, flatHarmonic]
  · intro r hr
    have h0 : 0 < r := by linarith [show (0 : ℝ) < 1e-80 by norm_num]
    have hk := abs_le.1 (kappa_bound r hr)
    have e := sphAvg_get true true true 1 (getSph false false true (sphInvr r) flatHarmonic) r h0 0 (by norm_num)
      (fun _ _ _ _ _ _ => rfl) (fun _ _ _ _ _ => ⟨rfl, rfl⟩) (fun _ R z p _ => by simp [getSph, flatHarmonic])
    refine ⟨meanSphere (fun q => (getSph false false true (sphInvr r) flatHarmonic q).getD 0 0) r, ?_, ?_⟩
    · simp only [sphericalizedEval, false_or, h0.ne', Bool.false_eq_true, if_true, if_false, e]
    · have hv : meanSphere (fun q => (getSph false false true (sphInvr r) flatHarmonic q).getD 0 0) r =
          kappa r ^ 2 * ((∑ i ∈ Finset.range 7, gweight i * (2 * (sinth i ^ 2 + 4 * costh i ^ 2))) + gweight 7) := by
        simp only [meanSphere, getSph, flatHarmonic, if_true, if_false, Bool.false_eq_true, List.getD_cons_zero, meanPhi_const]
        rw [mul_add (kappa r ^ 2), Finset.mul_sum, kappa]
        congr 1
        · refine Finset.sum_congr rfl fun i _ => ?_
          ring
        · ring
      rw [hv]
      have hw : 1.95 ≤ (∑ i ∈ Finset.range 7, gweight i * (2 * (sinth i ^ 2 + 4 * costh i ^ 2))) + gweight 7 := by
        norm_num [Finset.sum_range_succ, gweight, costh, sinth]
      nlinarith [hk.1, hk.2]

/-- non-vacuity: a quadrupole potential `(x^2-y^2)/2`, not axisymmetric but y-symmetric -/
noncomputable def quadrupole (p : PosCyl) : OutCyl :=
  ⟨0.5 * p.R ^ 2 * cos (2 * p.phi), ⟨p.R * cos (2 * p.phi), 0, -p.R ^ 2 * sin (2 * p.phi)⟩,
    { dR2 := cos (2 * p.phi), dz2 := 0, dphi2 := -2 * p.R ^ 2 * cos (2 * p.phi), dRdz := 0, dRdphi := -2 * p.R * sin (2 * p.phi), dzdphi := 0 }⟩

theorem quadrupole_ok (p : PosCyl) : OkCyl quadrupole p := by
  have hc : ∀ (phi : ℝ → ℝ) (phi' t : ℝ), HasDerivAt phi phi' t → HasDerivAt (fun s => cos (2 * phi s)) (-sin (2 * phi t) * (2 * phi')) t :=
    fun phi phi' t h => (h.const_mul 2).cos
  have hs : ∀ (phi : ℝ → ℝ) (phi' t : ℝ), HasDerivAt phi phi' t → HasDerivAt (fun s => sin (2 * phi s)) (cos (2 * phi t) * (2 * phi')) t :=
    fun phi phi' t h => (h.const_mul 2).sin
  refine ⟨?_, ?_, ?_, ?_⟩ <;> intro R z phi R' z' phi' t hR hz hphi e <;> subst e <;> simp only [quadrupole] at *
  · refine (((hR.pow 2).const_mul 0.5).mul (hc phi phi' t hphi)).congr_deriv ?_
    simp only [Pi.pow_apply]
    push_cast; ring
  · refine (hR.mul (hc phi phi' t hphi)).congr_deriv ?_
    ring
  · exact (hasDerivAt_const _ _).congr_deriv (by ring)
  · refine ((hR.pow 2).neg.mul (hs phi phi' t hphi)).congr_deriv ?_
    simp only [Pi.pow_apply, Pi.neg_apply]
    push_cast; ring

example : (axisymmetrizedEval true quadrupole true false true ⟨2, 1, 0.3⟩).val = some 0 ∧
    (axisymmetrizedEval true quadrupole true false true ⟨2, 1, 0.3⟩).dR = none := by
  have h := (C65_axisymmetrized_ok true quadrupole ⟨2, 1, 0.3⟩ true false true (by norm_num) (fun p _ => quadrupole_ok p)
    (fun q => by simp only [quadrupole]; rw [show 2 * (q.phi + 2 * π) = 2 * q.phi + 2 * π + 2 * π by ring, cos_add_two_pi, cos_add_two_pi])
    (fun _ q => by simp only [quadrupole]; rw [mul_neg, cos_neg])).1
  rw [h]
  refine ⟨?_, rfl⟩
  have := (C65_exact_phi (fun m => if m = 2 then 0.5 * 2 ^ 2 else 0) (fun _ => 0)).2
  simp only [want, meanOut, quadrupole, if_true]
  rw [← show (if (0 : ℕ) = 2 then (0.5 * 2 ^ 2 : ℝ) else 0) = 0 by norm_num, ← this]
  congr 2
  funext p
  simp [Finset.sum_range_succ]

example : |meanSphere (fun q => q.z ^ 2 + q.R * cos (2 * q.phi)) 1 - 1 / 3| ≤ 6.2e-15 := by
  have h := C65_exact_sphere (fun q => q.z ^ 2 + q.R * cos (2 * q.phi)) 1 3 (by norm_num) (fun k => if k = 2 then 1 else 0) (fun m s _ => if m = 2 then s else 0)
    (fun _ _ _ => 0) (fun s x phi => by simp [Finset.sum_range_succ])
  simp [Finset.sum_range_succ, integral_pow] at h
  norm_num at h ⊢
  exact h

end Verif.Pot
