import Verif.DensGrid.ProjCyl
import Verif.DensGrid.SHProps
import Verif.SphHarm.TransformProps

/-! C94, spherical-harmonic scheme: the projection of a density is what addPoint accumulates over the points of a product quadrature rule in r, cos(theta), phi. -/

namespace Verif.SphHarm

open Real

noncomputable section

/-- the output of the forward transformation as a sum over samples, for any values -/
theorem Fwd.transform_out {lmax mmax : ℤ} {s : Sym} {ind : Indices} (h : mkIndices lmax mmax s = .ok ind) (f : Fwd) (hf : f.ind = ind) (hR : GL.Rule (lmax.toNat + 1) f.nodes f.weights)
    (hl0 : lmax ≠ 0) (values : ℕ → ℝ) (coefs : ℤ → ℝ) :
    ∃ out, f.transform values 1 coefs = some out ∧
      (∀ l m, (l, m) ∈ ind.visited → out (index l m) = ∑ j ∈ Finset.range f.ngrid, legW l.toNat m.natAbs (arccos (f.costh j)) * (f.weights j * Fwd.kappa m.natAbs) *
        ∑ k ∈ Finset.range f.fsize, Verif.Fourier.wt f.M f.useSine k * trigM m (Verif.Fourier.phi f.M k) * values ((if j < f.thetasize then j else f.ngrid - 1 - j) * f.fsize + k)) ∧
      (∀ c, (∀ l m, (l, m) ∈ ind.visited → index l m ≠ c) → out c = if 0 ≤ c ∧ c < ind.size then 0 else coefs c) := by
  subst hf
  obtain ⟨eL, eM, h0, h1, emin, hz⟩ := fwd_flags h
  have fL : (f.L : ℤ) = lmax := by rw [Fwd.L, eL]; omega
  have fM : (f.M : ℤ) = mmax := by rw [Fwd.M, eM]; omega
  have hML : f.M ≤ f.L := by omega
  have hR' : GL.Rule f.ngrid f.nodes f.weights := by rw [Fwd.ngrid, Fwd.L, eL]; exact hR
  have hvis := mem_visited h
  have hsz : f.ind.size ≠ 1 := by
    rw [Indices.size, eL]; intro e; apply hl0; nlinarith
  rw [Fwd.transform, if_neg hsz, if_neg (by omega)]
  simp only [Int.toNat_one, mul_one]
  set valm : ℕ → List ℝ := fun j => Verif.Fourier.transform f.M f.useSine (fun i => values (j * f.fsize + i)) 1 with hvalm
  set zeroed : ℤ → ℝ := fun c => if 0 ≤ c ∧ c < f.ind.size then 0 else coefs c with hzero
  simp only [Fwd.foldl_inner]
  have hnd : (f.ind.visited.map fun lm => index lm.1 lm.2).Nodup := by
    apply List.Nodup.map_on _ (nodup_visited f.ind)
    rintro ⟨l, m⟩ ha ⟨l', m'⟩ hb e
    have := C26_injective ((hvis l m).1 ha).1 ((hvis l' m').1 hb).1 e
    exact Prod.ext this.1 this.2
  obtain ⟨o1, o2⟩ := Fwd.foldl_outer (fun lm : ℤ × ℤ => index lm.1 lm.2) (fun lm => ∑ j ∈ Finset.range f.ngrid, f.incr valm lm.1 lm.2 j) f.ind.visited zeroed hnd
  refine ⟨_, rfl, ?_, ?_⟩
  swap
  · intro c hc
    rw [o2 c]
    intro hmem
    obtain ⟨⟨l, m⟩, ha, e⟩ := List.mem_map.1 hmem
    exact hc l m ha e
  intro l m hlm
  rw [o1 (l, m) hlm]
  simp only
  obtain ⟨g1, g2⟩ := visited_in_array h hlm
  rw [hzero]
  simp only [g1, g2, and_self, if_true, zero_add]
  obtain ⟨v1, v2, v3, v4⟩ := (hvis l m).1 hlm
  have hab := Int.abs_eq_natAbs m
  have huse : (if f.useSine then -(f.M : ℤ) else 0) = f.ind.mmin := by rw [emin, Fwd.useSine, fM]
  have hrange : (if f.useSine then -(f.M : ℤ) else 0) ≤ m ∧ m ≤ f.M := by
    rw [huse]
    rw [Indices.visited, List.mem_flatMap] at hlm
    obtain ⟨x, hx, hy⟩ := hlm
    obtain ⟨y, -, e⟩ := List.mem_map.1 hy
    cases e
    rw [mem_forLoop 1 (by norm_num)] at hx
    exact ⟨hx.1, by omega⟩
  obtain ⟨r1, r2⟩ := hrange
  refine Finset.sum_congr rfl fun j hj => ?_
  rw [Finset.mem_range] at hj
  rw [Fwd.incr, f.plm_value hR' hML hj v1 (by omega) (by omega), ← huse, hvalm]
  simp only
  rw [transform_get f.M f.useSine _ _ m r1 r2]
  simp only [mul_one]
  rfl

end

end Verif.SphHarm

namespace Verif.DensGrid

open Real Verif.Coord Verif.SphHarm

noncomputable section

/-! ### specification -/

/-- the point with the given spherical coordinates -/
def sphPoint (r c phi : ℝ) : PosCar := ⟨r * √(1 - c ^ 2) * cos phi, r * √(1 - c ^ 2) * sin phi, r * c⟩

/-- the density at this point -/
def Dens.sph (d : Dens) (r c phi : ℝ) : ℝ := d.rho (r * √(1 - c ^ 2)) (r * c) phi

/-- a density that has the symmetries expected by the scheme, and those that it claims to have -/
structure Dens.Truthful (d : Dens) : Prop where
  even : ∀ R z phi, d.rho R (-z) phi = d.rho R z phi
  zrot : d.zrot = true → ∀ R z phi phi', d.rho R z phi = d.rho R z phi'
  spherical : d.spherical = true → ∀ R z phi R' z' phi', R ^ 2 + z ^ 2 = R' ^ 2 + z' ^ 2 → d.rho R z phi = d.rho R' z' phi'
  flags : d.spherical = true → d.zrot = true

/-- weight of the quadrature point: the volume element r^2 in coordinates (r, cos(theta), phi), times the length of the radial segment and the weights of quadrature rules in each coordinate -/
def SHGrid.qweight (g : SHGrid) (M : ℕ) (w : ℕ → ℝ) (k a j i : ℕ) : ℝ := qrad g.gridr k a ^ 2 * ((node g.gridr (k + 1) - node g.gridr k) * glw 6 a) * w j * ringW M i

/-! ### the coefficients at one radius -/

theorem ang_legW {m l : ℕ} (h : m ≤ l) (c phi : ℝ) : ang m (l - m) (arccos c) phi = 2 * √π * legW l m (arccos c) * (if m = 0 then 1 else √2 * cos (m * phi)) := by
  rw [ang, legW_eq h (arccos_ok c)]

/-- quadrature over the sphere -/
def sphSum (L M : ℕ) (x w : ℕ → ℝ) (F : ℝ → ℝ → ℝ) : ℝ := ∑ j ∈ Finset.range (L + 1), ∑ i ∈ Finset.range (M + 1), w j * ringW M i * F (x j) (ringPhi M i)

theorem four_kappa (m : ℕ) : 4 * π * Fwd.kappa m = 2 * √π * (if m = 0 then 1 else √2) := by
  have hp : √π ≠ 0 := by positivity
  have h2 : √π * √π = π := Real.mul_self_sqrt pi_pos.le
  rw [Fwd.kappa]
  by_cases h : m = 0
  · rw [if_neg (by omega), if_pos h]
    field_simp
    linear_combination -2 * h2
  · rw [if_pos (by omega), if_neg h]
    field_simp
    linear_combination -2 * h2

/-- the quadrature sum of an axisymmetric function times a harmonic with m>0 is zero -/
theorem sphSum_axi (L M : ℕ) (x w : ℕ → ℝ) (F : ℝ → ℝ) {l m : ℕ} (h1 : m ≤ l) (hm : m ≤ M) (hm0 : m ≠ 0) : sphSum L M x w (fun c phi => F c * ang m (l - m) (arccos c) phi) = 0 := by
  unfold sphSum
  refine Finset.sum_eq_zero fun j _ => ?_
  have := ring_cos M hm
  rw [if_neg hm0] at this
  have e : ∀ i ∈ Finset.range (M + 1), w j * ringW M i * (F (x j) * ang m (l - m) (arccos (x j)) (ringPhi M i)) = (w j * F (x j) * (2 * √π * legW l m (arccos (x j)) * √2)) * (ringW M i * cos (m * ringPhi M i)) := by
    intro i _
    rw [ang_legW h1, if_neg hm0]; ring
  rw [Finset.sum_congr rfl e, ← Finset.mul_sum, this, mul_zero]

theorem rule_sum {n : ℕ} (hn : 1 ≤ n) {x w : ℕ → ℝ} (h : GL.Rule n x w) : ∑ j ∈ Finset.range n, w j = 2 := by
  have := h.exact 1 (by simp; omega)
  simp at this
  rw [this]; norm_num

theorem legW_zero (t : ℝ) (ht : sin t + 1 ≠ 0) : legW 0 0 t = 1 / (2 * √π) := by
  rw [legW_eq (le_refl 0) ht]
  simp [pre, prefact0, cm, G, Q]
  ring

/-- the quadrature sum of a constant times a harmonic -/
theorem sphSum_const {L M : ℕ} {x w : ℕ → ℝ} (h : GL.Rule (L + 1) x w) (F : ℝ) {l m : ℕ} (h1 : m ≤ l) (hm : m ≤ M) (hl : l ≤ L) :
    sphSum L M x w (fun c phi => F * ang m (l - m) (arccos c) phi) = if l = 0 then 4 * π * F else 0 := by
  by_cases hm0 : m = 0
  · subst hm0
    have hr := ring_cos M (m := 0) (by omega)
    simp only [Nat.cast_zero, zero_mul, cos_zero, mul_one, if_true] at hr
    have e : sphSum L M x w (fun c phi => F * ang 0 (l - 0) (arccos c) phi) = F * (2 * √π) * (2 * π) * ∑ j ∈ Finset.range (L + 1), w j * legW l 0 (arccos (x j)) := by
      unfold sphSum
      rw [Finset.mul_sum]
      refine Finset.sum_congr rfl fun j _ => ?_
      rw [← hr, Finset.mul_sum, Finset.sum_mul]
      refine Finset.sum_congr rfl fun i _ => ?_
      simp only
      rw [ang_legW h1, if_pos rfl]; ring
    rw [e]
    let f : Fwd := ⟨⟨L, 0, 1, 0, []⟩, x, w⟩
    have fL : f.L = L := by simp [f, Fwd.L]
    have hR : GL.Rule f.ngrid f.nodes f.weights := by rw [Fwd.ngrid, fL]; exact h
    have ho := f.legendre_ortho hR (m := 0) (l := l) (k := 0) (by omega) le_rfl (by omega) (by omega)
    have hp : √π ≠ 0 := by positivity
    have h2 : √π * √π = π := Real.mul_self_sqrt pi_pos.le
    have e2 : ∑ j ∈ Finset.range (L + 1), w j * legW l 0 (arccos (x j)) = 2 * √π * (if l = 0 then 1 / (2 * π) else 0) := by
      rw [← ho, Finset.mul_sum, ← Finset.sum_range_reflect]
      rw [Fwd.ngrid, fL]
      refine Finset.sum_congr rfl fun j hj => ?_
      rw [Finset.mem_range] at hj
      rw [legW_zero _ (arccos_ok _), show f.costh j = x (L + 1 - 1 - j) by rw [Fwd.costh, Fwd.ngrid, fL], show f.weights j = w j from rfl]
      rw [h.even j hj]
      field_simp
    rw [e2]
    by_cases hl0 : l = 0
    · rw [if_pos hl0, if_pos hl0]
      have := pi_pos
      field_simp
      linear_combination 4 * F * h2
    · rw [if_neg hl0, if_neg hl0]; ring
  · rw [sphSum_axi L M x w (fun _ => F) h1 hm hm0, if_neg (by omega)]

theorem mk15 {L M : ℕ} (h : M ≤ L) : ∃ ind, mkIndices L M 15 = .ok ind ∧ ind.mmin = 0 ∧ (isZ ind.sym = true) := by
  obtain ⟨a1, a2, a3, a4⟩ := augment_flags 15 (by norm_num) L M
  have e : mkIndices L M 15 = .ok ⟨L, M, if isZ 15 || isRefl 15 then 2 else 1, augment L M 15, (List.range (2 * (M : ℤ) + 1).toNat).map (fun (i : ℕ) => lminFor L (augment L M 15) ((i : ℤ) - M))⟩ := by
    rw [mkIndices]
    simp only
    rw [if_neg (by omega), if_neg (by decide), if_neg (by decide)]
  refine ⟨_, e, ?_, ?_⟩
  · rw [Indices.mmin, if_pos]
    simp only [a2]
    rfl
  · simp only [a3]
    rfl

theorem sph_even {d : Dens} (h : d.Truthful) (r c phi : ℝ) : d.sph r (-c) phi = d.sph r c phi := by
  unfold Dens.sph
  rw [neg_sq, mul_neg, h.even]

theorem samples_eq (f : Fwd) (d : Dens) {r : ℝ} (hr : 0 ≤ r) {j k : ℕ} (hk : k < f.fsize) : projSamples f d r (j * f.fsize + k) = d.sph r (f.costh j) (Verif.Fourier.phi f.M k) := by
  have hf : 0 < f.fsize := by omega
  unfold projSamples Fwd.costheta Fwd.phi Dens.sph
  rw [mul_comm j, Nat.mul_add_div hf, Nat.div_eq_of_lt hk, Nat.mul_add_mod, Nat.mod_eq_of_lt hk, Nat.add_zero]
  simp only
  rw [show r ^ 2 - r * f.costh j * (r * f.costh j) = r ^ 2 * (1 - f.costh j ^ 2) by ring, sqrt_mul (sq_nonneg r), sqrt_sq hr]

/-- the coefficients of the expansion at one radius -/
theorem coef_eq {g : SHGrid} (hv : g.Valid) {d : Dens} (hd : d.Truthful) {tab : ℕ → (ℕ → ℝ) × (ℕ → ℝ)} (ht : ∀ n, 1 ≤ n → GL.Rule n (tab n).1 (tab n).2)
    {ind : Indices} (hind : mkIndices (g.lTmp d) (g.mTmp d) 15 = .ok ind) {r : ℝ} (hr : 0 ≤ r) (coefs : ℤ → ℝ) (hc : ∀ c, ¬ (0 ≤ c ∧ c < ind.size) → coefs c = 0) :
    ∃ out, Fwd.transform ⟨ind, (tab (g.lTmp d + 1)).1, (tab (g.lTmp d + 1)).2⟩ (projSamples ⟨ind, (tab (g.lTmp d + 1)).1, (tab (g.lTmp d + 1)).2⟩ d r) 1 coefs = some out ∧
      (∀ c, ¬ (0 ≤ c ∧ c < ind.size) → out c = 0) ∧
      ∀ μ lam, 2 * μ ≤ g.mmax → 2 * μ + 2 * lam ≤ g.lmax → 4 * π * out (index ((2 * μ + 2 * lam : ℕ) : ℤ) ((2 * μ : ℕ) : ℤ)) =
        sphSum (max g.lmax 16) (max g.mmax 16) (tab (max g.lmax 16 + 1)).1 (tab (max g.lmax 16 + 1)).2 fun c phi => d.sph r c phi * ang (2 * μ) (2 * lam) (arccos c) phi := by
  set L := max g.lmax 16 with hL
  set M := max g.mmax 16 with hM
  have hML : M ≤ L := by have := hv.le; omega
  have hRL := ht (L + 1) (by omega)
  obtain ⟨eL, eM, h0, h1, emin, hz⟩ := fwd_flags hind
  by_cases hs : d.spherical = true
  · -- spherical
    have hT : g.lTmp d = 0 := by rw [SHGrid.lTmp, if_pos hs]
    have hsz : ind.size = 1 := by rw [Indices.size, eL, hT]; rfl
    have hconst : ∀ c phi, -1 ≤ c → c ≤ 1 → d.sph r c phi = d.sph r 0 0 := by
      intro c phi h1 h2
      apply hd.spherical hs
      rw [mul_pow, sq_sqrt (by nlinarith)]
      simp; ring
    set f : Fwd := ⟨ind, (tab (g.lTmp d + 1)).1, (tab (g.lTmp d + 1)).2⟩ with hf
    have hin := (ht (g.lTmp d + 1) (by omega)).inside 0 (by omega)
    have hf0 : 0 < f.fsize := by rw [Fwd.fsize, Verif.Fourier.size]; split <;> omega
    have hval : projSamples f d r 0 = d.sph r 0 0 := by
      have := samples_eq f d hr (j := 0) hf0
      rw [zero_mul] at this
      rw [this]
      have hco : f.costh 0 = f.nodes 0 := by
        rw [Fwd.costh, Fwd.ngrid, Fwd.L, show f.ind.lmax = ((g.lTmp d : ℕ) : ℤ) from eL, hT]; rfl
      rw [hco]
      exact hconst _ _ hin.1.le hin.2.le
    refine ⟨Function.update coefs 0 (d.sph r 0 0), ?_, ?_, ?_⟩
    · rw [Fwd.transform, if_pos hsz, hval]
    · intro c hcc
      rw [Function.update_of_ne (by rintro rfl; exact hcc ⟨le_rfl, by omega⟩)]
      exact hc c hcc
    · intro μ lam h2 h3
      have e : sphSum L M (tab (L + 1)).1 (tab (L + 1)).2 (fun c phi => d.sph r c phi * ang (2 * μ) (2 * lam) (arccos c) phi) =
          sphSum L M (tab (L + 1)).1 (tab (L + 1)).2 (fun c phi => d.sph r 0 0 * ang (2 * μ) (2 * μ + 2 * lam - 2 * μ) (arccos c) phi) := by
        unfold sphSum
        refine Finset.sum_congr rfl fun j hj => Finset.sum_congr rfl fun i _ => ?_
        rw [Finset.mem_range] at hj
        have := hRL.inside j hj
        simp only
        rw [hconst _ _ this.1.le this.2.le, Nat.add_sub_cancel_left]
      rw [e, sphSum_const hRL _ (by omega) (by omega) (by omega)]
      by_cases h00 : 2 * μ + 2 * lam = 0
      · rw [if_pos h00, h00, show 2 * μ = 0 by omega]
        simp [index]
      · rw [if_neg h00, Function.update_of_ne, hc, mul_zero]
        · rw [hsz]
          rintro ⟨x1, x2⟩
          unfold index at x2
          have : (1 : ℤ) ≤ ((2 * μ + 2 * lam : ℕ) : ℤ) := by omega
          nlinarith
        · unfold index
          have : (1 : ℤ) ≤ ((2 * μ + 2 * lam : ℕ) : ℤ) := by omega
          have : (0 : ℤ) ≤ ((2 * μ : ℕ) : ℤ) := by omega
          nlinarith
  · have hT : g.lTmp d = L := by rw [SHGrid.lTmp, if_neg hs]; rfl
    have hle : g.mTmp d ≤ L := by
      rw [SHGrid.mTmp]; split
      · omega
      · exact hML
    rw [hT] at hind ⊢
    obtain ⟨ind', hi', hmin, hZ⟩ := mk15 hle
    rw [hi'] at hind
    cases hind
    set f : Fwd := ⟨ind, (tab (L + 1)).1, (tab (L + 1)).2⟩ with hf
    rw [hT] at eL
    have fL : f.L = L := by rw [Fwd.L, show f.ind.lmax = _ from eL]; simp
    have fM : f.M = g.mTmp d := by rw [Fwd.M, show f.ind.mmax = _ from eM]; simp
    have hR' : GL.Rule f.ngrid f.nodes f.weights := by rw [Fwd.ngrid, fL]; exact hRL
    have huse : f.useSine = false := by rw [Fwd.useSine, show f.ind.mmin = 0 from hmin]; simp
    have hfs : f.fsize = g.mTmp d + 1 := by rw [Fwd.fsize, huse, fM]; rfl
    have hng : f.ngrid = L + 1 := by rw [Fwd.ngrid, fL]
    have hth : f.thetasize = L / 2 + 1 := by rw [Fwd.thetasize, if_pos (show isZ f.ind.sym = true from hZ), fL]
    obtain ⟨out, o1, o2, o3⟩ := Fwd.transform_out hi' f rfl (by simpa using hRL) (by omega) (projSamples f d r) coefs
    refine ⟨out, o1, ?_, ?_⟩
    · intro c hcc
      rw [o3 c, if_neg hcc, hc c hcc]
      intro l m hlm e
      exact hcc (e ▸ visited_in_array hi' hlm)
    · intro μ lam h2 h3
      have hvis : 2 * μ ≤ g.mTmp d → (((2 * μ + 2 * lam : ℕ) : ℤ), ((2 * μ : ℕ) : ℤ)) ∈ ind.visited := by
        intro hle'
        rw [mem_visited hi']
        have hab := abs_of_nonneg (show (0 : ℤ) ≤ ((2 * μ : ℕ) : ℤ) by omega)
        rw [hab]
        refine ⟨by omega, by omega, by omega, ?_, ?_, ?_, ?_⟩
        · intro _
          constructor
          · intro h; omega
          · intro h; exact absurd (by rw [Int.even_iff]; omega) h
        · intro _; omega
        · intro _; rw [Int.even_iff]; omega
        · intro _; rw [Int.even_iff]; omega
      by_cases hle' : 2 * μ ≤ g.mTmp d
      · have := o2 _ _ (hvis hle')
        rw [this, Finset.mul_sum]
        unfold sphSum
        rw [hng, ← Finset.sum_range_reflect (fun j => ∑ i ∈ Finset.range (M + 1), _) (L + 1)]
        refine Finset.sum_congr rfl fun j hj => ?_
        rw [Finset.mem_range] at hj
        have hco : f.costh j = (tab (L + 1)).1 (L + 1 - 1 - j) := by rw [Fwd.costh, hng]
        rw [hRL.even j hj, ← hco]
        simp only [Int.toNat_natCast, Int.natAbs_natCast]
        -- samples
        have hsmp : ∀ k < f.fsize, projSamples f d r ((if j < f.thetasize then j else L + 1 - 1 - j) * f.fsize + k) = d.sph r (f.costh j) (ringPhi (g.mTmp d) k) := by
          intro k hk
          rw [samples_eq f d hr hk, ringPhi_eq, fM]
          split
          · rfl
          · rw [← sph_even hd, show L + 1 - 1 - j = f.L - j by rw [fL]; omega, f.costh_refl hR' (by rw [hng]; exact hj), neg_neg]
        have hin : ∑ k ∈ Finset.range f.fsize, Verif.Fourier.wt f.M f.useSine k * trigM ((2 * μ : ℕ) : ℤ) (Verif.Fourier.phi f.M k) * projSamples f d r ((if j < f.thetasize then j else L + 1 - 1 - j) * f.fsize + k) =
            ∑ i ∈ Finset.range (M + 1), ringW M i * cos ((2 * μ : ℕ) * ringPhi M i) * d.sph r (f.costh j) (ringPhi M i) := by
          have : ∀ k ∈ Finset.range f.fsize, Verif.Fourier.wt f.M f.useSine k * trigM ((2 * μ : ℕ) : ℤ) (Verif.Fourier.phi f.M k) * projSamples f d r ((if j < f.thetasize then j else L + 1 - 1 - j) * f.fsize + k) =
              ringW (g.mTmp d) k * cos ((2 * μ : ℕ) * ringPhi (g.mTmp d) k) * d.sph r (f.costh j) (ringPhi (g.mTmp d) k) := by
            intro k hk
            rw [Finset.mem_range] at hk
            rw [hsmp k hk, huse, fM, ringW_eq, ringPhi_eq]
            simp [trigM]
          rw [Finset.sum_congr rfl this, hfs]
          by_cases hzr : d.zrot = true
          · have hm0 : g.mTmp d = 0 := by rw [SHGrid.mTmp, if_pos hzr]
            have hμ : μ = 0 := by omega
            subst hμ
            have hax : ∀ phi, d.sph r (f.costh j) phi = d.sph r (f.costh j) 0 := fun phi => hd.zrot hzr _ _ _ _
            simp only [hax _]
            rw [← Finset.sum_mul, ← Finset.sum_mul, ring_cos M (by omega), ring_cos _ (by omega)]
          · rw [show g.mTmp d = M by rw [SHGrid.mTmp, if_neg hzr]; rfl]
        rw [show L + 1 - 1 - j = L + 1 - 1 - j from rfl] at hin
        rw [hin, ← mul_assoc, Finset.mul_sum]
        refine Finset.sum_congr rfl fun i _ => ?_
        rw [show 2 * lam = 2 * μ + 2 * lam - 2 * μ by omega, ang_legW (by omega), show 2 * μ + (2 * μ + 2 * lam - 2 * μ) = 2 * μ + 2 * lam by omega]
        have hk := four_kappa (2 * μ)
        change 4 * π * (legW (2 * μ + 2 * lam) (2 * μ) (arccos (f.costh j)) * ((tab (L + 1)).2 j * Fwd.kappa (2 * μ))) * _ = _
        by_cases h00 : 2 * μ = 0
        · obtain rfl : μ = 0 := by omega
          rw [if_pos rfl] at hk ⊢
          simp only [mul_zero, Nat.cast_zero, zero_mul, cos_zero] at hk ⊢
          linear_combination (legW (0 + 2 * lam) 0 (arccos (f.costh j)) * (tab (L + 1)).2 j * (ringW M i * d.sph r (f.costh j) (ringPhi M i))) * hk
        · rw [if_neg h00] at hk ⊢
          linear_combination (legW (2 * μ + 2 * lam) (2 * μ) (arccos (f.costh j)) * (tab (L + 1)).2 j * (ringW M i * cos ((2 * μ : ℕ) * ringPhi M i) * d.sph r (f.costh j) (ringPhi M i))) * hk
      · have hzr : d.zrot = true := by
          by_contra hcon
          rw [SHGrid.mTmp, if_neg hcon] at hle'
          have : lminSH = 16 := rfl
          omega
        have hax : ∀ c phi, d.sph r c phi = d.sph r c 0 := fun c phi => hd.zrot hzr _ _ _ _
        have e : sphSum L M (tab (L + 1)).1 (tab (L + 1)).2 (fun c phi => d.sph r c phi * ang (2 * μ) (2 * lam) (arccos c) phi) = 0 := by
          have := sphSum_axi L M (tab (L + 1)).1 (tab (L + 1)).2 (fun c => d.sph r c 0) (l := 2 * μ + 2 * lam) (m := 2 * μ) (by omega) (by omega) (by omega)
          rw [Nat.add_sub_cancel_left] at this
          simp only [hax _ _]
          exact this
        rw [e, o3, ite_eq_left_iff.2, mul_zero]
        · intro hcc; exact hc _ hcc
        · intro l m hlm e'
          obtain ⟨x1, x2, x3, -⟩ := (mem_visited hi' l m).1 hlm
          have hab := abs_of_nonneg (show (0 : ℤ) ≤ ((2 * μ : ℕ) : ℤ) by omega)
          have := (C26_injective x1 (by rw [hab]; omega) e').2
          rw [this, hab] at x3
          omega

/-! ### loops -/

theorem pLoopL_eq (g : SHGrid) (indr : ℤ) (offr : ℝ) (coef : ℕ → ℝ) : ∀ fuel κ (off : ℤ), g.lmax / 2 + 1 ≤ fuel + κ →
    g.pLoopL indr offr coef fuel (2 * κ) off = ((List.range (g.lmax / 2 + 1 - κ)).flatMap fun j => stepSH indr offr (coef (2 * (κ + j))) (2 * (κ + j)) (off + g.gridr.length * j), off + g.gridr.length * (g.lmax / 2 + 1 - κ : ℕ))
  | 0, κ, off, h => by
    rw [show g.lmax / 2 + 1 - κ = 0 by omega]; simp [SHGrid.pLoopL]
  | fuel + 1, κ, off, h => by
    rw [SHGrid.pLoopL]
    by_cases hc : 2 * κ > g.lmax
    · rw [if_pos hc, show g.lmax / 2 + 1 - κ = 0 by omega]; simp
    · rw [if_neg hc, show 2 * κ + 2 = 2 * (κ + 1) by ring]
      simp only
      rw [pLoopL_eq g indr offr coef fuel (κ + 1) _ (by omega), show g.lmax / 2 + 1 - κ = (g.lmax / 2 + 1 - (κ + 1)) + 1 by omega, flatMap_range_succ]
      simp only [Prod.mk.injEq]
      constructor
      · congr 1
        · simp [stepSH]
        · congr 1
          funext j
          rw [show κ + 1 + j = κ + (j + 1) by ring]
          congr 1
          push_cast; ring
      · push_cast; ring

theorem pLoopM_eq (g : SHGrid) (indr : ℤ) (offr : ℝ) (coef : ℕ → ℕ → ℝ) (off0 : ℤ) : ∀ fuel μ, g.mmax / 2 + 1 ≤ fuel + μ →
    g.pLoopM indr offr coef fuel (2 * μ) (off0 + g.gridr.length * g.offset μ) = (List.range' μ (g.mmax / 2 + 1 - μ)).flatMap fun ν => (List.range (g.lmax / 2 + 1 - ν)).flatMap fun j =>
      stepSH indr offr (coef (2 * ν) (2 * (ν + j))) (2 * (ν + j)) (off0 + g.gridr.length * (g.offset ν + j : ℕ))
  | 0, μ, h => by
    rw [show g.mmax / 2 + 1 - μ = 0 by omega]; simp [SHGrid.pLoopM]
  | fuel + 1, μ, h => by
    rw [SHGrid.pLoopM]
    by_cases hc : 2 * μ > g.mmax
    · rw [if_pos hc, show g.mmax / 2 + 1 - μ = 0 by omega]; simp
    · rw [if_neg hc, show 2 * μ + 2 = 2 * (μ + 1) by ring]
      simp only
      rw [pLoopL_eq g indr offr _ (g.lmax + 1) μ _ (by omega)]
      simp only
      have ho : off0 + (g.gridr.length : ℤ) * g.offset μ + g.gridr.length * (g.lmax / 2 + 1 - μ : ℕ) = off0 + g.gridr.length * g.offset (μ + 1) := by
        rw [SHGrid.offset, SHGrid.offset, Finset.sum_range_succ]; push_cast; ring
      rw [ho, pLoopM_eq g indr offr coef off0 fuel (μ + 1) (by omega), show g.mmax / 2 + 1 - μ = (g.mmax / 2 + 1 - (μ + 1)) + 1 by omega, List.range'_succ, List.flatMap_cons]
      congr 1
      congr 1
      funext j
      congr 1
      push_cast; ring

theorem sh_add_zero (g : SHGrid) (pt : PosCar) (q : ℕ) : contrib (g.add pt 0) q = 0 := by
  unfold SHGrid.add
  simp only
  split_ifs with h1 h2
  · simp [contrib_cons, contrib_nil]
  · simp [contrib_nil]
  · exact absurd (Or.inr trivial) h2
  · exact absurd (Or.inr trivial) h2

/-- addPoint at the point with the given spherical coordinates -/
theorem sh_add_point {g : SHGrid} (hv : g.Valid) {r c : ℝ} (phi mult : ℝ) {k : ℕ} (hr : 0 < r) (hk : InSeg g.gridr k r) (h1 : -1 ≤ c) (h2 : c ≤ 1) (q : ℕ) :
    contrib (g.add (sphPoint r c phi) mult) q = mult * g.basis r (arccos c) phi q := by
  by_cases h0 : mult = 0
  · have := sh_add_zero g (sphPoint r c phi) q
    rw [h0, this, zero_mul]
  · refine (sh_add hv h0 hr (theta := arccos c) (phi := phi) ?_ ?_ ?_ ?_ hk).2 q
    · rw [sin_arccos]; exact sqrt_nonneg _
    · rw [sin_arccos]; rfl
    · rw [sin_arccos]; rfl
    · rw [cos_arccos h1 h2]; rfl

/-- the increments at one radius -/
theorem sh_shell {g : SHGrid} (hv : g.Valid) {d : Dens} {x w : ℕ → ℝ} {L M k a : ℕ} (hk : k < g.gridr.length) (ha : a < 6) (hx : GL.Rule (L + 1) x w) {out : ℤ → ℝ} (q : ℕ) {W : ℝ}
    (hW : W = 4 * π * (qrad g.gridr k a ^ 2 * ((node g.gridr (k + 1) - node g.gridr k) * glw 6 a)))
    (ho : ∀ μ lam, 2 * μ ≤ g.mmax → 2 * μ + 2 * lam ≤ g.lmax → 4 * π * out (index ((2 * μ + 2 * lam : ℕ) : ℤ) ((2 * μ : ℕ) : ℤ)) =
        sphSum L M x w fun c phi => d.sph (qrad g.gridr k a) c phi * ang (2 * μ) (2 * lam) (arccos c) phi) :
    contrib (g.pLoopM k (glp 6 a) (fun m l => out (index l m) * W) (g.mmax + 1) 0 (k + 1)) q =
      ∑ j ∈ Finset.range (L + 1), ∑ i ∈ Finset.range (M + 1), contrib (g.add (sphPoint (qrad g.gridr k a) (x j) (ringPhi M i)) (g.qweight M w k a j i * d.sph (qrad g.gridr k a) (x j) (ringPhi M i))) q := by
  have hr := qrad_range hv.ok hk ha
  have hn := node_nonneg hv.ok hk.le
  have hseg := qrad_seg hv.ok hk ha
  have h1 : ∀ j ∈ Finset.range (L + 1), ∀ i ∈ Finset.range (M + 1), contrib (g.add (sphPoint (qrad g.gridr k a) (x j) (ringPhi M i)) (g.qweight M w k a j i * d.sph (qrad g.gridr k a) (x j) (ringPhi M i))) q =
      g.qweight M w k a j i * d.sph (qrad g.gridr k a) (x j) (ringPhi M i) * g.basis (qrad g.gridr k a) (arccos (x j)) (ringPhi M i) q := by
    intro j hj i _
    rw [Finset.mem_range] at hj
    have := hx.inside j hj
    exact sh_add_point hv _ _ (by linarith) hseg this.1.le this.2.le q
  rw [Finset.sum_congr rfl fun j hj => Finset.sum_congr rfl (h1 j hj)]
  have hp := pLoopM_eq g k (glp 6 a) (fun m l => out (index l m) * W) (k + 1) (g.mmax + 1) 0 (by omega)
  rw [show g.offset 0 = 0 from rfl] at hp
  simp only [Nat.cast_zero, mul_zero, Nat.sub_zero, ← List.range_eq_range', _root_.add_zero] at hp
  rw [hp, contrib_loop]
  unfold SHGrid.basis
  simp only [Finset.mul_sum]
  -- exchange the order of summation
  rw [Finset.sum_congr rfl fun j _ => Finset.sum_comm, Finset.sum_comm]
  refine Finset.sum_congr rfl fun μ hμ => ?_
  rw [Finset.mem_range] at hμ
  rw [Finset.sum_congr rfl fun j _ => Finset.sum_comm, Finset.sum_comm, contrib_loop]
  refine Finset.sum_congr rfl fun lam hl => ?_
  rw [Finset.mem_range] at hl
  rw [stepSH_contrib]
  have hb := hatR_sum hv.ok hseg.lt hseg.lo hseg.hi (fun k' => if (0 < k' ∨ μ = 0 ∧ lam = 0) ∧ g.idx k' μ lam = q then (1 : ℝ) else 0)
  have hf := qrad_frac hv.ok hk (a := a)
  have ho' := ho μ lam (by omega) (by omega)
  rw [show 2 * μ + 2 * lam = 2 * (μ + lam) by ring] at ho'
  simp only [← Finset.mul_sum]
  rw [hb]
  have hs : ∀ B : ℝ, ∑ j ∈ Finset.range (L + 1), ∑ i ∈ Finset.range (M + 1), g.qweight M w k a j i * d.sph (qrad g.gridr k a) (x j) (ringPhi M i) * (ang (2 * μ) (2 * lam) (arccos (x j)) (ringPhi M i) * B) =
      out (index ((2 * (μ + lam) : ℕ) : ℤ) ((2 * μ : ℕ) : ℤ)) * W * B := by
    intro B
    rw [hW, show out (index ((2 * (μ + lam) : ℕ) : ℤ) ((2 * μ : ℕ) : ℤ)) * (4 * π * (qrad g.gridr k a ^ 2 * ((node g.gridr (k + 1) - node g.gridr k) * glw 6 a))) * B =
      (4 * π * out (index ((2 * (μ + lam) : ℕ) : ℤ) ((2 * μ : ℕ) : ℤ))) * (qrad g.gridr k a ^ 2 * ((node g.gridr (k + 1) - node g.gridr k) * glw 6 a) * B) by ring, ho']
    unfold sphSum SHGrid.qweight
    rw [Finset.sum_mul]
    refine Finset.sum_congr rfl fun j _ => ?_
    rw [Finset.sum_mul]
    refine Finset.sum_congr rfl fun i _ => ?_
    ring
  rw [hs]
  rw [hf]

/-! ### the property -/

/-- C94, spherical-harmonic scheme: if the density has the symmetries that it claims to have, and the tables of nodes and weights are those of the Gauss-Legendre rule, the projection succeeds and is the sum of the increments made by addPoint over the points of the quadrature rule in every shell, with the masses `weight * density`. -/
theorem C94_sh {lmax mmax : ℤ} {gr : List ℝ} {g : SHGrid} (hg : mkSphHarm lmax mmax gr = some g) {d : Dens} (hd : d.Truthful) {tab : ℕ → (ℕ → ℝ) × (ℕ → ℝ)} (ht : ∀ n, 1 ≤ n → GL.Rule n (tab n).1 (tab n).2) :
    ∃ res, g.proj d tab = some res ∧ ∀ q : ℕ, res q = ∑ k ∈ Finset.range g.gridr.length, ∑ a ∈ Finset.range 6, ∑ j ∈ Finset.range (max g.lmax 16 + 1), ∑ i ∈ Finset.range (max g.mmax 16 + 1),
      contrib (g.add (sphPoint (qrad g.gridr k a) ((tab (max g.lmax 16 + 1)).1 j) (ringPhi (max g.mmax 16) i))
        (g.qweight (max g.mmax 16) (tab (max g.lmax 16 + 1)).2 k a j i * d.sph (qrad g.gridr k a) ((tab (max g.lmax 16 + 1)).1 j) (ringPhi (max g.mmax 16) i))) q := by
  have hv := (mkSphHarm_valid hg).1
  set L := max g.lmax 16 with hL
  set M := max g.mmax 16 with hM
  have hML : M ≤ L := by have := hv.le; omega
  have hle : g.mTmp d ≤ g.lTmp d := by
    unfold SHGrid.mTmp SHGrid.lTmp
    by_cases hs : d.spherical = true
    · rw [if_pos hs, if_pos (hd.flags hs)]
    · rw [if_neg hs]
      split
      · omega
      · exact hML
  obtain ⟨ind, hind, -, -⟩ := mk15 hle
  rw [SHGrid.proj]
  rw [hind]
  simp only
  -- the loop
  let F : ℕ → ℕ → ℕ → ℝ := fun k a q => ∑ j ∈ Finset.range (L + 1), ∑ i ∈ Finset.range (M + 1),
      contrib (g.add (sphPoint (qrad g.gridr k a) ((tab (L + 1)).1 j) (ringPhi M i)) (g.qweight M (tab (L + 1)).2 k a j i * d.sph (qrad g.gridr k a) ((tab (L + 1)).1 j) (ringPhi M i))) q
  have loop : ∀ n, n ≤ g.gridr.length * 6 → ∃ st : (ℤ → ℝ) × (ℤ → ℝ), (List.range n).foldlM (fun (st : (ℤ → ℝ) × (ℤ → ℝ)) ir => do
      let shcoefs ← Fwd.transform ⟨ind, (tab (g.lTmp d + 1)).1, (tab (g.lTmp d + 1)).2⟩ (projSamples ⟨ind, (tab (g.lTmp d + 1)).1, (tab (g.lTmp d + 1)).2⟩ d (rOf g.gridr (ir / ordRad) (ir % ordRad))) 1 st.2
      some (applyUpd st.1 (g.pLoopM (ir / ordRad : ℕ) (glp ordRad (ir % ordRad)) (fun m l => shcoefs (SphHarm.index l m) * g.projWeight ir) (g.mmax + 1) 0 ((ir / ordRad : ℕ) + 1)), shcoefs))
      ((fun _ => 0), (fun _ => 0)) = some st ∧ (∀ c, ¬ (0 ≤ c ∧ c < ind.size) → st.2 c = 0) ∧ ∀ q : ℕ, st.1 q = ∑ i ∈ Finset.range n, F (i / 6) (i % 6) q := by
    intro n
    induction n with
    | zero => intro _; exact ⟨_, rfl, fun _ _ => rfl, fun _ => by simp⟩
    | succ n ih =>
      intro hn
      obtain ⟨st, e1, e2, e3⟩ := ih (by omega)
      have hk : n / 6 < g.gridr.length := by omega
      have ha : n % 6 < 6 := Nat.mod_lt _ (by norm_num)
      have hr := qrad_range hv.ok hk ha
      have hn0 := node_nonneg hv.ok hk.le
      obtain ⟨out, o1, o2, o3⟩ := coef_eq hv hd ht hind (r := qrad g.gridr (n / 6) (n % 6)) (by linarith) st.2 e2
      rw [List.range_succ, List.foldlM_append, e1]
      simp only [ordRad, rOf_eq] at o1 ⊢
      refine ⟨(applyUpd st.1 (g.pLoopM (n / 6 : ℕ) (glp 6 (n % 6)) (fun m l => out (SphHarm.index l m) * g.projWeight n) (g.mmax + 1) 0 ((n / 6 : ℕ) + 1)), out), ?_, o2, ?_⟩
      · simp only [Option.bind_eq_bind, Option.bind_some, List.foldlM_cons, List.foldlM_nil, o1]
        rfl
      intro q
      rw [Finset.sum_range_succ, ← e3]
      simp only
      rw [applyUpd_eq]
      congr 1
      refine sh_shell hv hk ha (ht (L + 1) (by omega)) q ?_ o3
      unfold SHGrid.projWeight
      rw [rOf_eq, r1Of_eq, r2Of_eq, ordRad]; ring
  obtain ⟨st, e1, -, e3⟩ := loop (g.gridr.length * 6) le_rfl
  refine ⟨st.1, ?_, fun q => ?_⟩
  · rw [show g.gridr.length * ordRad = g.gridr.length * 6 from rfl, e1]; rfl
  · rw [e3, sum_divmod g.gridr.length 6 (by norm_num) (fun k a => F k a q)]

/-- The sum of the first n+1 elements of the projection (those with l=m=0) is the approximation of the mass within the grid provided by the quadrature rule; all points of the rule are within the grid and their weights are positive. -/
theorem C94_sh_mass {lmax mmax : ℤ} {gr : List ℝ} {g : SHGrid} (hg : mkSphHarm lmax mmax gr = some g) {d : Dens} (hd : d.Truthful) {tab : ℕ → (ℕ → ℝ) × (ℕ → ℝ)} (ht : ∀ n, 1 ≤ n → GL.Rule n (tab n).1 (tab n).2) {res : ℤ → ℝ} (hres : g.proj d tab = some res) :
    ∑ q ∈ Finset.range (g.gridr.length + 1), res q = ∑ k ∈ Finset.range g.gridr.length, ∑ a ∈ Finset.range 6, ∑ j ∈ Finset.range (max g.lmax 16 + 1), ∑ i ∈ Finset.range (max g.mmax 16 + 1),
      g.qweight (max g.mmax 16) (tab (max g.lmax 16 + 1)).2 k a j i * d.sph (qrad g.gridr k a) ((tab (max g.lmax 16 + 1)).1 j) (ringPhi (max g.mmax 16) i) := by
  have hv := (mkSphHarm_valid hg).1
  obtain ⟨res', e1, e2⟩ := C94_sh hg hd ht
  rw [hres] at e1
  cases e1
  simp only [e2]
  rw [Finset.sum_comm]
  refine Finset.sum_congr rfl fun k hk => ?_
  rw [Finset.sum_comm]
  refine Finset.sum_congr rfl fun a ha => ?_
  rw [Finset.sum_comm]
  refine Finset.sum_congr rfl fun j hj => ?_
  rw [Finset.sum_comm]
  refine Finset.sum_congr rfl fun i _ => ?_
  rw [Finset.mem_range] at hk ha hj
  have hr := qrad_range hv.ok hk ha
  have hn := node_nonneg hv.ok hk.le
  have hseg := qrad_seg hv.ok hk ha
  have hin := (ht (max g.lmax 16 + 1) (by omega)).inside j hj
  simp only [sh_add_point hv _ _ (by linarith : 0 < qrad g.gridr k a) hseg hin.1.le hin.2.le]
  rw [← Finset.mul_sum, sh_basis_sum hv _ _ (by linarith) (hseg.hi.trans (hv.ok.le hseg.lt le_rfl)), mul_one]

/-- All points of the quadrature rule are within their shells and have positive weights. -/
theorem C94_sh_points {lmax mmax : ℤ} {gr : List ℝ} {g : SHGrid} (hg : mkSphHarm lmax mmax gr = some g) {n : ℕ} {x w : ℕ → ℝ} (hx : GL.Rule n x w) {k a j : ℕ} (M i : ℕ) (hk : k < g.gridr.length) (ha : a < 6) (hj : j < n) :
    0 < g.qweight M w k a j i ∧ (node g.gridr k < qrad g.gridr k a ∧ qrad g.gridr k a < node g.gridr (k + 1)) ∧
      √((sphPoint (qrad g.gridr k a) (x j) (ringPhi M i)).x ^ 2 + (sphPoint (qrad g.gridr k a) (x j) (ringPhi M i)).y ^ 2 + (sphPoint (qrad g.gridr k a) (x j) (ringPhi M i)).z ^ 2) = qrad g.gridr k a := by
  have hv := (mkSphHarm_valid hg).1
  have hr := qrad_range hv.ok hk ha
  have hn := node_nonneg hv.ok hk.le
  have hr0 : 0 < qrad g.gridr k a := by linarith
  refine ⟨?_, hr, ?_⟩
  · have h1 := glw6_pos ha
    have h2 := hx.positive j hj
    have h4 : 0 < node g.gridr (k + 1) - node g.gridr k := by linarith [hv.ok.step hk]
    have h3 : 0 < ringW M i := by
      unfold ringW
      have := pi_pos
      split_ifs <;> positivity
    unfold SHGrid.qweight
    positivity
  · have hin := hx.inside j hj
    unfold sphPoint
    simp only
    have hs : √(1 - x j ^ 2) ^ 2 = 1 - x j ^ 2 := sq_sqrt (by nlinarith)
    rw [show (qrad g.gridr k a * √(1 - x j ^ 2) * cos (ringPhi M i)) ^ 2 + (qrad g.gridr k a * √(1 - x j ^ 2) * sin (ringPhi M i)) ^ 2 + (qrad g.gridr k a * x j) ^ 2 =
      qrad g.gridr k a ^ 2 * (√(1 - x j ^ 2) ^ 2 * (sin (ringPhi M i) ^ 2 + cos (ringPhi M i) ^ 2) + x j ^ 2) by ring, hs, sin_sq_add_cos_sq, mul_one, sub_add_cancel, mul_one, sqrt_sq hr0.le]

/-- a triaxial density and the exact tables satisfy the assumptions -/
example : ∃ (d : Dens) (tab : ℕ → (ℕ → ℝ) × (ℕ → ℝ)), d.Truthful ∧ (∃ R z p p', d.rho R z p ≠ d.rho R z p') ∧ (∀ n, 1 ≤ n → GL.Rule n (tab n).1 (tab n).2) ∧ mkSphHarm 4 2 [0, 1, 2] = some ⟨4, 2, [1, 2]⟩ := by
  refine ⟨⟨fun R z phi => 2 + cos (2 * phi), false, false⟩, fun n => if h : 1 ≤ n then ((GL.rule_exists n h).choose, (GL.rule_exists n h).choose_spec.choose) else (0, 0), ?_, ⟨1, 0, 0, π / 2, ?_⟩, ?_, example_sh⟩
  · constructor
    · intro R z phi; rfl
    · intro h; cases h
    · intro h; cases h
    · intro h; cases h
  · simp only
    rw [mul_zero, cos_zero, show 2 * (π / 2) = π by ring, cos_pi]; norm_num
  · intro n hn
    simp only [dif_pos hn]
    exact (GL.rule_exists n hn).choose_spec.choose_spec.1

end

end Verif.DensGrid
