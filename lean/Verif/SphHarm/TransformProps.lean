import Verif.SphHarm.Transform
import Verif.SphHarm.AzimuthOrtho
import Verif.SphHarm.Ortho
import Verif.Core.GLRule

/-! C93: the forward spherical-harmonic transformation recovers the coefficients of every band-limited function from its samples, and the inverse transformation sums the series. -/
namespace Verif.SphHarm
open Real

noncomputable section

/-! ### specification -/

/-- norm of the harmonic (l,m) in the convention of math_sphharm.h:66-100: the mean square over the sphere of `ynorm m * harm l m` is 1 -/
def ynorm (m : ℤ) : ℝ := 2 * √π * (if m = 0 then 1 else √2)

/-- the sum of the series with the coefficients `C` over the given list of harmonics, in the direction (theta, phi) -/
def series (lms : List (ℤ × ℤ)) (C : ℤ → ℝ) (t p : ℝ) : ℝ := (lms.map fun lm => C (index lm.1 lm.2) * (ynorm lm.2 * harm lm.1 lm.2 t p)).sum

/-! ### lookup of the tabulated Legendre functions -/

theorem flat_get' {α : Type} (f : ℕ → List α) (n : ℕ) : ∀ (N k j : ℕ), (∀ i < N, (f i).length = n) → k < N → j < n → ((List.range N).flatMap f)[k * n + j]? = (f k)[j]? := by
  intro N
  induction N with
  | zero => intro k j _ h; omega
  | succ N ih =>
    intro k j hf hk hj
    rw [List.range_succ, List.flatMap_append]
    have hl : ((List.range N).flatMap f).length = N * n := by
      rw [List.length_flatMap]
      have : (List.range N).map (fun a => (f a).length) = (List.range N).map fun _ => n := by
        apply List.map_congr_left; intro a ha; exact hf a (by have := List.mem_range.1 ha; omega)
      rw [this]; simp
    by_cases h : k < N
    · rw [List.getElem?_append_left, ih k j (fun i hi => hf i (by omega)) h hj]
      rw [hl]
      calc k * n + j < k * n + n := by omega
        _ = (k + 1) * n := by ring
        _ ≤ N * n := Nat.mul_le_mul_right n h
    · have : k = N := by omega
      subst this
      rw [List.getElem?_append_right (by rw [hl]; omega), hl, Nat.add_sub_cancel_left]
      simp

theorem length_flat {α : Type} (f : ℕ → List α) (n N : ℕ) (hf : ∀ i < N, (f i).length = n) : ((List.range N).flatMap f).length = N * n := by
  rw [List.length_flatMap]
  have : (List.range N).map (fun a => (f a).length) = (List.range N).map fun _ => n := by
    apply List.map_congr_left; intro a ha; exact hf a (List.mem_range.1 ha)
  rw [this]; simp

theorem tauOfCos_eq {c : ℝ} (h1 : -1 < c) (h2 : c < 1) : Fwd.tauOfCos c = tauOf (arccos c) := by
  rw [Fwd.tauOfCos, tauOf, cos_arccos h1.le h2.le, sin_arccos]

theorem arccos_ok (c : ℝ) : sin (arccos c) + 1 ≠ 0 := sin_add_one_ne (arccos_nonneg c) (arccos_le_pi c)

theorem array_legW {L m l : ℕ} (h1 : m ≤ l) (h2 : l ≤ L) {t : ℝ} (ht : sin t + 1 ≠ 0) :
    ∃ a o, sphHarmArray L m (tauOf t) = some a ∧ a[l - m]? = some o ∧ o.val = legW l m t := by
  obtain ⟨a, o, ha, ho, hv⟩ := array_val (lmax := L) (m := m) (n := l - m) (by omega) ht
  exact ⟨a, o, ha, ho, by rw [hv, legW_eq h1 ht]⟩

namespace Fwd

/-- the numerical factor of the tabulated functions -/
def kappa (m : ℕ) : ℝ := 0.5 / √π * (if m > 0 then √2 else 1)

variable (f : Fwd)

theorem legRow_length {j m : ℕ} (hm : m ≤ f.L) (h1 : -1 < f.costh j) (h2 : f.costh j < 1) : (f.legRow j m).length = f.L + 1 := by
  obtain ⟨a, ha, hl, -⟩ := array_get (lmax := f.L) (m := m) (n := 0) (by omega) (arccos_ok (f.costh j))
  rw [legRow, tauOfCos_eq h1 h2, ha]
  simp [hl]; omega

theorem legFnc_get {j m l : ℕ} (hj : j < f.ntheta) (hm : m ≤ l) (hl : l ≤ f.L) (hM : m ≤ f.M) (hML : f.M ≤ f.L) (hin : ∀ j < f.ngrid, -1 < f.costh j ∧ f.costh j < 1) :
    f.legFnc.getD (j * ((f.L + 1) * (f.M + 1)) + m * (f.L + 1) + l) 0 = legW l m (arccos (f.costh j)) * (f.weights j * kappa m) := by
  have hng : ∀ j < f.ntheta, j < f.ngrid := by intro j hj; rw [ntheta] at hj; rw [ngrid]; omega
  have row : ∀ j < f.ntheta, ∀ m < f.M + 1, (f.legRow j m).length = f.L + 1 := fun j hj m hm =>
    f.legRow_length (by omega) (hin j (hng j hj)).1 (hin j (hng j hj)).2
  rw [legFnc, List.getD_eq_getElem?_getD, add_assoc,
    flat_get' _ ((f.L + 1) * (f.M + 1)) f.ntheta j _ (fun i hi => by rw [length_flat _ (f.L + 1) _ (row i hi)]; ring) hj (by nlinarith),
    flat_get' _ (f.L + 1) (f.M + 1) m l (row j hj) (by omega) (by omega)]
  obtain ⟨a, o, ha, ho, hv⟩ := array_legW hm hl (arccos_ok (f.costh j))
  rw [legRow, List.getElem?_append_right (by simpa using hm), List.length_replicate, tauOfCos_eq (hin j (hng j hj)).1 (hin j (hng j hj)).2, ha, Option.getD_some, List.getElem?_map, ho, Option.map_some, Option.getD_some, hv, kappa]
  ring

theorem costh_refl (hR : GL.Rule f.ngrid f.nodes f.weights) {j : ℕ} (hj : j < f.ngrid) : f.costh (f.L - j) = - f.costh j := by
  rw [costh, costh]
  have h := hR.odd j hj
  have e1 : f.ngrid - 1 - (f.L - j) = j := by rw [ngrid] at hj ⊢; omega
  rw [e1, h, neg_neg]

theorem costh_in (hR : GL.Rule f.ngrid f.nodes f.weights) : ∀ j < f.ngrid, -1 < f.costh j ∧ f.costh j < 1 := fun j hj => hR.inside _ (by omega)

/-- the value of the Legendre function used at every node of the grid in theta -/
theorem plm_value (hR : GL.Rule f.ngrid f.nodes f.weights) (hML : f.M ≤ f.L) {j : ℕ} (hj : j < f.ngrid) {l m : ℤ} (h1 : |m| ≤ l) (h2 : l.toNat ≤ f.L) (h3 : m.natAbs ≤ f.M) :
    (if Int.tmod (l + m) 2 = 1 ∧ j > f.L / 2 then f.legFnc.getD (f.indLeg j l m) 0 * (-1) else f.legFnc.getD (f.indLeg j l m) 0) =
      legW l.toNat m.natAbs (arccos (f.costh j)) * (f.weights j * kappa m.natAbs) := by
  have hin := f.costh_in hR
  have hab := Int.abs_eq_natAbs m
  have ht : Int.tmod (l + m) 2 = (l + m) % 2 := Int.tmod_eq_emod_of_nonneg (by omega)
  rw [ht]
  have hlm : m.natAbs ≤ l.toNat := by omega
  by_cases hn : j < f.ntheta
  · rw [if_neg (by rw [ntheta] at hn; omega), indLeg]
    simp only [if_pos hn]
    exact f.legFnc_get hn hlm h2 h3 hML hin
  · rw [indLeg]
    simp only [if_neg hn]
    have hL' : f.L - j < f.ntheta := by rw [ntheta] at hn ⊢; omega
    rw [f.legFnc_get hL' hlm h2 h3 hML hin, f.costh_refl hR hj, arccos_neg, legW_refl hlm (arccos_nonneg _) (arccos_le_pi _)]
    have hw : f.weights (f.L - j) = f.weights j := by
      have := hR.even j hj
      rwa [show f.ngrid - 1 - j = f.L - j by rw [ngrid]; omega] at this
    rw [hw]
    have hj2 : j > f.L / 2 := by rw [ntheta] at hn; omega
    by_cases hodd : (l + m) % 2 = 1
    · rw [if_pos ⟨hodd, hj2⟩, Odd.neg_one_pow (by rw [Nat.odd_iff]; omega)]; ring
    · rw [if_neg (by tauto), Even.neg_one_pow (by rw [Nat.even_iff]; omega)]; ring

/-- discrete orthogonality in theta -/
theorem legendre_ortho (hR : GL.Rule f.ngrid f.nodes f.weights) {m l k : ℕ} (h1 : m ≤ l) (h2 : m ≤ k) (h3 : l ≤ f.L) (h4 : k ≤ f.L) :
    ∑ j ∈ Finset.range f.ngrid, f.weights j * (legW l m (arccos (f.costh j)) * legW k m (arccos (f.costh j))) = if l = k then 1 / (2 * π) else 0 := by
  have key : ∀ j ∈ Finset.range f.ngrid, f.weights j * (legW l m (arccos (f.costh j)) * legW k m (arccos (f.costh j))) =
      f.weights (f.ngrid - 1 - j) * (Polynomial.C ((pre m (l - m) * cm m) * (pre m (k - m) * cm m)) * (W ^ m * (Qp m (l - m) * Qp m (k - m)))).eval (f.nodes (f.ngrid - 1 - j)) := by
    intro j hj
    rw [Finset.mem_range] at hj
    obtain ⟨a, b⟩ := f.costh_in hR j hj
    rw [hR.even j hj, legW_eq h1 (arccos_ok _), legW_eq h2 (arccos_ok _), G, G, cos_arccos a.le b.le]
    have hs : sin (arccos (f.costh j)) ^ m * sin (arccos (f.costh j)) ^ m = (1 - f.costh j ^ 2) ^ m := by
      rw [← mul_pow, ← pow_two, sin_arccos, sq_sqrt (by nlinarith)]
    have hW : (W ^ m).eval (f.costh j) = (1 - f.costh j ^ 2) ^ m := by rw [W]; simp
    change _ = f.weights j * Polynomial.eval (f.costh j) _
    rw [Polynomial.eval_mul, Polynomial.eval_C, Polynomial.eval_mul, Polynomial.eval_mul, Qp_eval, Qp_eval, hW, ← hs]
    ring
  rw [Finset.sum_congr rfl key, Finset.sum_range_reflect (fun j => f.weights j * (Polynomial.C ((pre m (l - m) * cm m) * (pre m (k - m) * cm m)) * (W ^ m * (Qp m (l - m) * Qp m (k - m)))).eval (f.nodes j)) f.ngrid]
  rw [hR.exact]
  · rw [← Leg.L_def, Leg.L_C_mul, orthonormal]
    by_cases h : l = k
    · rw [if_pos (by omega), if_pos h]
    · rw [if_neg (by omega), if_neg h]
  · have hW : (W).natDegree ≤ 2 := by rw [W]; compute_degree
    have d := Polynomial.natDegree_C_mul_le ((pre m (l - m) * cm m) * (pre m (k - m) * cm m)) (W ^ m * (Qp m (l - m) * Qp m (k - m)))
    have d2 := Polynomial.natDegree_mul_le (p := W ^ m) (q := Qp m (l - m) * Qp m (k - m))
    have d3 := Polynomial.natDegree_mul_le (p := Qp m (l - m)) (q := Qp m (k - m))
    have d4 := Qp_degree m (l - m)
    have d5 := Qp_degree m (k - m)
    have d6 := Polynomial.natDegree_pow_le (p := W) (n := m)
    have d7 : m * W.natDegree ≤ m * 2 := Nat.mul_le_mul_left m hW
    rw [ngrid]; omega

/-! ### the loop -/

theorem foldl_inner (c : ℤ) (g : ℕ → ℝ) (n : ℕ) (out : ℤ → ℝ) : (List.range n).foldl (fun out j => Function.update out c (out c + g j)) out = Function.update out c (out c + ∑ j ∈ Finset.range n, g j) := by
  induction n with
  | zero => simp
  | succ n ih =>
    rw [List.range_succ, List.foldl_append, ih, Finset.sum_range_succ]
    simp [add_assoc]

theorem foldl_outer {α : Type} (ix : α → ℤ) (S : α → ℝ) : ∀ (l : List α) (out : ℤ → ℝ), (l.map ix).Nodup → 
    (∀ a ∈ l, l.foldl (fun out a => Function.update out (ix a) (out (ix a) + S a)) out (ix a) = out (ix a) + S a) ∧
    (∀ c, c ∉ l.map ix → l.foldl (fun out a => Function.update out (ix a) (out (ix a) + S a)) out c = out c)
  | [], out, _ => ⟨fun a h => by simp at h, fun c _ => rfl⟩
  | b :: l, out, hn => by
    rw [List.map_cons, List.nodup_cons] at hn
    obtain ⟨i1, i2⟩ := foldl_outer ix S l (Function.update out (ix b) (out (ix b) + S b)) hn.2
    simp only [List.foldl_cons]
    constructor
    · intro a ha
      rcases List.mem_cons.1 ha with rfl | ha
      · rw [i2 _ hn.1, Function.update_self]
      · have hne : ix a ≠ ix b := fun e => hn.1 (e ▸ List.mem_map_of_mem ha)
        rw [i1 a ha, Function.update_of_ne hne]
    · intro c hc
      rw [List.map_cons, List.mem_cons, not_or] at hc
      rw [i2 c hc.2, Function.update_of_ne hc.1]

theorem list_sum_mul (l : List (ℤ × ℤ)) (g : ℤ × ℤ → ℝ) (s : Finset ℕ) (F : ℕ → ℤ × ℤ → ℝ) : ∑ k ∈ s, (l.map fun a => g a * F k a).sum = (l.map fun a => g a * ∑ k ∈ s, F k a).sum := by
  induction l with
  | nil => simp
  | cons a l ih => simp only [List.map_cons, List.sum_cons, Finset.sum_add_distrib, ih, Finset.mul_sum]

theorem list_sum_single (l : List (ℤ × ℤ)) (hn : l.Nodup) (a : ℤ × ℤ) (ha : a ∈ l) (v : ℤ × ℤ → ℝ) (h0 : ∀ b ∈ l, b ≠ a → v b = 0) : (l.map v).sum = v a := by
  induction l with
  | nil => simp at ha
  | cons b l ih =>
    rw [List.nodup_cons] at hn
    rw [List.map_cons, List.sum_cons]
    by_cases hab : b = a
    · subst hab
      have : (l.map v).sum = 0 := by
        apply List.sum_eq_zero
        intro x hx
        obtain ⟨c, hc, rfl⟩ := List.mem_map.1 hx
        exact h0 c (List.mem_cons_of_mem _ hc) (fun e => hn.1 (e ▸ hc))
      rw [this, add_zero]
    · rw [h0 b List.mem_cons_self hab, zero_add]
      exact ih hn.2 ((List.mem_cons.1 ha).resolve_left (fun e => hab e.symm)) (fun c hc => h0 c (List.mem_cons_of_mem _ hc))

end Fwd

theorem kappa_ynorm (m : ℤ) : Fwd.kappa m.natAbs * ynorm m * (if m = 0 then 2 * π else π) = 2 * π := by
  have hp : √π ≠ 0 := by positivity
  have h2 : √2 * √2 = (2 : ℝ) := Real.mul_self_sqrt (by norm_num)
  rw [Fwd.kappa, ynorm]
  by_cases h : m = 0
  · subst h; simp; field_simp; norm_num
  · rw [if_pos (by omega), if_neg h, if_neg h]
    field_simp
    linear_combination (1 / 2) * h2

/-- the flags of the index scheme used by the transformation -/
theorem fwd_flags {lmax mmax : ℤ} {s : Sym} {ind : Indices} (h : mkIndices lmax mmax s = .ok ind) :
    ind.lmax = lmax ∧ ind.mmax = mmax ∧ 0 ≤ mmax ∧ mmax ≤ lmax ∧ (ind.mmin = if decide (ind.mmin < 0) then -mmax else 0) ∧ (isZ ind.sym = true → lmax ≠ 0 → isZ s = true) := by
  obtain ⟨h0, h1, hs, -, hind⟩ := mkIndices_ok h
  obtain ⟨-, -, aZ, -⟩ := augment_flags s hs lmax mmax
  have e1 : ind.lmax = lmax := by rw [hind]
  have e2 : ind.mmax = mmax := by rw [hind]
  refine ⟨e1, e2, h0, h1, ?_, ?_⟩
  · rw [Indices.mmin, e2]
    by_cases hy : isY ind.sym = true
    · simp [hy]
    · simp only [hy, Bool.false_eq_true, if_false, decide_eq_true_eq]
      by_cases hm : mmax = 0
      · simp [hm]
      · rw [if_pos (by omega)]
  · intro hz hl
    rw [hind] at hz
    rw [aZ] at hz
    simpa [hl] using hz

/-- C93, forward: for every index scheme, Gauss-Legendre rule, positive stride and every function that is a sum of the harmonics in the scheme, the transformation of the samples taken at (costheta(i), phi(i)) returns the coefficients of that function, zeros for all other harmonics, and writes nothing outside the array. -/
theorem C93_forward {lmax mmax : ℤ} {s : Sym} {ind : Indices} (h : mkIndices lmax mmax s = .ok ind) (f : Fwd) (hf : f.ind = ind) (hR : GL.Rule (lmax.toNat + 1) f.nodes f.weights)
    (stride : ℤ) (hst : 0 < stride) (C : ℤ → ℝ) (values : ℕ → ℝ)
    (hv : ∀ i < f.size, values (i * stride.toNat) = series ind.visited C (arccos (f.costheta i)) (f.phi i)) (coefs : ℤ → ℝ) :
    ∃ out, f.transform values stride coefs = some out ∧ (∀ l m, (l, m) ∈ ind.visited → out (index l m) = C (index l m)) ∧
      (∀ c, (∀ l m, (l, m) ∈ ind.visited → index l m ≠ c) → out c = if 0 ≤ c ∧ c < ind.size then 0 else coefs c) := by
  subst hf
  obtain ⟨eL, eM, h0, h1, emin, hz⟩ := fwd_flags h
  have fL : (f.L : ℤ) = lmax := by rw [Fwd.L, eL]; omega
  have fM : (f.M : ℤ) = mmax := by rw [Fwd.M, eM]; omega
  have hML : f.M ≤ f.L := by omega
  have hR' : GL.Rule f.ngrid f.nodes f.weights := by rw [Fwd.ngrid, Fwd.L, eL]; exact hR
  have hvis := mem_visited h
  have fpos : 0 < f.fsize := by rw [Fwd.fsize, Verif.Fourier.size]; split <;> omega
  by_cases hsz : f.ind.size = 1
  · -- lmax = 0
    have hl0 : lmax = 0 := by
      rw [Indices.size, eL] at hsz; nlinarith
    have hm0 : mmax = 0 := by omega
    have hv00 : ∀ l m, (l, m) ∈ f.ind.visited ↔ l = 0 ∧ m = 0 := by
      intro l m
      rw [hvis]
      constructor
      · rintro ⟨a, b, c, -⟩
        have := abs_nonneg m
        exact ⟨by omega, abs_eq_zero.1 (by omega)⟩
      · rintro ⟨rfl, rfl⟩
        simp [hl0, hm0, Allowed]
    have hlist : f.ind.visited = [(0, 0)] := by
      have hn := nodup_visited f.ind
      have hperm : List.Perm f.ind.visited [(0, 0)] := by
        rw [List.perm_ext_iff_of_nodup hn (by simp)]
        rintro ⟨l, m⟩
        rw [hv00]; simp
      exact List.perm_singleton.1 hperm
    rw [Fwd.transform, if_pos hsz]
    refine ⟨_, rfl, ?_, ?_⟩
    · intro l m hm
      obtain ⟨rfl, rfl⟩ := (hv00 l m).1 hm
      have hi : (0 : ℕ) < f.size := by
        rw [Fwd.size]
        have : 0 < f.thetasize := by rw [Fwd.thetasize]; split <;> omega
        positivity
      have := hv 0 hi
      rw [Nat.zero_mul] at this
      rw [show index 0 0 = 0 by rfl, Function.update_self, this, series, hlist]
      have hW := legW_eq (le_refl 0) (arccos_ok (f.costheta 0))
      simp only [List.map_cons, List.map_nil, List.sum_cons, List.sum_nil, harm, Int.toNat_zero, Int.natAbs_zero, hW, ynorm, trigM, index]
      have hp : √π ≠ 0 := by positivity
      simp [pre, prefact0, cm, G, Q]
      field_simp
    · intro c hc
      have hc0 : c ≠ 0 := by
        intro e
        exact hc 0 0 ((hv00 0 0).2 ⟨rfl, rfl⟩) e.symm
      rw [Function.update_of_ne hc0, hsz, if_neg (by omega)]
  · have hl0 : lmax ≠ 0 := by
      intro e; apply hsz; rw [Indices.size, eL, e]; rfl
    rw [Fwd.transform, if_neg hsz, if_neg (by omega)]
    simp only
    set valm : ℕ → List ℝ := fun j => Verif.Fourier.transform f.M f.useSine (fun i => values (j * f.fsize * stride.toNat + i)) stride.toNat with hvalm
    set zeroed : ℤ → ℝ := fun c => if 0 ≤ c ∧ c < f.ind.size then 0 else coefs c with hzero
    simp only [Fwd.foldl_inner]
    have hnd : (f.ind.visited.map fun lm => index lm.1 lm.2).Nodup := by
      apply List.Nodup.map_on _ (nodup_visited f.ind)
      rintro ⟨l, m⟩ ha ⟨l', m'⟩ hb e
      have := C26_injective ((hvis l m).1 ha).1 ((hvis l' m').1 hb).1 e
      exact Prod.ext this.1 this.2
    obtain ⟨o1, o2⟩ := Fwd.foldl_outer (fun lm : ℤ × ℤ => index lm.1 lm.2) (fun lm => ∑ j ∈ Finset.range f.ngrid, f.incr valm lm.1 lm.2 j) f.ind.visited zeroed hnd
    refine ⟨_, rfl, ?_, ?_⟩
    swap
    · intro c hc
      rw [o2 c]
      intro hmem
      obtain ⟨⟨l, m⟩, ha, e⟩ := List.mem_map.1 hmem
      exact hc l m ha e
    intro l m hlm
    rw [o1 (l, m) hlm]
    simp only
    obtain ⟨g1, g2⟩ := visited_in_array h hlm
    rw [hzero]
    simp only [g1, g2, and_self, if_true, zero_add]
    obtain ⟨v1, v2, v3, v4⟩ := (hvis l m).1 hlm
    have hab := Int.abs_eq_natAbs m
    have huse : (if f.useSine then -(f.M : ℤ) else 0) = f.ind.mmin := by rw [emin, Fwd.useSine, fM]
    have hrange : ∀ l' m', (l', m') ∈ f.ind.visited → (if f.useSine then -(f.M : ℤ) else 0) ≤ m' ∧ m' ≤ f.M := by
      intro l' m' hm'
      rw [huse]
      rw [Indices.visited, List.mem_flatMap] at hm'
      obtain ⟨x, hx, hy⟩ := hm'
      obtain ⟨y, -, e⟩ := List.mem_map.1 hy
      cases e
      rw [mem_forLoop 1 (by norm_num)] at hx
      exact ⟨hx.1, by omega⟩
    obtain ⟨r1, r2⟩ := hrange l m hlm
    -- the increments
    have hinc : ∀ j ∈ Finset.range f.ngrid, f.incr valm l m j = (f.ind.visited.map fun a => (C (index a.1 a.2) * ynorm a.2 * Fwd.kappa m.natAbs * (if m = a.2 then (if m = 0 then 2 * π else π) else 0)) *
        (f.weights j * (legW l.toNat m.natAbs (arccos (f.costh j)) * legW a.1.toNat a.2.natAbs (arccos (f.costh j))))).sum := by
      intro j hj
      rw [Finset.mem_range] at hj
      rw [Fwd.incr]
      rw [f.plm_value hR' hML hj v1 (by omega) (by omega)]
      set js := if j < f.thetasize then j else f.ngrid - 1 - j with hjs
      have hjs2 : js < f.thetasize := by
        rw [hjs]; split
        · assumption
        · rename_i hh
          rw [Fwd.thetasize] at hh ⊢
          rw [Fwd.ngrid] at hj ⊢
          split at hh
          · rename_i hz'; rw [if_pos hz']; omega
          · omega
      -- symmetry of the terms of the series
      have hsym : ∀ a ∈ f.ind.visited, legW a.1.toNat a.2.natAbs (arccos (f.costh js)) = legW a.1.toNat a.2.natAbs (arccos (f.costh j)) := by
        rintro ⟨l', m'⟩ ha
        obtain ⟨w1, w2, w3, w4⟩ := (hvis l' m').1 ha
        have hab' := Int.abs_eq_natAbs m'
        rw [hjs]
        split
        · rfl
        · rename_i hh
          have hzs : isZ f.ind.sym = true := by
            by_contra hcon
            rw [Fwd.thetasize, if_neg hcon] at hh
            rw [Fwd.ngrid] at hj
            exact hh hj
          have hev := w4.2.2.1 (hz hzs hl0)
          rw [Int.even_iff] at hev
          have : f.ngrid - 1 - j = f.L - j := by rw [Fwd.ngrid]; omega
          rw [this, f.costh_refl hR' hj, arccos_neg, legW_refl (by simp only; omega) (arccos_nonneg _) (arccos_le_pi _), Even.neg_one_pow (by rw [Nat.even_iff]; simp only; omega), one_mul]
      rw [← huse, hvalm]
      simp only
      rw [transform_get f.M f.useSine _ _ m r1 r2]
      have hval : ∀ k ∈ Finset.range (Verif.Fourier.size f.M f.useSine), Verif.Fourier.wt f.M f.useSine k * trigM m (Verif.Fourier.phi f.M k) * values (js * f.fsize * stride.toNat + k * stride.toNat) =
          (f.ind.visited.map fun a => (C (index a.1 a.2) * (ynorm a.2 * legW a.1.toNat a.2.natAbs (arccos (f.costh js)))) * (Verif.Fourier.wt f.M f.useSine k * (trigM m (Verif.Fourier.phi f.M k) * trigM a.2 (Verif.Fourier.phi f.M k)))).sum := by
        intro k hk
        rw [Finset.mem_range] at hk
        have hk' : k < f.fsize := hk
        have hi : js * f.fsize + k < f.size := by
          rw [Fwd.size]
          calc js * f.fsize + k < js * f.fsize + f.fsize := by omega
            _ = (js + 1) * f.fsize := by ring
            _ ≤ f.thetasize * f.fsize := Nat.mul_le_mul_right _ hjs2
        have := hv _ hi
        rw [Nat.add_mul] at this
        have d1 : (js * f.fsize + k) / f.fsize = js := by
          rw [mul_comm, Nat.mul_add_div fpos, Nat.div_eq_of_lt hk', add_zero]
        have d2 : (js * f.fsize + k) % f.fsize = k := by
          rw [mul_comm, Nat.mul_add_mod, Nat.mod_eq_of_lt hk']
        rw [this, series, Fwd.costheta, Fwd.phi, d1, d2, ← List.sum_map_mul_left]
        congr 1
        apply List.map_congr_left
        intro a _
        rw [harm]; ring
      rw [Finset.sum_congr rfl hval, Fwd.list_sum_mul, ← List.sum_map_mul_left]
      congr 1
      apply List.map_congr_left
      intro a ha
      have hr := hrange a.1 a.2 ha
      rw [azimuth_ortho f.M f.useSine m a.2 r1 r2 hr.1 hr.2, hsym a ha]
      ring
    rw [Finset.sum_congr rfl hinc, Fwd.list_sum_mul]
    rw [Fwd.list_sum_single f.ind.visited (nodup_visited _) (l, m) hlm]
    · simp only [if_true]
      rw [f.legendre_ortho hR' (by omega) (by omega) (by omega) (by omega), if_pos rfl]
      have := kappa_ynorm m
      have hpi := pi_pos
      field_simp
      linear_combination (C (index l m)) * this
    · rintro ⟨l', m'⟩ ha hne
      simp only
      by_cases hmm : m = m'
      · subst hmm
        obtain ⟨w1, w2, w3, w4⟩ := (hvis l' m).1 ha
        have hll : l.toNat ≠ l'.toNat := by
          intro e
          apply hne
          ext
          · simp only; omega
          · rfl
        rw [f.legendre_ortho hR' (by omega) (by omega) (by omega) (by omega), if_neg hll, mul_zero]
      · rw [if_neg hmm]; ring

/-! ### inverse transformation -/

theorem foldl_add {α : Type} (g : α → ℝ) : ∀ (l : List α) (r : ℝ), l.foldl (fun r a => r + g a) r = r + (l.map g).sum
  | [], r => by simp
  | a :: l, r => by rw [List.foldl_cons, foldl_add g l, List.map_cons, List.sum_cons, add_assoc]

theorem invTrig_eq {M : ℕ} {b : Bool} (p : ℝ) (m : ℤ) (h1 : (if b then -(M : ℤ) else 0) ≤ m) (h2 : m ≤ M) : invTrig M b p m = ynorm m * trigM m p := by
  obtain ⟨-, c, sn⟩ := Verif.Fourier.C29_multiAngle p M b
  rw [invTrig, ynorm]
  by_cases h0 : m = 0
  · subst h0; simp [trigM]
  have hM : M > 0 := by
    by_contra hh
    have : M = 0 := by omega
    subst this
    cases b <;> simp at h1 <;> omega
  simp only [if_neg h0, if_pos hM]
  by_cases hp : m > 0
  · rw [if_pos hp]
    obtain ⟨n, rfl⟩ : ∃ n : ℕ, m = ((n + 1 : ℕ) : ℤ) := ⟨(m - 1).toNat, by omega⟩
    rw [trigM_nat, show (((n + 1 : ℕ) : ℤ) - 1).toNat = n by omega, List.getD_eq_getElem?_getD, c n (by omega), Option.getD_some]
    push_cast; ring
  · rw [if_neg hp]
    have hb : b = true := by
      cases b
      · simp at h1; omega
      · rfl
    subst hb
    simp only [if_true] at h1
    obtain ⟨n, rfl⟩ : ∃ n : ℕ, m = -((n + 1 : ℕ) : ℤ) := ⟨(-m - 1).toNat, by omega⟩
    rw [trigM_negnat (n + 1) (by omega), show ((M : ℤ) - -((n + 1 : ℕ) : ℤ) - 1).toNat = M + n by omega, List.getD_eq_getElem?_getD, sn rfl n (by omega), Option.getD_some]
    push_cast; ring

/-- C93, inverse: the inverse transformation is the sum of the series over the harmonics in the index scheme, in every direction. -/
theorem C93_inverse {lmax mmax : ℤ} {s : Sym} {ind : Indices} (h : mkIndices lmax mmax s = .ok ind) (C : ℤ → ℝ) (t p : ℝ) (ht0 : 0 ≤ t) (ht1 : t ≤ π) :
    inverse ind C (tauOf t) p = series ind.visited C t p := by
  obtain ⟨eL, eM, h0, h1, emin, hz⟩ := fwd_flags h
  rw [inverse, series]
  simp only
  have hsum : ∀ (l : List ℤ) (g : ℤ → List (ℤ × ℤ)) (v : ℤ × ℤ → ℝ), ((l.flatMap g).map v).sum = (l.map fun m => ((g m).map v).sum).sum := by
    intro l g v
    induction l with
    | nil => simp
    | cons a l ih => simp [List.flatMap_cons, ih]
  rw [Indices.visited, hsum]
  have step : ∀ m ∈ forLoop 1 ind.mmin ind.mmax, ∀ r : ℝ, (if ind.lmin m > ind.lmax then r else
      (forLoop ind.step (ind.lmin m) ind.lmax).foldl (fun result l => result + C (index l m) * ((((sphHarmArray ind.lmax.toNat m.natAbs (tauOf t)).getD []).map LegOut.val).getD (l.toNat - m.natAbs) 0) * invTrig ind.mmax.toNat (decide (ind.mmin < 0)) p m) r) =
      r + (((forLoop ind.step (ind.lmin m) ind.lmax).map fun l => (l, m)).map fun lm => C (index lm.1 lm.2) * (ynorm lm.2 * harm lm.1 lm.2 t p)).sum := by
    intro m hm r
    have hm' := (mem_forLoop 1 (by norm_num) _ _ _).1 hm
    by_cases hl : ind.lmin m > ind.lmax
    · rw [if_pos hl, forLoop, dif_neg (by omega)]; simp
    · rw [if_neg hl, foldl_add, List.map_map]
      congr 2
      apply List.map_congr_left
      intro l hlm
      have hvis : (l, m) ∈ ind.visited := by
        rw [Indices.visited, List.mem_flatMap]
        exact ⟨m, hm, List.mem_map.2 ⟨l, hlm, rfl⟩⟩
      obtain ⟨v1, v2, v3, v4⟩ := (mem_visited h l m).1 hvis
      have hab := Int.abs_eq_natAbs m
      obtain ⟨a, o, ha, ho, hv⟩ := array_legW (L := ind.lmax.toNat) (m := m.natAbs) (l := l.toNat) (by omega) (by omega) (sin_add_one_ne ht0 ht1)
      have hr : (if decide (ind.mmin < 0) then -((ind.mmax.toNat : ℕ) : ℤ) else 0) ≤ m := by
        rw [show ((ind.mmax.toNat : ℕ) : ℤ) = mmax by omega, ← emin]; exact hm'.1
      rw [ha, Option.getD_some, List.getD_eq_getElem?_getD, List.getElem?_map, ho, Option.map_some, Option.getD_some, hv, invTrig_eq p m hr (by omega)]
      simp only [Function.comp, harm]
      ring
  have fold : ∀ (l : List ℤ) (F : ℝ → ℤ → ℝ) (S : ℤ → ℝ), (∀ m ∈ l, ∀ r, F r m = r + S m) → ∀ r, l.foldl F r = r + (l.map S).sum := by
    intro l F S hF
    induction l with
    | nil => intro r; simp
    | cons a l ih =>
      intro r
      rw [List.foldl_cons, hF a List.mem_cons_self, ih (fun m hm => hF m (List.mem_cons_of_mem _ hm)), List.map_cons, List.sum_cons, add_assoc]
  rw [fold _ _ _ step 0, zero_add]

/-- C93, round trip: sampling the inverse transformation of any set of coefficients at the points (costheta(i), phi(i)), in the variable tau, and applying the forward transformation returns the coefficients of the harmonics in the index scheme, and zeros for all others. -/
theorem C93_roundtrip {lmax mmax : ℤ} {s : Sym} {ind : Indices} (h : mkIndices lmax mmax s = .ok ind) (f : Fwd) (hf : f.ind = ind) (hR : GL.Rule (lmax.toNat + 1) f.nodes f.weights)
    (stride : ℤ) (hst : 0 < stride) (C : ℤ → ℝ) (values : ℕ → ℝ)
    (hv : ∀ i < f.size, values (i * stride.toNat) = inverse ind C (Fwd.tauOfCos (f.costheta i)) (f.phi i)) (coefs : ℤ → ℝ) :
    ∃ out, f.transform values stride coefs = some out ∧
      ∀ c, 0 ≤ c → c < ind.size → out c = if ∃ lm ∈ ind.visited, index lm.1 lm.2 = c then C c else 0 := by
  obtain ⟨eL, eM, h0, h1, emin, hz⟩ := fwd_flags h
  have fpos : 0 < f.fsize := by rw [Fwd.fsize, Verif.Fourier.size]; split <;> omega
  have hR' : GL.Rule f.ngrid f.nodes f.weights := by rw [Fwd.ngrid, Fwd.L, hf, eL]; exact hR
  have hcos : ∀ i < f.size, -1 < f.costheta i ∧ f.costheta i < 1 := by
    intro i hi
    apply f.costh_in hR'
    have := (Nat.div_lt_iff_lt_mul fpos).2 hi
    refine lt_of_lt_of_le this ?_
    rw [Fwd.thetasize, Fwd.ngrid]; split <;> omega
  obtain ⟨out, e, o1, o2⟩ := C93_forward h f hf hR stride hst C values (fun i hi => by
    rw [hv i hi, tauOfCos_eq (hcos i hi).1 (hcos i hi).2, C93_inverse h C _ _ (arccos_nonneg _) (arccos_le_pi _)]) coefs
  refine ⟨out, e, ?_⟩
  intro c hc0 hc1
  by_cases hex : ∃ lm ∈ ind.visited, index lm.1 lm.2 = c
  · rw [if_pos hex]
    obtain ⟨⟨l, m⟩, hm, rfl⟩ := hex
    exact o1 l m hm
  · rw [if_neg hex, o2 c (fun l m hm e => hex ⟨(l, m), hm, e⟩), if_pos ⟨hc0, hc1⟩]

/-- C93: a stride that is not positive is rejected, except for a single coefficient, where it is not used. -/
theorem C93_stride (f : Fwd) (values : ℕ → ℝ) (stride : ℤ) (coefs : ℤ → ℝ) : f.transform values stride coefs = none ↔ stride ≤ 0 ∧ f.ind.size ≠ 1 := by
  rw [Fwd.transform]
  by_cases h1 : f.ind.size = 1
  · rw [if_pos h1]; simp [h1]
  · rw [if_neg h1]
    by_cases h2 : stride ≤ 0
    · rw [if_pos h2]; simp [h1, h2]
    · rw [if_neg h2]; simp [h2]

/-- The hypotheses are met for every accepted index scheme: the Gauss-Legendre rule of the required order exists. -/
theorem C93_nonvacuous {lmax mmax : ℤ} {s : Sym} {ind : Indices} (_h : mkIndices lmax mmax s = .ok ind) : ∃ f : Fwd, f.ind = ind ∧ GL.Rule (lmax.toNat + 1) f.nodes f.weights := by
  obtain ⟨x, w, hR, -⟩ := GL.rule_exists (lmax.toNat + 1) (by omega)
  exact ⟨⟨ind, x, w⟩, rfl, hR⟩

/-- A concrete case: lmax=4, mmax=2, triaxial symmetry: the coefficient (2,2) of a function is recovered. -/
example : ∃ (ind : Indices) (f : Fwd) (out : ℤ → ℝ), mkIndices 4 2 15 = .ok ind ∧ f.ind = ind ∧ (2, 2) ∈ ind.visited ∧
    f.transform (fun i => inverse ind (fun c => if c = 8 then 7 else 1) (Fwd.tauOfCos (f.costheta i)) (f.phi i)) 1 (fun _ => 0) = some out ∧ out (index 2 2) = 7 := by
  obtain ⟨ind, hi⟩ := mkIndices_accepts (lmax := 4) (mmax := 2) (s := 15) (by norm_num) (by norm_num) (by norm_num) (by decide)
  obtain ⟨f, hf, hR⟩ := C93_nonvacuous hi
  have hm : ((2 : ℤ), (2 : ℤ)) ∈ ind.visited := by
    rw [mem_visited hi]
    refine ⟨by norm_num, by norm_num, by norm_num, ?_⟩
    rw [Allowed]
    decide
  obtain ⟨out, e, ho⟩ := C93_roundtrip hi f hf hR 1 (by norm_num) (fun c => if c = 8 then 7 else 1) (fun i => inverse ind (fun c => if c = 8 then 7 else 1) (Fwd.tauOfCos (f.costheta i)) (f.phi i)) (fun i _ => by simp) (fun _ => 0)
  refine ⟨ind, f, out, hi, hf, hm, e, ?_⟩
  obtain ⟨a, b⟩ := visited_in_array hi hm
  rw [ho _ a b, if_pos ⟨_, hm, rfl⟩]
  rfl

end

end Verif.SphHarm
