import Verif.Gal.Jeans
import Verif.Spline.LogLogProps
import Mathlib.Analysis.SpecialFunctions.ImproperIntegrals
import Mathlib.Analysis.SpecialFunctions.Pow.Deriv
import Mathlib.MeasureTheory.Integral.IntervalIntegral.FundThmCalculus

/-!
# C116: the spherical Jeans model
-/
namespace Verif.Gal.Jeans
open Real MeasureTheory

/-! ## specification -/

/-- the pressure `r^{2β} ρ σ²` at the radius `r` when the part beyond `R` is `tl` -/
noncomputable def pressure (f : ℝ → ℝ) (tl R r : ℝ) : ℝ := tl + ∫ x in r..R, f x

/-! ## the arrays -/

theorem integrals_length (f : ℝ → ℝ) (last : ℝ) : ∀ l : List ℝ, (integrals f last l).length = l.length
  | [] => rfl
  | [_] => rfl
  | r :: r' :: t => by
    have := integrals_length f last (r' :: t)
    simp only [integrals, List.length_cons] at this ⊢
    omega

theorem integrals_zip (f : ℝ → ℝ) (last : ℝ) (R : ℝ) (hf : ∀ a b, 0 < a → 0 < b → IntervalIntegrable f volume a b) (hR : 0 < R) :
    ∀ l : List ℝ, (∀ r ∈ l, 0 < r) → l.getLast? = some R → List.zip l (integrals f last l) = l.map (fun r => (r, pressure f last R r))
  | [], _, _ => rfl
  | [r], _, h => by
    simp at h
    subst h
    simp [integrals, pressure]
  | r :: r' :: t, hp, h => by
    have hl : (r' :: t).getLast? = some R := by rw [List.getLast?_cons_cons] at h; exact h
    have ih := integrals_zip f last R hf hR (r' :: t) (fun x hx => hp x (List.mem_cons_of_mem _ hx)) hl
    cases hc : integrals f last (r' :: t) with
    | nil => have := integrals_length f last (r' :: t); rw [hc] at this; simp at this
    | cons a b =>
      rw [hc] at ih
      simp only [List.zip_cons_cons, List.map_cons, List.cons.injEq, Prod.mk.injEq, true_and] at ih
      simp only [integrals, hc, List.headD_cons, List.zip_cons_cons, List.map_cons, List.cons.injEq, Prod.mk.injEq, true_and]
      refine ⟨?_, ih.1, ih.2⟩
      rw [ih.1]
      unfold pressure
      have r0 := hp r (by simp)
      have r0' := hp r' (by simp)
      have := intervalIntegral.integral_add_adjacent_intervals (hf r r' r0 r0') (hf r' R r0' hR)
      linarith

theorem trimTail_prefix (dens ddens : ℝ → ℝ) (grid : List ℝ) : trimTail dens ddens grid <+: grid := by
  unfold trimTail
  classical
  have := List.dropWhile_suffix (fun r => decide (dens r ≤ 0 ∨ ddens r = 0)) (l := grid.reverse)
  have h := List.reverse_prefix.mpr this
  rwa [List.reverse_reverse] at h

theorem trimTail_last (dens ddens : ℝ → ℝ) (grid : List ℝ) (R : ℝ) (h : (trimTail dens ddens grid).getLast? = some R) :
    0 < dens R ∧ ddens R ≠ 0 := by
  unfold trimTail at h
  rw [List.getLast?_reverse] at h
  have := List.head?_dropWhile_not (fun r => open Classical in decide (dens r ≤ 0 ∨ ddens r = 0)) grid.reverse
  rw [h] at this
  simp only at this
  have h2 : ¬ (dens R ≤ 0 ∨ ddens R = 0) := by
    intro hc
    simp [hc] at this
  rw [not_or, not_le] at h2
  exact h2

/-- **C116** The nodes of the model.  If it is created, the integrand decays faster than 1/r at the last point `R` of the
(shortened) grid, where the density is positive.  The nodes are, in the same order, those points of the grid at which the
density is not zero and the pressure (the integral of r^{2β} ρ dΦ/dr from this point to `R` plus the tail) is positive; if in
addition the density is positive and the potential negative there, the value is positive, and its square is the
smaller of pressure / (ρ r^{2β}) and the squared escape velocity. -/
theorem C116_nodes (dens ddens pot dpot : ℝ → ℝ) (beta : ℝ) (grid : List ℝ) (hg : ∀ r ∈ grid, 0 < r)
    (hf : ∀ a b, 0 < a → 0 < b → IntervalIntegrable (integrand dens dpot beta) volume a b)
    (out : List (ℝ × Option ℝ)) (h : nodes dens ddens pot dpot beta grid = some out) :
    ∃ R ∈ grid, power dens ddens pot dpot beta R < -1 ∧ 0 < dens R ∧
      (trimTail dens ddens grid).getLast? = some R ∧
      let P := pressure (integrand dens dpot beta) (tail dens ddens pot dpot beta R) R
      (∀ r, r ∈ out.map Prod.fst ↔ r ∈ trimTail dens ddens grid ∧ dens r ≠ 0 ∧ 0 < P r) ∧
      (out.map Prod.fst).Sublist grid ∧
      ∀ r v, (r, v) ∈ out → 0 < dens r → pot r < 0 →
        ∃ s, v = some s ∧ 0 < s ∧ s ^ 2 = min (P r / (dens r * r ^ (2 * beta))) (-2 * pot r) := by
  unfold nodes at h
  simp only at h
  split_ifs at h with h3
  cases hl : (trimTail dens ddens grid).getLast? with
  | none => rw [hl] at h; simp at h
  | some R =>
    rw [hl] at h
    simp only at h
    split_ifs at h with hpow
    have hpre := trimTail_prefix dens ddens grid
    have hsub : ∀ r ∈ trimTail dens ddens grid, r ∈ grid := fun r hr => hpre.subset hr
    have hRm := hsub R (List.mem_of_getLast? hl)
    have hz := integrals_zip (integrand dens dpot beta) (tail dens ddens pot dpot beta R) R hf (hg R hRm) (trimTail dens ddens grid)
      (fun r hr => hg r (hsub r hr)) hl
    rw [hz] at h
    simp only [Option.some.injEq] at h
    set P := pressure (integrand dens dpot beta) (tail dens ddens pot dpot beta R) R with hP
    rw [List.filterMap_map] at h
    have hconv : ∀ r q, convert dens pot beta r (P r) = some q →
        q.1 = r ∧ dens r ≠ 0 ∧ 0 < P r ∧ q.2 = fmin (csqrt (P r / (dens r * r ^ (2 * beta)))) (csqrt (-2 * pot r)) := by
      intro r q hq
      unfold convert at hq
      simp only at hq
      split_ifs at hq with hc
      simp only [Option.some.injEq] at hq
      subst hq
      exact ⟨rfl, hc.1, hc.2, rfl⟩
    refine ⟨R, hRm, hpow, (trimTail_last dens ddens grid R hl).1, rfl, ?_, ?_, ?_⟩
    · intro r
      rw [← h, List.mem_map]
      constructor
      · rintro ⟨q, hq, rfl⟩
        rw [List.mem_filterMap] at hq
        obtain ⟨r', hr', hq'⟩ := hq
        obtain ⟨e1, e2, e3, -⟩ := hconv r' q hq'
        rw [e1]
        exact ⟨hr', e2, e3⟩
      · rintro ⟨hr, h1, h2⟩
        refine ⟨(r, fmin (csqrt (P r / (dens r * r ^ (2 * beta)))) (csqrt (-2 * pot r))), ?_, rfl⟩
        rw [List.mem_filterMap]
        refine ⟨r, hr, ?_⟩
        simp only [Function.comp, convert, if_pos (show dens r ≠ 0 ∧ P r > 0 from ⟨h1, h2⟩)]
    · rw [← h, List.map_filterMap]
      have hss : (List.filterMap (fun x => Option.map Prod.fst (((fun p : ℝ × ℝ => convert dens pot beta p.1 p.2) ∘ fun r => (r, P r)) x))
          (trimTail dens ddens grid)).Sublist (trimTail dens ddens grid) := by
        have : ∀ l : List ℝ, (List.filterMap (fun x => Option.map Prod.fst (((fun p : ℝ × ℝ => convert dens pot beta p.1 p.2) ∘ fun r => (r, P r)) x)) l).Sublist l := by
          intro l
          induction l with
          | nil => simp
          | cons a t ih =>
            rw [List.filterMap_cons]
            cases hq : convert dens pot beta a (P a) with
            | none => simp only [Function.comp, hq, Option.map_none]; exact ih.cons a
            | some q =>
              obtain ⟨e1, -⟩ := hconv a q hq
              simp only [Function.comp, hq, Option.map_some]
              rw [e1]
              exact ih.cons_cons a
        exact this _
      exact hss.trans hpre.sublist
    · intro r v hrv hd hp
      rw [← h, List.mem_filterMap] at hrv
      obtain ⟨r', hr', hq'⟩ := hrv
      obtain ⟨e1, e2, e3, e4⟩ := hconv r' (r, v) hq'
      simp only at e1 e4
      subst e1
      have hr0 := hg r (hsub r hr')
      have hrp := rpow_pos_of_pos hr0 (2 * beta)
      have hA : 0 < P r / (dens r * r ^ (2 * beta)) := by positivity
      have hB : 0 < -2 * pot r := by linarith
      rw [csqrt, if_neg (not_lt.mpr hA.le), csqrt, if_neg (not_lt.mpr hB.le)] at e4
      refine ⟨_, e4, lt_min (sqrt_pos.mpr hA) (sqrt_pos.mpr hB), ?_⟩
      rcases le_total (P r / (dens r * r ^ (2 * beta))) (-2 * pot r) with hle | hle
      · rw [min_eq_left (sqrt_le_sqrt hle), min_eq_left hle, sq_sqrt hA.le]
      · rw [min_eq_right (sqrt_le_sqrt hle), min_eq_right hle, sq_sqrt hB.le]

/-- **C116** The tail: if the potential and the density are power laws beyond `R`, the value used for the outermost point
is the integral to infinity. -/
theorem C116_tail (dens ddens pot dpot : ℝ → ℝ) (beta R A B p q : ℝ) (hR : 0 < R) (hA : A ≠ 0) (hB : B ≠ 0)
    (h1 : ∀ r, R ≤ r → pot r = A * r ^ p) (h1' : ∀ r, R ≤ r → dpot r = A * (p * r ^ (p - 1)))
    (h2 : ∀ r, R ≤ r → dens r = B * r ^ q) (h2' : ∀ r, R ≤ r → ddens r = B * (q * r ^ (q - 1)))
    (hpow : power dens ddens pot dpot beta R < -1) :
    IntegrableOn (integrand dens dpot beta) (Set.Ioi R) ∧
    tail dens ddens pot dpot beta R = ∫ r in Set.Ioi R, integrand dens dpot beta r := by
  have hp : dpot R * R / pot R = p := by
    rw [h1 R le_rfl, h1' R le_rfl, rpow_sub_one hR.ne']
    have := rpow_pos_of_pos hR p
    field_simp
  have hq : ddens R * R / dens R = q := by
    rw [h2 R le_rfl, h2' R le_rfl, rpow_sub_one hR.ne']
    have := rpow_pos_of_pos hR q
    field_simp
  have hw : power dens ddens pot dpot beta R = 2 * beta + p - 1 + q := by simp only [power, hp, hq]
  have hf : ∀ r ∈ Set.Ioi R, A * B * p * r ^ (2 * beta + p - 1 + q) = integrand dens dpot beta r := by
    intro r hr
    have hr0 : 0 < r := lt_trans hR hr
    unfold integrand
    rw [h1' r (le_of_lt hr), h2 r (le_of_lt hr), show 2 * beta + p - 1 + q = beta * 2 + q + (p - 1) by ring, rpow_add hr0, rpow_add hr0]
    ring
  rw [hw] at hpow
  constructor
  · refine IntegrableOn.congr_fun ?_ hf measurableSet_Ioi
    exact (integrableOn_Ioi_rpow_of_lt hpow hR).const_mul _
  · rw [← setIntegral_congr_fun measurableSet_Ioi hf, integral_const_mul, integral_Ioi_rpow_of_lt hpow hR]
    unfold tail
    simp only [hw, hp]
    rw [h1 R le_rfl, h2 R le_rfl, show 2 * beta + p - 1 + q + 1 = 2 * beta + p + q by ring, rpow_add hR, rpow_add hR]
    have : -1 - (2 * beta + p - 1 + q) = -(2 * beta + p + q) := by ring
    rw [this]
    have hne : 2 * beta + p + q ≠ 0 := by intro h; linarith
    field_simp

/-- **C116** The uncapped dispersion σ² = pressure/(ρ r^{2β}) obeys the spherical Jeans equation with constant anisotropy,
d(ρσ²)/dr + (2β/r) ρσ² = -ρ dΦ/dr. -/
theorem C116_jeans (dens dpot : ℝ → ℝ) (beta tl R r : ℝ) (hr : 0 < r) (hR : 0 < R) (hd : ∀ x, 0 < x → dens x ≠ 0)
    (hc : ∀ x, 0 < x → ContinuousAt dens x) (hc' : ∀ x, 0 < x → ContinuousAt dpot x) :
    let sigma2 := fun x => pressure (integrand dens dpot beta) tl R x / (dens x * x ^ (2 * beta))
    HasDerivAt (fun x => dens x * sigma2 x) (-dens r * dpot r - 2 * beta / r * (dens r * sigma2 r)) r := by
  intro sigma2
  have hci : ∀ x, 0 < x → ContinuousAt (integrand dens dpot beta) x := by
    intro x hx
    unfold integrand
    exact ((continuousAt_rpow_const x _ (Or.inl hx.ne')).mul (hc x hx)).mul (hc' x hx)
  have hco : ContinuousOn (integrand dens dpot beta) (Set.Ioi 0) := fun x hx => (hci x hx).continuousWithinAt
  have hint : IntervalIntegrable (integrand dens dpot beta) volume r R := by
    apply ContinuousOn.intervalIntegrable
    apply hco.mono
    intro x hx
    have := (Set.mem_uIcc.mp hx)
    rcases this with h | h
    · exact lt_of_lt_of_le hr h.1
    · exact lt_of_lt_of_le hR h.1
  have hmeas : StronglyMeasurableAtFilter (integrand dens dpot beta) (nhds r) volume :=
    hco.stronglyMeasurableAtFilter isOpen_Ioi r hr
  have hP : HasDerivAt (pressure (integrand dens dpot beta) tl R) (-integrand dens dpot beta r) r :=
    (intervalIntegral.integral_hasDerivAt_left hint hmeas (hci r hr)).const_add tl
  have hw : HasDerivAt (fun x : ℝ => x ^ (-(2 * beta))) (-(2 * beta) * r ^ (-(2 * beta) - 1)) r :=
    Real.hasDerivAt_rpow_const (Or.inl hr.ne')
  have e : (fun x => dens x * sigma2 x) =ᶠ[nhds r] fun x => pressure (integrand dens dpot beta) tl R x * x ^ (-(2 * beta)) := by
    filter_upwards [lt_mem_nhds hr] with x hx
    have h1 := hd x hx
    have h2 := rpow_pos_of_pos hx (2 * beta)
    simp only [sigma2]
    rw [rpow_neg hx.le]
    field_simp
  refine HasDerivAt.congr_of_eventuallyEq ?_ e
  refine (hP.mul hw).congr_deriv ?_
  simp only [sigma2]
  have h1 := hd r hr
  have h2 := rpow_pos_of_pos hr (2 * beta)
  rw [rpow_sub_one hr.ne', rpow_neg hr.le]
  unfold integrand
  rw [show beta * 2 = 2 * beta by ring]
  field_simp
  ring

theorem mapM_some {out : List (ℝ × Option ℝ)} (h : ∀ p ∈ out, ∃ s, p.2 = some s) :
    ∃ vals, out.mapM (fun p => p.2) = some vals ∧ vals.length = out.length ∧
      ∀ i (hi : i < out.length), (out[i]).2 = some (vals.getD i 0) := by
  induction out with
  | nil => exact ⟨[], rfl, rfl, fun i hi => by simp at hi⟩
  | cons a t ih =>
    obtain ⟨s, hs⟩ := h a (by simp)
    obtain ⟨v, h1, h2, h3⟩ := ih (fun p hp => h p (List.mem_cons_of_mem _ hp))
    refine ⟨s :: v, by rw [List.mapM_cons, hs, h1]; rfl, by simp [h2], ?_⟩
    intro i hi
    cases i with
    | zero => simpa using hs
    | succ i => simpa using h3 i (by simpa using hi)

/-- **C116** The model: if the density is positive and the potential negative at all points of the (increasing) grid and the force
is attractive, then an interpolator is created whenever at least three points of the grid remain and the integrals converge;
it is positive at all radii and has at each remaining point the value √min(pressure/(ρ r^{2β}), -2Φ). -/
theorem C116_model (dens ddens pot dpot : ℝ → ℝ) (beta : ℝ) (grid : List ℝ) (hg : ∀ r ∈ grid, 0 < r) (hinc : grid.Pairwise (· < ·))
    (hf : ∀ a b, 0 < a → 0 < b → IntervalIntegrable (integrand dens dpot beta) volume a b)
    (hd : ∀ r ∈ grid, 0 < dens r) (hp : ∀ r ∈ grid, pot r < 0) (hdp : ∀ r, 0 < r → 0 < dpot r) (hd' : ∀ r, 0 < r → 0 ≤ dens r)
    (R : ℝ) (h3 : 3 ≤ (trimTail dens ddens grid).length) (hR : (trimTail dens ddens grid).getLast? = some R)
    (hpow : power dens ddens pot dpot beta R < -1) :
    ∃ L, createJeansSphModel dens ddens pot dpot beta grid = some L ∧ ∃ F : ℝ → Verif.Spline.LogLog.Out,
      (∀ t, 0 < t → L.evalDeriv t = some (F t) ∧ 0 < (F t).val) ∧
      ∀ r ∈ trimTail dens ddens grid, (F r).val ^ 2 =
        min (pressure (integrand dens dpot beta) (tail dens ddens pot dpot beta R) R r / (dens r * r ^ (2 * beta))) (-2 * pot r) := by
  have hpre := trimTail_prefix dens ddens grid
  have hsub : ∀ r ∈ trimTail dens ddens grid, r ∈ grid := fun r hr => hpre.subset hr
  have hsome : ∃ out, nodes dens ddens pot dpot beta grid = some out := by
    unfold nodes
    simp only
    rw [if_neg (by omega), hR]
    simp only
    rw [if_neg (by simpa using hpow)]
    exact ⟨_, rfl⟩
  obtain ⟨out, hout⟩ := hsome
  obtain ⟨R', hR'm, -, hdR, hR', hP⟩ := C116_nodes dens ddens pot dpot beta grid hg hf out hout
  rw [hR, Option.some.injEq] at hR'
  subst hR'
  simp only at hP
  obtain ⟨P1, P2, P3⟩ := hP
  set P := pressure (integrand dens dpot beta) (tail dens ddens pot dpot beta R) R with hPdef
  have hR0 := hg R hR'm
  -- positive pressure
  have htail : 0 < tail dens ddens pot dpot beta R := by
    unfold tail
    simp only
    have a := hp R hR'm
    have b := hdp R hR0
    have c := rpow_pos_of_pos hR0 (2 * beta)
    have e : pot R * dens R * R ^ (2 * beta) * (dpot R * R / pot R) = dens R * R ^ (2 * beta) * (dpot R * R) := by
      have := a.ne
      field_simp
    rw [e]
    apply div_pos (by positivity)
    linarith
  have hPpos : ∀ r ∈ trimTail dens ddens grid, 0 < P r := by
    intro r hr
    have hrR : r ≤ R := by
      have hpw : (trimTail dens ddens grid).Pairwise (· < ·) := hinc.sublist hpre.sublist
      obtain ⟨ys, hys⟩ := List.getLast?_eq_some_iff.mp hR
      rw [hys] at hr hpw
      rw [List.pairwise_append] at hpw
      rcases List.mem_append.mp hr with h | h
      · exact (hpw.2.2 r h R (by simp)).le
      · simp at h; exact h.le
    have r0 := hg r (hsub r hr)
    have : 0 ≤ ∫ x in r..R, integrand dens dpot beta x := by
      apply intervalIntegral.integral_nonneg hrR
      intro x hx
      have x0 : 0 < x := lt_of_lt_of_le r0 hx.1
      unfold integrand
      exact mul_nonneg (mul_nonneg (rpow_nonneg x0.le _) (hd' x x0)) (hdp x x0).le
    rw [hPdef]; unfold pressure
    linarith
  have hkeep : ∀ r ∈ trimTail dens ddens grid, r ∈ out.map Prod.fst := fun r hr => (P1 r).2 ⟨hr, (hd r (hsub r hr)).ne', hPpos r hr⟩
  have hmem : ∀ p ∈ out, p.1 ∈ grid := fun p hp => hsub _ ((P1 p.1).1 (List.mem_map_of_mem hp)).1
  have hval : ∀ p ∈ out, ∃ s, p.2 = some s ∧ 0 < s ∧ s ^ 2 = min (P p.1 / (dens p.1 * p.1 ^ (2 * beta))) (-2 * pot p.1) :=
    fun p hpo => P3 p.1 p.2 hpo (hd _ (hmem p hpo)) (hp _ (hmem p hpo))
  obtain ⟨vals, hv1, hv2, hv3⟩ := mapM_some (out := out) (fun p hp => by obtain ⟨s, h, -⟩ := hval p hp; exact ⟨s, h⟩)
  have hlen : 3 ≤ out.length := by
    have hnd : (trimTail dens ddens grid).Nodup := (hinc.sublist hpre.sublist).imp (fun h => h.ne)
    have := (hnd.subperm hkeep).length_le
    rw [List.length_map] at this
    omega
  have hx : ∀ i (hi : i < out.length), (out.map Prod.fst).getD i 0 = (out[i]).1 := by
    intro i hi
    simp [List.getD, hi]
  have hGrid : Verif.BSpline.Grid (fun i => (out.map Prod.fst).getD i 0) out.length := by
    intro i j hij hj
    simp only
    rw [hx i (by omega), hx j hj]
    have hpw := hinc.sublist P2
    have := (List.pairwise_iff_getElem.mp hpw) i j (by simpa using (by omega : i < out.length)) (by simpa using hj) hij
    simpa using this
  have hv : ∀ i (hi : i < out.length), 0 < vals.getD i 0 ∧ (vals.getD i 0) ^ 2 =
      min (P (out[i]).1 / (dens (out[i]).1 * (out[i]).1 ^ (2 * beta))) (-2 * pot (out[i]).1) := by
    intro i hi
    obtain ⟨s, h1, h2, h3⟩ := hval out[i] (List.getElem_mem hi)
    rw [hv3 i hi, Option.some.injEq] at h1
    rw [h1]; exact ⟨h2, h3⟩
  obtain ⟨L, hL, F, hF, hPS, -⟩ := Verif.Spline.LogLog.C111_positive (fun i => (out.map Prod.fst).getD i 0) (fun i => vals.getD i 0)
    out.length hGrid (fun i hi => by rw [hx i hi]; exact hg _ (hmem _ (List.getElem_mem hi))) (fun i hi => (hv i hi).1)
    (by omega) none none
  refine ⟨L, ?_, F, fun t ht => ⟨hF t ht, hPS.pos t ht⟩, ?_⟩
  · unfold createJeansSphModel
    rw [hout]
    simp only [Option.bind_eq_bind, Option.bind_some]
    rw [hv1]
    exact hL
  · intro r hr
    obtain ⟨p, hpo, hpr⟩ := List.mem_map.mp (hkeep r hr)
    obtain ⟨i, hi, rfl⟩ := List.getElem_of_mem hpo
    have := hPS.nodes i hi
    rw [hx i hi, hpr] at this
    rw [this, (hv i hi).2, hpr]

/-- **C116** What fails: at a node with a negative density and a positive pressure the square root of the ratio is not a number,
which `fmin` ignores, so that the point is kept with the escape velocity as the velocity dispersion. -/
theorem C116_refuted_negative_density (dens pot : ℝ → ℝ) (beta r I : ℝ) (hr : 0 < r) (hd : dens r < 0) (hI : 0 < I)
    (hp : pot r < 0) :
    convert dens pot beta r I = some (r, some √(-2 * pot r)) ∧ I / (dens r * r ^ (2 * beta)) < 0 := by
  have h : I / (dens r * r ^ (2 * beta)) < 0 :=
    div_neg_of_pos_of_neg hI (mul_neg_of_neg_of_pos hd (rpow_pos_of_pos hr _))
  refine ⟨?_, h⟩
  unfold convert
  simp only
  rw [if_pos ⟨hd.ne, hI⟩, csqrt, if_pos h, csqrt, if_neg (by linarith)]
  rfl

/-! ## examples -/

/-- the hypotheses of `C116_tail` are met by a Kepler potential and the density r⁻⁴ -/
example : power (fun r => r ^ (-4 : ℝ)) (fun r => 1 * (-4 * r ^ ((-4 : ℝ) - 1))) (fun r => -1 * r ^ (-1 : ℝ))
    (fun r => -1 * (-1 * r ^ ((-1 : ℝ) - 1))) (1 / 2) 1 < -1 := by
  unfold power
  simp only [one_rpow]
  norm_num

/-- all hypotheses of `C116_model` are met by this model on the grid 1, 2, 3 -/
example : ∃ L, createJeansSphModel (fun r => r ^ (-4 : ℝ)) (fun r => 1 * (-4 * r ^ ((-4 : ℝ) - 1))) (fun r => -1 * r ^ (-1 : ℝ))
    (fun r => -1 * (-1 * r ^ ((-1 : ℝ) - 1))) (1 / 2) [1, 2, 3] = some L := by
  have ht : trimTail (fun r => r ^ (-4 : ℝ)) (fun r => 1 * (-4 * r ^ ((-4 : ℝ) - 1))) [1, 2, 3] = [1, 2, 3] := by
    unfold trimTail
    have : ¬ ((3 : ℝ) ^ (-4 : ℝ) ≤ 0 ∨ (1 : ℝ) * (-4 * 3 ^ ((-4 : ℝ) - 1)) = 0) := by
      have a : (0:ℝ) < 3 ^ (-4 : ℝ) := by positivity
      have b : (0:ℝ) < 3 ^ ((-4 : ℝ) - 1) := by positivity
      rw [not_or]
      exact ⟨not_le.mpr a, by nlinarith⟩
    rw [show ([1, 2, 3] : List ℝ).reverse = [3, 2, 1] from rfl, List.dropWhile_cons_of_neg (by simp only [decide_eq_true_eq]; exact this)]
    rfl
  have hg : ∀ r ∈ ([1, 2, 3] : List ℝ), 0 < r := by
    intro r hr
    simp only [List.mem_cons, List.not_mem_nil, or_false] at hr
    rcases hr with rfl | rfl | rfl <;> norm_num
  suffices hh : _ ∧ _ from (C116_model (fun r => r ^ (-4 : ℝ)) (fun r => 1 * (-4 * r ^ ((-4 : ℝ) - 1))) (fun r => -1 * r ^ (-1 : ℝ))
    (fun r => -1 * (-1 * r ^ ((-1 : ℝ) - 1))) (1 / 2) [1, 2, 3] hg (by simp; norm_num) hh.1 (fun r hr => rpow_pos_of_pos (hg r hr) _)
    (fun r hr => by have := rpow_pos_of_pos (hg r hr) (-1 : ℝ); show -1 * r ^ (-1 : ℝ) < 0; linarith)
    (fun r hr => by have := rpow_pos_of_pos hr ((-1 : ℝ) - 1); linarith)
    (fun r hr => (rpow_pos_of_pos hr _).le) 3 (by rw [ht]; rfl) (by rw [ht]; rfl) hh.2).imp (fun L h => h.1)
  constructor
  · intro a b ha hb
    apply ContinuousOn.intervalIntegrable
    intro x hx
    have hx0 : 0 < x := by
      rcases Set.mem_uIcc.mp hx with h | h
      · exact lt_of_lt_of_le ha h.1
      · exact lt_of_lt_of_le hb h.1
    unfold integrand
    have c := fun q : ℝ => continuousAt_rpow_const x q (Or.inl hx0.ne')
    exact (((c _).mul (c _)).mul ((continuousAt_const.mul (continuousAt_const.mul (c _))))).continuousWithinAt
  · unfold power
    simp only
    have e1 : (3:ℝ) ^ ((-1 : ℝ) - 1) = 3 ^ (-1 : ℝ) / 3 := rpow_sub_one (by norm_num) _
    have e2 : (3:ℝ) ^ ((-4 : ℝ) - 1) = 3 ^ (-4 : ℝ) / 3 := rpow_sub_one (by norm_num) _
    have p1 : (3:ℝ) ^ (-1 : ℝ) ≠ 0 := by positivity
    have p2 : (3:ℝ) ^ (-4 : ℝ) ≠ 0 := by positivity
    rw [e1, e2]
    have : 2 * (1 / 2) + -1 * (-1 * ((3:ℝ) ^ (-1 : ℝ) / 3)) * 3 / (-1 * 3 ^ (-1 : ℝ)) - 1 + 1 * (-4 * ((3:ℝ) ^ (-4 : ℝ) / 3)) * 3 / 3 ^ (-4 : ℝ) = -5 := by
      field_simp
      norm_num
    rw [this]; norm_num

example : (0 : ℝ) < 1 ∧ (fun _ : ℝ => (-1 : ℝ)) 1 < 0 := by norm_num

end Verif.Gal.Jeans
