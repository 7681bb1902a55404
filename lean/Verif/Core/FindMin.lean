import Mathlib.Data.Real.Basic
import Mathlib.Analysis.Real.Sqrt
import Mathlib.Tactic

/-! Model of `findMin` (/repo/src/math_core.cpp:990-1065) and of PointNeighborhood::dxToPosneg, dxToNearestRoot,
dxBetweenRoots (/repo/src/math_core.cpp:526-574), exact real arithmetic, C46 and C47. -/
namespace Verif.FindMin

/-- math_core.cpp:991-999: `minGuess`. -/
noncomputable def minGuess (x1 x2 y1 y2 : ℝ) : ℝ :=
  let golden : ℝ := 618034 / 1000000
  if y1 < y2 then x1 * golden + x2 * (1 - golden) else x2 * golden + x1 * (1 - golden)

/-- Variables of the bracketing stage. -/
structure Br where
  (xl yl xu yu xi yi : ℝ)

/-- math_core.cpp:1024-1036: shrink the interval until the guess is below both ends; `none` = a value that is not finite.
The fuel is MAXITER = 64 minus the number of iterations. -/
noncomputable def bracket (F : ℝ → Option ℝ) (abstoler : ℝ) : Nat → Br → Option Br
  | 0, s => some s
  | fuel+1, s =>
    if (s.yi ≥ s.yl ∨ s.yi ≥ s.yu) ∧ |s.xl - s.xu| > abstoler then
      let xl := if s.yl < s.yu then s.xl else s.xi
      let yl := if s.yl < s.yu then s.yl else s.yi
      let xu := if s.yl < s.yu then s.xi else s.xu
      let yu := if s.yl < s.yu then s.yi else s.yu
      let xi := minGuess xl xu yl yu
      match F xi with
      | none => none
      | some yi => bracket F abstoler fuel ⟨xl, yl, xu, yu, xi, yi⟩
    else some s

/-- The external (GSL) minimizer: an arbitrary iterative procedure. -/
structure Minimizer (σ : Type) where
  init : Br → σ
  step : σ → Option σ
  (x lo hi : σ → ℝ)

/-- math_core.cpp:1050-1060: the loop over the external minimizer; `xroot` is `none` (NaN) before the first iteration. -/
noncomputable def minimize {σ : Type} (m : Minimizer σ) (abstoler : ℝ) : Nat → σ → ℝ → ℝ → Option ℝ → Option ℝ
  | 0, _, _, _, xroot => xroot
  | fuel+1, s, xl, xu, xroot =>
    if |xl - xu| > abstoler then
      match m.step s with
      | none => none
      | some s' => minimize m abstoler fuel s' (m.lo s') (m.hi s') (some (m.x s'))
    else xroot

/-- Result of `findMin`. -/
inductive Res where
  | threw
  | nan
  | pt (x : ℝ)

/-- math_core.cpp:1004-1064: `findMin`; `xinit = none` stands for NaN (no initial guess). -/
noncomputable def findMin {σ : Type} (m : Minimizer σ) (F : ℝ → Option ℝ) (x1 x2 : ℝ) (xinit : Option ℝ) (reltoler : ℝ) : Res :=
  if reltoler ≤ 0 then .threw else
  let xl := if x1 > x2 then x2 else x1
  let xu := if x1 > x2 then x1 else x2
  match F xl, F xu with
  | some yl, some yu =>
    let go (xi : ℝ) : Res :=
      match F xi with
      | none => .nan
      | some yi =>
        let abstoler := reltoler * |xu - xl|
        match bracket F abstoler 64 ⟨xl, yl, xu, yu, xi, yi⟩ with
        | none => .nan
        | some s =>
          if s.yi ≥ s.yl ∨ s.yi ≥ s.yu then .pt (if s.yl < s.yu then s.xl else s.xu)
          else match minimize m abstoler 64 (m.init s) s.xl s.xu none with
            | some x => .pt x
            | none => .nan
    match xinit with
    | some xi => if ¬(xi ≥ xl ∧ xi ≤ xu) then .threw else go xi
    | none => go (minGuess xl xu yl yu)
  | _, _ => .nan

/-- What is assumed of the external minimizer started from a bracketing triple: each of its iterates is a point of the
interval at which the function is not larger than at the starting point. -/
inductive Reach {σ : Type} (m : Minimizer σ) (s0 : σ) : σ → Prop
  | refl : Reach m s0 s0
  | step {s s'} : Reach m s0 s → m.step s = some s' → Reach m s0 s'

def Contract {σ : Type} (m : Minimizer σ) (F : ℝ → Option ℝ) : Prop :=
  ∀ b : Br, F b.xi = some b.yi → b.xl ≤ b.xi → b.xi ≤ b.xu → b.yi < b.yl → b.yi < b.yu →
    ∀ s s', Reach m (m.init b) s → m.step s = some s' →
      b.xl ≤ m.x s' ∧ m.x s' ≤ b.xu ∧ ∃ y, F (m.x s') = some y ∧ y ≤ b.yi

/-- Invariant of the bracketing stage. -/
structure Inv (F : ℝ → Option ℝ) (lo hi bound : ℝ) (s : Br) : Prop where
  h1 : lo ≤ s.xl
  h2 : s.xl ≤ s.xi
  h3 : s.xi ≤ s.xu
  h4 : s.xu ≤ hi
  fl : F s.xl = some s.yl
  fu : F s.xu = some s.yu
  fi : F s.xi = some s.yi
  bd : s.yl ≤ bound ∨ s.yu ≤ bound ∨ s.yi ≤ bound

theorem minGuess_mem (x1 x2 y1 y2 : ℝ) (h : x1 ≤ x2) : x1 ≤ minGuess x1 x2 y1 y2 ∧ minGuess x1 x2 y1 y2 ≤ x2 := by
  unfold minGuess
  simp only
  split <;> constructor <;> nlinarith

theorem bracket_inv (F : ℝ → Option ℝ) (abstoler lo hi bound : ℝ) : ∀ (fuel : Nat) (s s' : Br),
    Inv F lo hi bound s → bracket F abstoler fuel s = some s' → Inv F lo hi bound s' := by
  intro fuel
  induction fuel with
  | zero => intro s s' h e; rw [bracket] at e; injection e with e; rw [← e]; exact h
  | succ n ih =>
    intro s s' h e
    rw [bracket] at e
    by_cases hc : (s.yi ≥ s.yl ∨ s.yi ≥ s.yu) ∧ |s.xl - s.xu| > abstoler
    · rw [if_pos hc] at e
      simp only at e
      by_cases hlt : s.yl < s.yu
      · simp only [if_pos hlt] at e
        have hg := minGuess_mem s.xl s.xi s.yl s.yi h.h2
        generalize minGuess s.xl s.xi s.yl s.yi = g at *
        cases hF : F g with
        | none => rw [hF] at e; cases e
        | some y =>
          rw [hF] at e
          refine ih ⟨s.xl, s.yl, s.xi, s.yi, g, y⟩ s' ⟨h.h1, hg.1, hg.2, h.h3.trans h.h4, h.fl, h.fi, hF, ?_⟩ e
          simp only
          have : s.yl ≤ s.yi := by rcases hc.1 with k | k <;> linarith
          rcases h.bd with k | k | k
          · left; exact k
          · left; linarith
          · left; linarith
      · simp only [if_neg hlt] at e
        have hg := minGuess_mem s.xi s.xu s.yi s.yu h.h3
        generalize minGuess s.xi s.xu s.yi s.yu = g at *
        cases hF : F g with
        | none => rw [hF] at e; cases e
        | some y =>
          rw [hF] at e
          refine ih ⟨s.xi, s.yi, s.xu, s.yu, g, y⟩ s' ⟨h.h1.trans h.h2, hg.1, hg.2, h.h4, h.fi, h.fu, hF, ?_⟩ e
          simp only
          push Not at hlt
          have : s.yu ≤ s.yi := by rcases hc.1 with k | k <;> linarith
          rcases h.bd with k | k | k
          · right; left; linarith
          · right; left; exact k
          · right; left; linarith
    · rw [if_neg hc] at e
      injection e with e
      rw [← e]; exact h

theorem minimize_mem {σ : Type} (m : Minimizer σ) (abstoler : ℝ) (s0 : σ) (P : ℝ → Prop)
    (hP : ∀ s s', Reach m s0 s → m.step s = some s' → P (m.x s')) : ∀ (fuel : Nat) (s : σ) (xl xu : ℝ) (r : Option ℝ) (x : ℝ),
    Reach m s0 s → (∀ y, r = some y → P y) → minimize m abstoler fuel s xl xu r = some x → P x := by
  intro fuel
  induction fuel with
  | zero => intro s xl xu r x _ hr e; rw [minimize] at e; exact hr x e
  | succ n ih =>
    intro s xl xu r x hs hr e
    rw [minimize] at e
    by_cases hc : |xl - xu| > abstoler
    · rw [if_pos hc] at e
      cases hst : m.step s with
      | none => rw [hst] at e; cases e
      | some s' =>
        rw [hst] at e
        refine ih s' _ _ _ x (Reach.step hs hst) ?_ e
        intro y hy
        injection hy with hy
        rw [← hy]; exact hP s s' hs hst
    · rw [if_neg hc] at e
      exact hr x e

/-- C46 (partial: NaN is not excluded, see `C46_refuted_nan`). Whatever the function, if `findMin` returns a point, this
point lies in the interval and the function there does not exceed its values at both ends and at the initial guess. -/
theorem C46_findMin_partial {σ : Type} (m : Minimizer σ) (F : ℝ → Option ℝ) (hm : Contract m F) (x1 x2 : ℝ)
    (xinit : Option ℝ) (rt x : ℝ) (h : findMin m F x1 x2 xinit rt = .pt x) :
    min x1 x2 ≤ x ∧ x ≤ max x1 x2 ∧ ∃ y y1 y2, F x = some y ∧ F x1 = some y1 ∧ F x2 = some y2 ∧ y ≤ y1 ∧ y ≤ y2 ∧
      ∀ xi, xinit = some xi → ∃ yi, F xi = some yi ∧ y ≤ yi := by
  unfold findMin at h
  by_cases hrt : rt ≤ 0
  · rw [if_pos hrt] at h; cases h
  rw [if_neg hrt] at h
  simp only at h
  have hxl : (if x1 > x2 then x2 else x1) = min x1 x2 := by
    by_cases k : x1 > x2
    · rw [if_pos k, min_eq_right k.le]
    · rw [if_neg k, min_eq_left (not_lt.1 k)]
  have hxu : (if x1 > x2 then x1 else x2) = max x1 x2 := by
    by_cases k : x1 > x2
    · rw [if_pos k, max_eq_left k.le]
    · rw [if_neg k, max_eq_right (not_lt.1 k)]
  rw [hxl, hxu] at h
  have hle : min x1 x2 ≤ max x1 x2 := min_le_max
  have hends : ∀ yl yu y, F (min x1 x2) = some yl → F (max x1 x2) = some yu → y ≤ yl → y ≤ yu →
      ∃ y1 y2, F x1 = some y1 ∧ F x2 = some y2 ∧ y ≤ y1 ∧ y ≤ y2 := by
    intro yl yu y hl hu h1 h2
    rcases le_total x1 x2 with k | k
    · rw [min_eq_left k] at hl; rw [max_eq_right k] at hu
      exact ⟨yl, yu, hl, hu, h1, h2⟩
    · rw [min_eq_right k] at hl; rw [max_eq_left k] at hu
      exact ⟨yu, yl, hu, hl, h2, h1⟩
  generalize min x1 x2 = lo at *
  generalize max x1 x2 = hi at *
  cases hl : F lo with
  | none => rw [hl] at h; cases h
  | some yl =>
    cases hu : F hi with
    | none => rw [hl, hu] at h; cases h
    | some yu =>
      rw [hl, hu] at h
      simp only at h
      -- the common part
      have core : ∀ xi, lo ≤ xi → xi ≤ hi →
          (match F xi with
            | none => Res.nan
            | some yi =>
              match bracket F (rt * |hi - lo|) 64 ⟨lo, yl, hi, yu, xi, yi⟩ with
              | none => .nan
              | some s =>
                if s.yi ≥ s.yl ∨ s.yi ≥ s.yu then .pt (if s.yl < s.yu then s.xl else s.xu)
                else match minimize m (rt * |hi - lo|) 64 (m.init s) s.xl s.xu none with
                  | some x => .pt x
                  | none => .nan) = Res.pt x →
          ∃ yi y, F xi = some yi ∧ lo ≤ x ∧ x ≤ hi ∧ F x = some y ∧ y ≤ yl ∧ y ≤ yu ∧ y ≤ yi := by
        intro xi h1 h2 e
        cases hi' : F xi with
        | none => rw [hi'] at e; cases e
        | some yi =>
          rw [hi'] at e
          simp only at e
          cases hb : bracket F (rt * |hi - lo|) 64 ⟨lo, yl, hi, yu, xi, yi⟩ with
          | none => rw [hb] at e; cases e
          | some s =>
            rw [hb] at e
            simp only at e
            have inv : ∀ b, (yl ≤ b ∨ yu ≤ b ∨ yi ≤ b) → Inv F lo hi b s := fun b hb' =>
              bracket_inv F _ lo hi b 64 _ s ⟨le_refl _, h1, h2, le_refl _, hl, hu, hi', hb'⟩ hb
            have i1 := inv yl (Or.inl (le_refl _))
            have i2 := inv yu (Or.inr (Or.inl (le_refl _)))
            have i3 := inv yi (Or.inr (Or.inr (le_refl _)))
            by_cases hc : s.yi ≥ s.yl ∨ s.yi ≥ s.yu
            · rw [if_pos hc] at e
              injection e with e
              by_cases hlt : s.yl < s.yu
              · rw [if_pos hlt] at e
                have hyi : s.yl ≤ s.yi := by rcases hc with k | k <;> linarith
                refine ⟨yi, s.yl, rfl, by rw [← e]; exact i1.h1, ?_, by rw [← e]; exact i1.fl, ?_, ?_, ?_⟩
                · rw [← e]; linarith [i1.h2, i1.h3, i1.h4]
                · rcases i1.bd with k | k | k <;> linarith
                · rcases i2.bd with k | k | k <;> linarith
                · rcases i3.bd with k | k | k <;> linarith
              · rw [if_neg hlt] at e
                push Not at hlt
                have hyi : s.yu ≤ s.yi := by rcases hc with k | k <;> linarith
                refine ⟨yi, s.yu, rfl, ?_, by rw [← e]; exact i1.h4, by rw [← e]; exact i1.fu, ?_, ?_, ?_⟩
                · rw [← e]; linarith [i1.h1, i1.h2, i1.h3]
                · rcases i1.bd with k | k | k <;> linarith
                · rcases i2.bd with k | k | k <;> linarith
                · rcases i3.bd with k | k | k <;> linarith
            · rw [if_neg hc] at e
              rw [not_or] at hc
              obtain ⟨c1, c2⟩ := hc
              push Not at c1 c2
              cases hmin : minimize m (rt * |hi - lo|) 64 (m.init s) s.xl s.xu none with
              | none => rw [hmin] at e; cases e
              | some x' =>
                rw [hmin] at e
                injection e with e
                have := minimize_mem m (rt * |hi - lo|) (m.init s) (fun x => s.xl ≤ x ∧ x ≤ s.xu ∧ ∃ y, F x = some y ∧ y ≤ s.yi)
                  (fun a a' ha ha' => hm s i1.fi i1.h2 i1.h3 c1 c2 a a' ha ha')
                  64 (m.init s) s.xl s.xu none x' Reach.refl (fun y hy => by cases hy) hmin
                obtain ⟨p1, p2, y, p3, p4⟩ := this
                rw [e] at p1 p2 p3
                refine ⟨yi, y, rfl, by linarith [i1.h1], by linarith [i1.h4], p3, ?_, ?_, ?_⟩
                · rcases i1.bd with k | k | k <;> linarith
                · rcases i2.bd with k | k | k <;> linarith
                · rcases i3.bd with k | k | k <;> linarith
      cases xinit with
      | none =>
        simp only at h
        have hg := minGuess_mem lo hi yl yu hle
        obtain ⟨yi, y, _, q1, q2, q3, q4, q5, _⟩ := core _ hg.1 hg.2 h
        obtain ⟨y1, y2, r1, r2, r3, r4⟩ := hends yl yu y hl hu q4 q5
        exact ⟨q1, q2, y, y1, y2, q3, r1, r2, r3, r4, fun _ h => by cases h⟩
      | some xi =>
        simp only at h
        by_cases hin : ¬(xi ≥ lo ∧ xi ≤ hi)
        · rw [if_pos hin] at h; cases h
        · rw [if_neg hin] at h
          push Not at hin
          obtain ⟨yi, y, q0, q1, q2, q3, q4, q5, q6⟩ := core _ hin.1 hin.2 h
          obtain ⟨y1, y2, r1, r2, r3, r4⟩ := hends yl yu y hl hu q4 q5
          exact ⟨q1, q2, y, y1, y2, q3, r1, r2, r3, r4, fun xi' h => by injection h with h; rw [← h]; exact ⟨yi, q0, q6⟩⟩

/-- Non-vacuity: the minimizer that keeps the starting point fulfils the contract, and `findMin` returns a point. -/
example (F : ℝ → Option ℝ) : Contract (σ := Br) ⟨id, some, Br.xi, Br.xl, Br.xu⟩ F := by
  intro b hb h1 h2 _ _ s s' hr hs
  have : s = b := by
    clear hs
    induction hr with
    | refl => rfl
    | step h hs' ih => simp only [Option.some.injEq] at hs'; rw [← hs']; exact ih
  simp only [Option.some.injEq] at hs
  subst hs; subst this
  exact ⟨h1, h2, _, hb, le_refl _⟩

example {σ : Type} (m : Minimizer σ) : findMin m (fun x => some x) 0 1 (some (1/2)) 1 = .pt 0 := by
  unfold findMin
  rw [if_neg (by norm_num)]
  simp only
  rw [if_neg (by norm_num), if_neg (by norm_num), if_neg (by norm_num)]
  rw [bracket, if_neg (by norm_num)]
  simp only
  rw [if_pos (by norm_num), if_pos (by norm_num)]

/-- The documented result ("the point where F attains a local minimum, or one of the endpoints; NaN if the function
produces a non-finite value") is false of the code: for a function finite everywhere NaN is returned if the
bracketing stage ends with an interval already shorter than the tolerance, whatever the external minimizer. -/
theorem C46_refuted_nan {σ : Type} (m : Minimizer σ) :
    findMin m (fun x => some |x - 1/10|) 0 1 none (2/5) = .nan := by
  unfold findMin
  rw [if_neg (by norm_num)]
  simp only
  rw [if_neg (by norm_num), if_neg (by norm_num)]
  have a0 : |(0:ℝ) - 1/10| = 1/10 := by rw [abs_of_neg (by norm_num)]; norm_num
  have a1 : |(1:ℝ) - 1/10| = 9/10 := by rw [abs_of_pos (by norm_num)]; norm_num
  have g1 : minGuess 0 1 (1/10) (9/10) = 190983/500000 := by unfold minGuess; norm_num
  have a2 : |(190983/500000:ℝ) - 1/10| = 140983/500000 := by rw [abs_of_pos (by norm_num)]; norm_num
  have g2 : minGuess 0 (190983/500000) (1/10) (140983/500000) = 190983/500000 * (190983/500000) := by unfold minGuess; norm_num
  have a3 : |(190983/500000 * (190983/500000):ℝ) - 1/10| = 190983/500000 * (190983/500000) - 1/10 := abs_of_pos (by norm_num)
  have hb : bracket (fun x => some |x - 1/10|) (2/5 * |(1:ℝ) - 0|) 64 ⟨0, 1/10, 1, 9/10, 190983/500000, 140983/500000⟩ =
      some ⟨0, 1/10, 190983/500000, 140983/500000, 190983/500000 * (190983/500000), 190983/500000 * (190983/500000) - 1/10⟩ := by
    rw [bracket, if_pos (by norm_num)]
    simp only
    simp only [show ((1:ℝ)/10 < 9/10) by norm_num, if_true, g2, a3]
    rw [bracket, if_neg (by norm_num)]
  simp only [a0, a1, g1, a2, hb]
  rw [if_neg (by norm_num), minimize, if_neg (by norm_num [abs_of_neg])]

/-! ## PointNeighborhood -/

/-- math_core.h:441-442: the stored values; `absx0` = |x0|. -/
structure Nb where
  (absx0 f0 fder fder2 : ℝ)

/-- math_core.cpp:533-534: `delta`. A division by zero gives infinity (which never is the smaller of the two)
or NaN (ignored by fmin); `eps` is DBL_EPSILON. -/
noncomputable def Nb.delta (eps : ℝ) (p : Nb) : ℝ :=
  if p.fder = 0 then 0
  else if p.fder2 = 0 then max (1000 * eps * p.absx0) |p.f0| / |p.fder|
  else min (|p.fder / p.fder2| * (1/2)) (max (1000 * eps * p.absx0) |p.f0| / |p.fder|)

noncomputable def sgn (x : ℝ) : ℝ := if x > 0 then 1 else if x < 0 then -1 else 0

/-- math_core.cpp:526-551: `dxToPosneg(sg)`, sg = ±1; `none` = NaN. -/
noncomputable def Nb.dxToPosneg (eps : ℝ) (p : Nb) (sg : ℝ) : Option ℝ :=
  let s0 := sg * p.f0 * (11/10)
  let sder := sg * p.fder
  let sder2 := sg * p.fder2
  let delta := p.delta eps
  if s0 > 0 then some 0
  else if sder = 0 then
    if sder2 ≤ 0 then none else some (max (Real.sqrt (-s0 / sder2)) delta)
  else if sder2 ≥ 0 then some (-s0 / sder + delta * sgn sder)
  else
    let discr := sder * sder - 2 * s0 * sder2
    if discr ≤ 0 then none
    else some (sgn sder * (delta - 2 * s0 / (Real.sqrt discr + |sder|)))

/-- The quadratic model of the function around the point. -/
noncomputable def Nb.quad (p : Nb) (h : ℝ) : ℝ := p.f0 + p.fder * h + p.fder2 * h ^ 2 / 2

/-- C47 (partial: nonzero slope, curving towards the requested sign, and not both x0=0 and f(x0)=0). The quadratic
extrapolation of the function at the returned offset has strictly the requested sign. -/
theorem C47_posneg_partial (eps : ℝ) (he : 0 < eps) (p : Nb) (hx : 0 ≤ p.absx0) (sg : ℝ) (hsg : sg = 1 ∨ sg = -1)
    (hd : p.fder ≠ 0) (hd2 : 0 ≤ sg * p.fder2) (hne : p.absx0 ≠ 0 ∨ p.f0 ≠ 0) :
    ∃ dx, p.dxToPosneg eps sg = some dx ∧ 0 < sg * p.quad dx := by
  unfold Nb.dxToPosneg
  simp only
  have hs2 : sg * sg = 1 := by rcases hsg with h | h <;> rw [h] <;> norm_num
  have hsd : sg * p.fder ≠ 0 := by rcases hsg with h | h <;> rw [h] <;> simpa using hd
  by_cases h0 : sg * p.f0 * (11/10) > 0
  · rw [if_pos h0]
    refine ⟨0, rfl, ?_⟩
    simp only [Nb.quad]
    nlinarith
  · rw [if_neg h0, if_neg hsd, if_pos hd2]
    refine ⟨_, rfl, ?_⟩
    have hdel : 0 < p.delta eps := by
      unfold Nb.delta
      rw [if_neg hd]
      have hm : 0 < max (1000 * eps * p.absx0) |p.f0| := by
        rcases hne with h | h
        · have : 0 < p.absx0 := lt_of_le_of_ne hx (Ne.symm h)
          exact lt_max_of_lt_left (by positivity)
        · exact lt_max_of_lt_right (abs_pos.2 h)
      have hfd : 0 < |p.fder| := abs_pos.2 hd
      by_cases h2 : p.fder2 = 0
      · rw [if_pos h2]; positivity
      · rw [if_neg h2]
        apply lt_min
        · have := div_ne_zero hd h2
          positivity
        · positivity
    set d := p.delta eps
    have hval : sg * p.fder * sgn (sg * p.fder) = |sg * p.fder| := by
      unfold sgn
      rcases lt_or_gt_of_ne hsd with h | h
      · rw [if_neg (by linarith), if_pos h, abs_of_neg h]; ring
      · rw [if_pos h, abs_of_pos h]; ring
    set dx := -(sg * p.f0 * (11/10)) / (sg * p.fder) + d * sgn (sg * p.fder) with hdx
    have hmain : sg * p.fder * dx = -(sg * p.f0 * (11/10)) + d * |sg * p.fder| := by
      rw [hdx, mul_add, mul_div_assoc', mul_div_cancel_left₀ _ hsd, ← hval]; ring
    have hq : sg * p.quad dx = sg * p.f0 + sg * p.fder * dx + sg * p.fder2 * dx ^ 2 / 2 := by
      simp only [Nb.quad]; ring
    rw [hq, hmain]
    have : 0 < d * |sg * p.fder| := mul_pos hdel (abs_pos.2 hsd)
    have : 0 ≤ sg * p.fder2 * dx ^ 2 / 2 := by positivity
    push Not at h0
    nlinarith

/-- C47 (partial: nonzero slope, curving away from the requested sign, and the value safely reachable: the discriminant
computed by the code is at least 1/16 of its maximum). The quadratic extrapolation has strictly the requested sign. -/
theorem C47_posneg_concave_partial (eps : ℝ) (he : 0 < eps) (p : Nb) (hx : 0 ≤ p.absx0) (sg : ℝ) (hsg : sg = 1 ∨ sg = -1)
    (hd : p.fder ≠ 0) (hd2 : sg * p.fder2 < 0) (hne : p.absx0 ≠ 0 ∨ p.f0 ≠ 0)
    (hdisc : 22/10 * |p.f0| * |p.fder2| ≤ 15/16 * p.fder ^ 2) :
    ∃ dx, p.dxToPosneg eps sg = some dx ∧ 0 < sg * p.quad dx := by
  unfold Nb.dxToPosneg
  simp only
  have hs2 : sg * sg = 1 := by rcases hsg with h | h <;> rw [h] <;> norm_num
  have hsd : sg * p.fder ≠ 0 := by rcases hsg with h | h <;> rw [h] <;> simpa using hd
  by_cases h0 : sg * p.f0 * (11/10) > 0
  · rw [if_pos h0]
    refine ⟨0, rfl, ?_⟩
    simp only [Nb.quad]
    nlinarith
  · rw [if_neg h0, if_neg hsd, if_neg (by linarith)]
    have hf2 : p.fder2 ≠ 0 := by rintro h; rw [h] at hd2; simp at hd2
    have hdel : 0 < p.delta eps ∧ p.delta eps ≤ |p.fder / p.fder2| * (1/2) := by
      unfold Nb.delta
      rw [if_neg hd, if_neg hf2]
      have hm : 0 < max (1000 * eps * p.absx0) |p.f0| := by
        rcases hne with h | h
        · have : 0 < p.absx0 := lt_of_le_of_ne hx (Ne.symm h)
          exact lt_max_of_lt_left (by positivity)
        · exact lt_max_of_lt_right (abs_pos.2 h)
      refine ⟨lt_min ?_ ?_, min_le_left _ _⟩
      · have := div_ne_zero hd hf2
        positivity
      · have : 0 < |p.fder| := abs_pos.2 hd
        positivity
    obtain ⟨hd0, hd1⟩ := hdel
    set d := p.delta eps
    -- reduce to positive quantities: F = -sg f0 ≥ 0, D = |fder| > 0, C = -sg fder2 > 0
    obtain ⟨C, hC⟩ : ∃ C, C = -(sg * p.fder2) := ⟨_, rfl⟩
    obtain ⟨F, hF⟩ : ∃ F, F = -(sg * p.f0) := ⟨_, rfl⟩
    have hCpos : 0 < C := by linarith
    have hFpos : 0 ≤ F := by push Not at h0; linarith
    have habs : |sg| = 1 := by rcases hsg with h | h <;> rw [h] <;> norm_num
    have hD' : |sg * p.fder| = |p.fder| := by rw [abs_mul, habs, one_mul]
    have hCa : |p.fder2| = C := by
      have : |sg * p.fder2| = |p.fder2| := by rw [abs_mul, habs, one_mul]
      rw [← this, abs_of_neg hd2, hC]
    have hFa : |p.f0| = F := by
      have : |sg * p.f0| = |p.f0| := by rw [abs_mul, habs, one_mul]
      rw [← this, abs_of_nonpos (by linarith), hF]
    obtain ⟨D, hD⟩ : ∃ D, D = |p.fder| := ⟨_, rfl⟩
    have hDpos : 0 < D := by rw [hD]; exact abs_pos.2 hd
    have hDsq : p.fder ^ 2 = D ^ 2 := by rw [hD, sq_abs]
    rw [hFa, hCa, hDsq] at hdisc
    rw [abs_div, ← hD, hCa] at hd1
    have e1 : sg * p.fder * (sg * p.fder) - 2 * (sg * p.f0 * (11/10)) * (sg * p.fder2) = D ^ 2 - 22/10 * F * C := by
      rw [hF, hC, ← hDsq]; linear_combination p.fder ^ 2 * hs2
    rw [e1]
    have hdpos : 1/16 * D ^ 2 ≤ D ^ 2 - 22/10 * F * C := by linarith
    rw [if_neg (by nlinarith)]
    refine ⟨_, rfl, ?_⟩
    have hw := Real.sqrt_le_sqrt hdpos
    have hw2 := Real.sq_sqrt (show 0 ≤ D ^ 2 - 22/10 * F * C by nlinarith)
    rw [show 1/16 * D ^ 2 = (D / 4) ^ 2 by ring, Real.sqrt_sq (by linarith)] at hw
    set w := Real.sqrt (D ^ 2 - 22/10 * F * C)
    rw [hD', ← hD]
    have hsgn : sgn (sg * p.fder) * (sg * p.fder) = D := by
      unfold sgn
      rw [hD, ← hD']
      rcases lt_or_gt_of_ne hsd with h | h
      · rw [if_neg (by linarith), if_pos h, abs_of_neg h]; ring
      · rw [if_pos h, abs_of_pos h]; ring
    have hsgn2 : sgn (sg * p.fder) * sgn (sg * p.fder) = 1 := by
      unfold sgn
      rcases lt_or_gt_of_ne hsd with h | h
      · rw [if_neg (by linarith), if_pos h]; ring
      · rw [if_pos h]; ring
    set σ := sgn (sg * p.fder)
    -- offset = σ (d + h), h the positive root of the code's quadratic
    obtain ⟨h, hh⟩ : ∃ h, h = 22/10 * F / (w + D) := ⟨_, rfl⟩
    have hwD : 0 < w + D := by linarith
    have hhm : h * (w + D) = 22/10 * F := by rw [hh]; field_simp
    have hCh : C * h = D - w := by
      apply mul_right_cancel₀ hwD.ne'
      linear_combination C * hhm + hw2
    have hroot : D * h - C * h ^ 2 / 2 = 11/10 * F := by linear_combination hhm / 2 - h / 2 * hCh
    have hoff : d - 2 * (sg * p.f0 * (11/10)) / (w + D) = d + h := by rw [hh, hF]; ring
    rw [hoff]
    have hq : sg * p.quad (σ * (d + h)) = -F + D * (d + h) - C * (d + h) ^ 2 / 2 := by
      simp only [Nb.quad]
      rw [hF, hC]
      linear_combination (d + h) * hsgn + sg * p.fder2 * (d + h) ^ 2 / 2 * hsgn2
    rw [hq]
    have hval : -F + D * (d + h) - C * (d + h) ^ 2 / 2 = F / 10 + d * (w - C * d / 2) := by
      linear_combination hroot - d * hCh
    rw [hval]
    have hCd : C * d ≤ D / 2 := by
      calc C * d ≤ C * (D / C * (1/2)) := mul_le_mul_of_nonneg_left hd1 hCpos.le
        _ = D / 2 := by field_simp
    by_cases hF0 : F = 0
    · -- then w = D
      have : w = D := by
        have : w ^ 2 = D ^ 2 := by rw [hw2, hF0]; ring
        exact (sq_eq_sq₀ (by linarith) hDpos.le).1 this
      rw [hF0, this]
      have : 0 < d * (D - C * d / 2) := mul_pos hd0 (by linarith)
      linarith
    · have hFp : 0 < F := lt_of_le_of_ne hFpos (Ne.symm hF0)
      have : 0 ≤ d * (w - C * d / 2) := mul_nonneg hd0.le (by linarith)
      linarith

/-- The hypotheses of the concave case are met by f(x) = x - x²/2 - 1/10 around x=0, requested sign +1. -/
example : (0:ℝ) ≤ 0 ∧ ((1:ℝ) = 1 ∨ (1:ℝ) = -1) ∧ (1:ℝ) ≠ 0 ∧ (1:ℝ) * (-1) < 0 ∧ ((0:ℝ) ≠ 0 ∨ (-1/10 : ℝ) ≠ 0) ∧
    22/10 * |(-1/10 : ℝ)| * |(-1:ℝ)| ≤ 15/16 * (1:ℝ) ^ 2 := by norm_num [abs_of_neg]

/-- The claim is false near the maximum of a concave function: for f(x) = x - x²/2 - 12/25 the code reports that positive
values are unreachable although f(1) > 0. -/
theorem C47_refuted_concave (eps : ℝ) :
    Nb.dxToPosneg eps ⟨0, -12/25, 1, -1⟩ 1 = none ∧ 0 < Nb.quad ⟨0, -12/25, 1, -1⟩ 1 := by
  constructor
  · simp only [Nb.dxToPosneg]
    rw [if_neg (by norm_num), if_neg (by norm_num), if_neg (by norm_num), if_pos (by norm_num)]
  · simp only [Nb.quad]; norm_num

/-- The claim is false at x0 = 0 with f(x0) = 0: for f(x) = x the offset "to the positive values" is zero. -/
theorem C47_refuted_origin (eps : ℝ) :
    Nb.dxToPosneg eps ⟨0, 0, 1, 0⟩ 1 = some 0 ∧ ¬ 0 < (1:ℝ) * Nb.quad ⟨0, 0, 1, 0⟩ 0 := by
  constructor
  · simp [Nb.dxToPosneg, Nb.delta]
  · simp [Nb.quad]

/-- The claim is false at a minimum: for f(x) = x²-1 at x=0 the offset is sqrt(0.55), where f is still negative. -/
theorem C47_refuted_minimum (eps : ℝ) :
    ∃ dx, Nb.dxToPosneg eps ⟨0, -1, 0, 2⟩ 1 = some dx ∧ Nb.quad ⟨0, -1, 0, 2⟩ dx < 0 := by
  refine ⟨Real.sqrt (11/20), ?_, ?_⟩
  · simp only [Nb.dxToPosneg, Nb.delta]
    rw [if_neg (by norm_num), if_pos (by norm_num), if_neg (by norm_num), if_pos trivial, max_eq_left (Real.sqrt_nonneg _)]
    norm_num
  · simp only [Nb.quad]
    rw [Real.sq_sqrt (by norm_num)]; norm_num

/-- math_core.cpp:553-568: `dxToNearestRoot` (the linear estimate needs fder ≠ 0). -/
noncomputable def Nb.dxToNearestRoot (p : Nb) : ℝ :=
  if p.f0 = 0 then 0
  else if p.f0 * p.fder2 < 0 then
    let discr := Real.sqrt (p.fder * p.fder - 2 * p.f0 * p.fder2)
    if p.fder < 0 then 2 * p.f0 / (discr - p.fder) else 2 * p.f0 / (-discr - p.fder)
  else -p.f0 / p.fder

/-- C47. `dxToNearestRoot` is a root of the quadratic extrapolation, and the one closest to the point, whenever the
curvature and the value have opposite signs; it is the root of the linear function if there is no curvature. -/
theorem C47_nearest_root (p : Nb) :
    (p.f0 * p.fder2 < 0 → p.quad p.dxToNearestRoot = 0 ∧ ∀ h, p.quad h = 0 → |p.dxToNearestRoot| ≤ |h|) ∧
    (p.fder2 = 0 → p.fder ≠ 0 → p.quad p.dxToNearestRoot = 0) := by
  constructor
  · intro hneg
    have hf0 : p.f0 ≠ 0 := by rintro h; rw [h] at hneg; simp at hneg
    have hf2 : p.fder2 ≠ 0 := by rintro h; rw [h] at hneg; simp at hneg
    have hD : 0 ≤ p.fder * p.fder - 2 * p.f0 * p.fder2 := by nlinarith [mul_self_nonneg p.fder]
    have hsq := Real.sq_sqrt hD
    have hs0 := Real.sqrt_nonneg (p.fder * p.fder - 2 * p.f0 * p.fder2)
    simp only [Nb.dxToNearestRoot]
    rw [if_neg hf0, if_pos hneg]
    set w := Real.sqrt (p.fder * p.fder - 2 * p.f0 * p.fder2)
    have hgt : |p.fder| < w := by
      apply abs_lt_of_sq_lt_sq _ hs0
      rw [hsq]; nlinarith
    obtain ⟨l1, l2⟩ := abs_lt.1 hgt
    -- both roots: r1 = 2 f0 / (w - fder), r2 = 2 f0 / (-w - fder)
    have n1 : w - p.fder ≠ 0 := by linarith
    have n2 : -w - p.fder ≠ 0 := by linarith
    have root1 : p.quad (2 * p.f0 / (w - p.fder)) = 0 := by
      simp only [Nb.quad]
      field_simp
      linear_combination p.f0 * hsq
    have root2 : p.quad (2 * p.f0 / (-w - p.fder)) = 0 := by
      simp only [Nb.quad]
      field_simp
      linear_combination p.f0 * hsq
    have only : ∀ h, p.quad h = 0 → h = 2 * p.f0 / (w - p.fder) ∨ h = 2 * p.f0 / (-w - p.fder) := by
      intro h hh
      simp only [Nb.quad] at hh
      have hfac : ((w - p.fder) * h - 2 * p.f0) * ((-w - p.fder) * h - 2 * p.f0) = 0 := by
        linear_combination 4 * p.f0 * hh - h ^ 2 * hsq
      rcases mul_eq_zero.1 hfac with k | k
      · left; rw [eq_div_iff n1]; linarith
      · right; rw [eq_div_iff n2]; linarith
    have a1 : |2 * p.f0 / (w - p.fder)| = 2 * |p.f0| / (w - p.fder) := by
      rw [abs_div, abs_mul, abs_of_pos (show (0:ℝ) < 2 by norm_num), abs_of_pos (by linarith : 0 < w - p.fder)]
    have a2 : |2 * p.f0 / (-w - p.fder)| = 2 * |p.f0| / (w + p.fder) := by
      rw [abs_div, abs_mul, abs_of_pos (show (0:ℝ) < 2 by norm_num), abs_of_neg (by linarith : -w - p.fder < 0)]
      congr 1; ring
    have hpos : 0 < 2 * |p.f0| := by have := abs_pos.2 hf0; linarith
    by_cases hn : p.fder < 0
    · rw [if_pos hn]
      refine ⟨root1, fun h hh => ?_⟩
      rcases only h hh with k | k
      · rw [k]
      · rw [k, a1, a2]
        apply div_le_div_of_nonneg_left hpos.le (by linarith) (by linarith)
    · rw [if_neg hn]
      push Not at hn
      refine ⟨root2, fun h hh => ?_⟩
      rcases only h hh with k | k
      · rw [k, a1, a2]
        apply div_le_div_of_nonneg_left hpos.le (by linarith) (by linarith)
      · rw [k]
  · intro h2 hd
    simp only [Nb.dxToNearestRoot, Nb.quad, h2]
    by_cases hf0 : p.f0 = 0
    · rw [if_pos hf0, hf0]; ring
    · rw [if_neg hf0, if_neg (by simp)]
      field_simp; ring

/-- math_core.cpp:570-574: `dxBetweenRoots` for a nonnegative discriminant. -/
noncomputable def Nb.dxBetweenRoots (p : Nb) : ℝ :=
  if p.f0 = 0 ∧ p.fder = 0 then 0 else Real.sqrt (p.fder * p.fder - 2 * p.f0 * p.fder2) / |p.fder2|

/-- The documented "estimated distance between two roots" is false: the code returns half of the distance between the
roots of the quadratic, for every quadratic with two roots. -/
theorem C47_refuted_between (p : Nb) (h2 : p.fder2 ≠ 0) (r1 r2 : ℝ) (hr1 : p.quad r1 = 0) (hr2 : p.quad r2 = 0) (hne : r1 ≠ r2) :
    p.dxBetweenRoots = |r1 - r2| / 2 := by
  simp only [Nb.quad] at hr1 hr2
  have hs : p.fder + p.fder2 * (r1 + r2) / 2 = 0 := by
    have : (r1 - r2) * (p.fder + p.fder2 * (r1 + r2) / 2) = 0 := by linear_combination hr1 - hr2
    exact (mul_eq_zero.1 this).resolve_left (sub_ne_zero.2 hne)
  have hD : p.fder * p.fder - 2 * p.f0 * p.fder2 = (p.fder2 * (r1 - r2) / 2) ^ 2 := by
    have hf : p.f0 = p.fder2 * r1 * r2 / 2 := by linear_combination hr1 - r1 * hs
    have hf' : p.fder = -(p.fder2 * (r1 + r2) / 2) := by linarith
    rw [hf, hf']; ring
  unfold Nb.dxBetweenRoots
  rw [if_neg, hD, Real.sqrt_sq_eq_abs, abs_div, abs_mul, abs_of_pos (show (0:ℝ) < 2 by norm_num)]
  · have := abs_pos.2 h2
    field_simp
  · rintro ⟨z1, z2⟩
    rw [z1, z2] at hD
    have : p.fder2 * (r1 - r2) / 2 = 0 := by
      have : (p.fder2 * (r1 - r2) / 2) ^ 2 = 0 := by linarith
      exact pow_eq_zero_iff (two_ne_zero) |>.1 this
    have := mul_ne_zero h2 (sub_ne_zero.2 hne)
    apply this; linarith

end Verif.FindMin
