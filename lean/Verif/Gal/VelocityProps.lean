import Verif.Gal.Velocity
import Verif.Random.Props
import Mathlib.Analysis.Complex.ExponentialBounds

/-!
# C113: assignment of velocities
-/
namespace Verif.Gal
open Real Verif.Coord Verif.Random

variable {σ : Type}

/-! ## specification -/

/-- the state of the generator after `k` draws -/
def stateAfter {α : Type} (draw : σ → α × σ) (s : σ) : ℕ → σ
  | 0 => s
  | k+1 => (draw (stateAfter draw s k)).2

/-- the `k`-th draw, counted from 0 -/
def nthDraw {α : Type} (draw : σ → α × σ) (s : σ) (k : ℕ) : α := (draw (stateAfter draw s k)).1

/-- `k` is the attempt which is used: the first acceptable one among the first hundred, otherwise the last of them -/
def Chosen {α : Type} (draw : σ → α × σ) (s : σ) (bad : α → Prop) (k : ℕ) : Prop :=
  k < 100 ∧ (∀ j < k, bad (nthDraw draw s j)) ∧ (¬ bad (nthDraw draw s k) ∨ k = 99)

/-- squared speed -/
def speed2 (o : PosVelCar) : ℝ := o.vx ^ 2 + o.vy ^ 2 + o.vz ^ 2

/-! ## the loop of attempts -/

theorem stateAfter_succ' {α : Type} (draw : σ → α × σ) (s : σ) (k : ℕ) :
    stateAfter draw s (k+1) = stateAfter draw (draw s).2 k := by
  induction k with
  | zero => rfl
  | succ k ih => rw [stateAfter, ih, stateAfter]

theorem nthDraw_succ {α : Type} (draw : σ → α × σ) (s : σ) (k : ℕ) :
    nthDraw draw s (k+1) = nthDraw draw (draw s).2 k := by
  unfold nthDraw; rw [stateAfter_succ']

theorem attempts_aux {α : Type} (draw : σ → α × σ) (bad : α → Prop) (left : ℕ) (hl : left ≤ 99) (s : σ) :
    ∃ k ≤ left, (attempts draw bad left s).1 = nthDraw draw s k ∧
      (attempts draw bad left s).2.1 = stateAfter draw s (k+1) ∧
      (∀ j < k, bad (nthDraw draw s j)) ∧
      ((¬ bad (nthDraw draw s k) ∧ (attempts draw bad left s).2.2 = 99 - left + k) ∨
       (bad (nthDraw draw s k) ∧ k = left ∧ (attempts draw bad left s).2.2 = 100)) := by
  induction left generalizing s with
  | zero =>
    refine ⟨0, le_refl _, ?_⟩
    by_cases h : bad (draw s).1
    · have e : attempts draw bad 0 s = ((draw s).1, (draw s).2, 100) := by
        conv_lhs => unfold attempts
        simp only [h, if_true]
      rw [e]
      exact ⟨rfl, rfl, fun j hj => absurd hj (by omega), Or.inr ⟨h, rfl, rfl⟩⟩
    · have e : attempts draw bad 0 s = ((draw s).1, (draw s).2, 99 - 0) := by
        conv_lhs => unfold attempts
        simp only [h, if_false]
      rw [e]
      exact ⟨rfl, rfl, fun j hj => absurd hj (by omega), Or.inl ⟨h, rfl⟩⟩
  | succ n ih =>
    by_cases h : bad (draw s).1
    · obtain ⟨k, hk, h1, h2, h3, h4⟩ := ih (by omega) (draw s).2
      have e : attempts draw bad (n+1) s = attempts draw bad n (draw s).2 := by
        conv_lhs => unfold attempts
        simp only [h, if_true]
      refine ⟨k+1, by omega, ?_, ?_, ?_, ?_⟩
      · rw [e, h1, nthDraw_succ]
      · rw [e, h2, stateAfter_succ' draw s]
      · intro j hj
        cases j with
        | zero => exact h
        | succ j => rw [nthDraw_succ]; exact h3 j (by omega)
      · rw [e, nthDraw_succ]
        rcases h4 with ⟨a, b⟩ | ⟨a, b, c⟩
        · left; exact ⟨a, by rw [b]; omega⟩
        · right; exact ⟨a, by omega, c⟩
    · refine ⟨0, by omega, ?_⟩
      have e : attempts draw bad (n+1) s = ((draw s).1, (draw s).2, 99 - (n+1)) := by
        conv_lhs => unfold attempts
        simp only [h, if_false]
      rw [e]
      exact ⟨rfl, rfl, by simp, Or.inl ⟨h, by simp⟩⟩

theorem attempts_spec {α : Type} (draw : σ → α × σ) (bad : α → Prop) (s : σ) :
    ∃ k, Chosen draw s bad k ∧ (attempts draw bad 99 s).1 = nthDraw draw s k ∧
      (attempts draw bad 99 s).2.1 = stateAfter draw s (k+1) ∧
      ((attempts draw bad 99 s).2.2 ≥ 100 ↔ bad (nthDraw draw s k)) := by
  obtain ⟨k, hk, h1, h2, h3, h4⟩ := attempts_aux draw bad 99 (le_refl _) s
  refine ⟨k, ⟨by omega, h3, ?_⟩, h1, h2, ?_⟩
  · rcases h4 with ⟨a, _⟩ | ⟨_, b, _⟩
    · exact Or.inl a
    · exact Or.inr b
  · rcases h4 with ⟨a, b⟩ | ⟨a, b, c⟩
    · rw [b]; simp only [a, iff_false]; omega
    · rw [c]; simp [a]

/-! ## the loop over particles -/

theorem foldl_set_length {β : Type} (order : List ℕ) (f : ℕ → Option β) (init : List β) :
    (order.foldl (fun r i => (f i).elim r (fun b => r.set i b)) init).length = init.length := by
  induction order generalizing init with
  | nil => rfl
  | cons a t ih =>
    rw [List.foldl_cons, ih]
    cases f a <;> simp

theorem foldl_set_get {β : Type} (order : List ℕ) (f : ℕ → Option β) (init : List β) (j : ℕ) (hj : j < init.length) (b : β)
    (hb : f j = some b) (h : j ∈ order ∨ init[j]? = some b) :
    (order.foldl (fun r i => (f i).elim r (fun b => r.set i b)) init)[j]? = some b := by
  induction order generalizing init with
  | nil => rcases h with h | h
           · simp at h
           · exact h
  | cons a t ih =>
    rw [List.foldl_cons]
    by_cases haj : a = j
    · subst haj
      rw [hb]
      apply ih
      · simpa using hj
      · right; simp [hj]
    · apply ih
      · cases f a <;> simpa using hj
      · rcases h with h | h
        · left
          rcases List.mem_cons.mp h with h | h
          · exact absurd h.symm haj
          · exact h
        · right
          cases f a with
          | none => exact h
          | some c => simp only [Option.elim]; rw [List.getElem?_set_ne haj]; exact h

theorem assignAll_eq (dflt : PosVelCar × ℝ) (iter : ℕ → PosCyl → ℝ → PosVelCar × ℝ) (points : List (PosCyl × ℝ)) (order : List ℕ) :
    assignAll dflt iter points order = order.foldl (fun r i =>
      ((points[i]?).map (fun q => iter i q.1 q.2)).elim r (fun b => r.set i b))
      (List.replicate points.length dflt) := by
  unfold assignAll
  congr 1
  funext r i
  cases points[i]? <;> rfl

/-- **C113** In every variant of the velocity assignment, whatever the order in which the iterations are executed, the
output has as many elements as the input, and its `i`-th element is the result of the iteration for the `i`-th particle. -/
theorem C113_schedule (dflt : PosVelCar × ℝ) (iter : ℕ → PosCyl → ℝ → PosVelCar × ℝ) (points : List (PosCyl × ℝ))
    (order : List ℕ) (h : order.Perm (List.range points.length)) :
    (assignAll dflt iter points order).length = points.length ∧
    ∀ i p m, points[i]? = some (p, m) → (assignAll dflt iter points order)[i]? = some (iter i p m) := by
  constructor
  · rw [assignAll_eq, foldl_set_length order (fun i => (points[i]?).map (fun q => iter i q.1 q.2))]; simp
  · intro i p m hi
    have hlt : i < points.length := by
      by_contra hc
      rw [List.getElem?_eq_none (by omega)] at hi
      simp at hi
    rw [assignAll_eq]
    apply foldl_set_get order (fun i => (points[i]?).map (fun q => iter i q.1 q.2))
    · simpa using hlt
    · rw [hi]; rfl
    · left; rw [h.mem_iff]; simpa using hlt

example : ([2, 0, 1] : List ℕ).Perm (List.range 3) := by decide

/-- **C113** The velocity assigned to a particle depends only on the particle and its number: two inputs which agree in
the `i`-th particle give the same `i`-th result, whatever the other particles and the order of execution. -/
theorem C113_local (dflt : PosVelCar × ℝ) (iter : ℕ → PosCyl → ℝ → PosVelCar × ℝ) (points points' : List (PosCyl × ℝ))
    (order order' : List ℕ) (h : order.Perm (List.range points.length)) (h' : order'.Perm (List.range points'.length))
    (i : ℕ) (hi : i < points.length) (e : points[i]? = points'[i]?) :
    (assignAll dflt iter points order)[i]? = (assignAll dflt iter points' order')[i]? := by
  obtain ⟨⟨p, m⟩, hq⟩ : ∃ q, points[i] = q := ⟨_, rfl⟩
  have h1 : points[i]? = some (p, m) := by rw [List.getElem?_eq_getElem hi, hq]
  rw [(C113_schedule dflt iter points order h).2 i p m h1,
    (C113_schedule dflt iter points' order' h').2 i p m (by rw [← e, h1])]

/-! ## Eddington -/

/-- **C113** (Eddington) The mass and the position are those of the input; the speed is the first sampled one which is
below the escape speed, or zero if a hundred samples are all unbound; in all cases the particle is bound, if the potential
is negative. -/
theorem C113_eddington (hash : PosCyl → ℕ → σ) (random : σ → ℝ × σ) (hr : ∀ s, 0 ≤ (random s).1 ∧ (random s).1 ≤ 1)
    (pot : PosCyl → ℝ) (sample : ℝ → σ → ℝ × σ) (i : ℕ) (p : PosCyl) (m : ℝ) :
    let o := iterEdd hash random pot sample i p m
    let bad := fun v : ℝ => pot p + v ^ 2 / 2 ≥ 0
    o.2 = m ∧ o.1.pos = cylToCar p ∧
    (∃ k, Chosen (sample (pot p)) (hash p i) bad k ∧
      ((¬ bad (nthDraw (sample (pot p)) (hash p i) k) ∧ speed2 o.1 = (nthDraw (sample (pot p)) (hash p i) k) ^ 2) ∨
       (bad (nthDraw (sample (pot p)) (hash p i) k) ∧ speed2 o.1 = 0))) ∧
    (pot p < 0 → pot p + speed2 o.1 / 2 < 0) := by
  intro o bad
  have hb : (fun v : ℝ => pot p + 0.5 * v * v ≥ 0) = bad := by
    funext v
    have : (0.5 : ℝ) * v * v = v ^ 2 / 2 := by ring
    simp only [bad, this]
  obtain ⟨k, hk, h1, h2, h3⟩ := attempts_spec (sample (pot p)) bad (hash p i)
  set w := nthDraw (sample (pot p)) (hash p i) k with hw
  have key : ∃ u1 u2 : ℝ, 0 ≤ u1 ∧ u1 ≤ 1 ∧ o = (⟨p.R * cos p.phi, p.R * sin p.phi, p.z,
      (if bad w then 0 else w) * (unitVector u1 u2).1, (if bad w then 0 else w) * (unitVector u1 u2).2.1,
      (if bad w then 0 else w) * (unitVector u1 u2).2.2⟩, m) := by
    refine ⟨(random (stateAfter (sample (pot p)) (hash p i) (k+1))).1,
      (random (random (stateAfter (sample (pot p)) (hash p i) (k+1))).2).1, (hr _).1, (hr _).2, ?_⟩
    simp only [o, iterEdd, hb]
    simp only [h1, h2]
    by_cases hbad : bad w
    · simp only [h3.mpr hbad, hbad, if_true]
    · have hn : ¬ (attempts (sample (pot p)) bad 99 (hash p i)).2.2 ≥ 100 := fun hc => hbad (h3.mp hc)
      simp only [hn, hbad, if_false]
  obtain ⟨u1, u2, hu1, hu2, ho⟩ := key
  have hsp : speed2 o.1 = (if bad w then 0 else w) ^ 2 := by
    rw [ho]
    simp only [speed2]
    linear_combination (if bad w then 0 else w) ^ 2 * C23_unit_vector u1 u2 hu1 hu2
  refine ⟨by rw [ho], by rw [ho]; rfl, ⟨k, hk, ?_⟩, ?_⟩
  · rw [hsp]
    by_cases hbad : bad w
    · right; exact ⟨hbad, by rw [if_pos hbad]; norm_num⟩
    · left; exact ⟨hbad, by rw [if_neg hbad]⟩
  · intro hneg
    rw [hsp]
    by_cases hbad : bad w
    · simp only [hbad, if_true]; linarith
    · simp only [hbad, if_false]
      simp only [bad, ge_iff_le, not_le] at hbad
      exact hbad

/-! ## spherical Jeans -/

/-- the radial and tangential velocities drawn from two normal deviates -/
noncomputable def drawSph (random : σ → ℝ × σ) (sr beta : ℝ) (s : σ) : (ℝ × ℝ) × σ :=
  (((getNormal random s).1.1 * sr, (getNormal random s).1.2 * (sr * √(2 - 2 * beta))), (getNormal random s).2)

theorem jeansSph_shape (hash : PosCyl → ℕ → σ) (random : σ → ℝ × σ) (hr : ∀ s, 0 ≤ (random s).1 ∧ (random s).1 ≤ 1)
    (pot : PosCyl → ℝ) (jeans : ℝ → ℝ) (beta : ℝ) (i : ℕ) (p : PosCyl) (m : ℝ) :
    let o := iterJeansSph hash random pot jeans beta i p m
    let x : ℝ × ℝ × ℝ := (p.R * cos p.phi, p.R * sin p.phi, p.z)
    let r := √(p.R ^ 2 + p.z ^ 2)
    let r' := if r = 0 then 1 else r
    let draw := drawSph random (jeans r) beta
    ∃ k, Chosen draw (hash p i) (fun w => pot p + (w.1 ^ 2 + w.2 ^ 2) / 2 > 0) k ∧
    ∃ u1 u2 : ℝ, 0 ≤ u2 ∧ u2 ≤ 1 ∧
      o = (⟨x.1, x.2.1, x.2.2, (nthDraw draw (hash p i) k).1 * x.1 / r' + (nthDraw draw (hash p i) k).2 * (perpVector x u1 u2).2.1,
        (nthDraw draw (hash p i) k).1 * x.2.1 / r' + (nthDraw draw (hash p i) k).2 * (perpVector x u1 u2).2.2.1,
        (nthDraw draw (hash p i) k).1 * x.2.2 / r' + (nthDraw draw (hash p i) k).2 * (perpVector x u1 u2).2.2.2⟩, m) := by
  intro o x r r' draw
  set bad := fun w : ℝ × ℝ => pot p + (w.1 ^ 2 + w.2 ^ 2) / 2 > 0 with hbad
  have hb : (fun w : ℝ × ℝ => pot p + 0.5 * (w.1 * w.1 + w.2 * w.2) > 0) = bad := by
    funext w
    have : (0.5 : ℝ) * (w.1 * w.1 + w.2 * w.2) = (w.1 ^ 2 + w.2 ^ 2) / 2 := by ring
    simp only [hbad, this]
  obtain ⟨k, hk, h1, h2, -⟩ := attempts_spec draw bad (hash p i)
  refine ⟨k, hk, (random (stateAfter draw (hash p i) (k+1))).1,
      (random (random (stateAfter draw (hash p i) (k+1))).2).1, (hr _).1, (hr _).2, ?_⟩
  have hd : (fun s => let (n, s) := getNormal random s; ((n.1 * jeans r, n.2 * (jeans r * √(2 - 2 * beta))), s)) = draw := rfl
  rw [← h1, ← h2]
  rw [← hb]
  rfl

/-- **C113** (spherical Jeans) The mass and the position are those of the input.  Away from the centre, the radial
velocity is σ_r n₁ and the tangential one σ_r √(2-2β) |n₂|, where (n₁, n₂) is the first pair of normal deviates, out of at
most a hundred, for which the particle is bound; at the centre only the second one contributes. -/
theorem C113_jeansSph (hash : PosCyl → ℕ → σ) (random : σ → ℝ × σ) (hr : ∀ s, 0 ≤ (random s).1 ∧ (random s).1 ≤ 1)
    (pot : PosCyl → ℝ) (jeans : ℝ → ℝ) (beta : ℝ) (i : ℕ) (p : PosCyl) (m : ℝ) :
    let o := iterJeansSph hash random pot jeans beta i p m
    let r := √(p.R ^ 2 + p.z ^ 2)
    let draw := drawSph random (jeans r) beta
    o.2 = m ∧ o.1.pos = cylToCar p ∧
    ∃ k, Chosen draw (hash p i) (fun w => pot p + (w.1 ^ 2 + w.2 ^ 2) / 2 > 0) k ∧
      (r ≠ 0 → (o.1.x * o.1.vx + o.1.y * o.1.vy + o.1.z * o.1.vz) / r = (nthDraw draw (hash p i) k).1 ∧
        speed2 o.1 = (nthDraw draw (hash p i) k).1 ^ 2 + (nthDraw draw (hash p i) k).2 ^ 2) ∧
      (r = 0 → speed2 o.1 = (nthDraw draw (hash p i) k).2 ^ 2) := by
  intro o r draw
  obtain ⟨k, hk, u1, u2, h0, h1, ho⟩ := jeansSph_shape hash random hr pot jeans beta i p m
  obtain ⟨-, q2, q3⟩ := C23_perp_vector (p.R * cos p.phi, p.R * sin p.phi, p.z) u1 u2 h0 h1
  have hcs := sin_sq_add_cos_sq p.phi
  have hr2 : r ^ 2 = p.R ^ 2 + p.z ^ 2 := sq_sqrt (by positivity)
  have hx : (p.R * cos p.phi) ^ 2 + (p.R * sin p.phi) ^ 2 + p.z ^ 2 = r ^ 2 := by
    rw [hr2]; linear_combination p.R ^ 2 * hcs
  change o = _ at ho
  refine ⟨by rw [ho], by rw [ho]; rfl, k, hk, ?_, ?_⟩
  · intro hr0
    have hne : ¬ (√(p.R ^ 2 + p.z ^ 2) = 0) := hr0
    rw [if_neg hne] at ho
    change o = _ at ho
    set a := (nthDraw (drawSph random (jeans √(p.R ^ 2 + p.z ^ 2)) beta) (hash p i) k).1
    set b := (nthDraw (drawSph random (jeans √(p.R ^ 2 + p.z ^ 2)) beta) (hash p i) k).2
    generalize hv : perpVector (p.R * cos p.phi, p.R * sin p.phi, p.z) u1 u2 = v at q2 q3 ho
    simp only at q2 q3
    change _ = a ∧ _ = a ^ 2 + b ^ 2
    rw [ho]
    simp only [speed2]
    change (p.R * cos p.phi * (a * (p.R * cos p.phi) / r + b * v.2.1) + p.R * sin p.phi * (a * (p.R * sin p.phi) / r + b * v.2.2.1)
      + p.z * (a * p.z / r + b * v.2.2.2)) / r = a ∧ (a * (p.R * cos p.phi) / r + b * v.2.1) ^ 2
      + (a * (p.R * sin p.phi) / r + b * v.2.2.1) ^ 2 + (a * p.z / r + b * v.2.2.2) ^ 2 = a ^ 2 + b ^ 2
    constructor
    · rw [div_eq_iff hr0]
      field_simp
      linear_combination a * hx + r * b * q3
    · field_simp
      linear_combination a ^ 2 * hx + 2 * a * r * b * q3 + b ^ 2 * r ^ 2 * q2
  · intro hr0
    have hR : p.R = 0 := by
      rw [hr0] at hr2; nlinarith [sq_nonneg p.R, sq_nonneg p.z]
    have hz : p.z = 0 := by
      rw [hr0] at hr2; nlinarith [sq_nonneg p.R, sq_nonneg p.z]
    set b := (nthDraw (drawSph random (jeans √(p.R ^ 2 + p.z ^ 2)) beta) (hash p i) k).2
    change _ = b ^ 2
    rw [ho]
    simp only [speed2]
    simp only [hR, hz, zero_mul, mul_zero, zero_div, zero_add]
    simp only [hR, hz, zero_mul] at q2
    linear_combination b ^ 2 * q2

/-- **C113** (spherical Jeans, part) The particle is not above the escape speed, provided that this holds for one of the
hundred pairs of deviates.  Missing: nothing replaces the velocity when all of them are unbound, see `C113_refuted_bound`. -/
theorem C113_jeansSph_bound_partial (hash : PosCyl → ℕ → σ) (random : σ → ℝ × σ)
    (hr : ∀ s, 0 ≤ (random s).1 ∧ (random s).1 ≤ 1)
    (pot : PosCyl → ℝ) (jeans : ℝ → ℝ) (beta : ℝ) (i : ℕ) (p : PosCyl) (m : ℝ)
    (hgood : ∃ j < 100, pot p + ((nthDraw (drawSph random (jeans √(p.R ^ 2 + p.z ^ 2)) beta) (hash p i) j).1 ^ 2
      + (nthDraw (drawSph random (jeans √(p.R ^ 2 + p.z ^ 2)) beta) (hash p i) j).2 ^ 2) / 2 ≤ 0) :
    pot p + speed2 (iterJeansSph hash random pot jeans beta i p m).1 / 2 ≤ 0 := by
  obtain ⟨-, -, k, ⟨hk, hbef, hok⟩, h1, h2⟩ := C113_jeansSph hash random hr pot jeans beta i p m
  obtain ⟨j, hj, hgj⟩ := hgood
  have hb : pot p + ((nthDraw (drawSph random (jeans √(p.R ^ 2 + p.z ^ 2)) beta) (hash p i) k).1 ^ 2
      + (nthDraw (drawSph random (jeans √(p.R ^ 2 + p.z ^ 2)) beta) (hash p i) k).2 ^ 2) / 2 ≤ 0 := by
    rcases hok with h | h
    · exact not_lt.mp h
    · by_cases hjk : j < k
      · exact absurd (hbef j hjk) (not_lt.mpr hgj)
      · have : j = k := by omega
        subst this; exact hgj
  by_cases hr0 : √(p.R ^ 2 + p.z ^ 2) = 0
  · rw [h2 hr0]
    nlinarith [sq_nonneg (nthDraw (drawSph random (jeans √(p.R ^ 2 + p.z ^ 2)) beta) (hash p i) k).1]
  · rw [(h1 hr0).2]; exact hb

/-! ## axisymmetric Jeans -/

/-- the three velocity components drawn from four normal deviates (the second one is unused) -/
noncomputable def drawAxi (random : σ → ℝ × σ) (m : Moments) (s : σ) : (ℝ × ℝ × ℝ) × σ :=
  let n := getNormal random s
  let n' := getNormal random n.2
  ((n'.1.1 * √m.vR2, n'.1.2 * √m.vz2, m.vphi + n.1.1 * √(max 0 (m.vphi2 - m.vphi ^ 2))), n'.2)

/-- **C113** (axisymmetric Jeans) The mass and the position are those of the input; the velocity has the components
v_R = σ_R n₁, v_z = σ_z n₂ along the local cylindrical axes and v_φ = ⟨v_φ⟩ + σ_φ n₃, for the first set of deviates, out of
at most a hundred, for which the particle is bound; in particular it is bound if one of these sets is. -/
theorem C113_jeansAxi (hash : PosCyl → ℕ → σ) (random : σ → ℝ × σ) (pot : PosCyl → ℝ) (moments : PosCyl → Moments)
    (i : ℕ) (p : PosCyl) (m : ℝ) :
    let o := iterJeansAxi hash random pot moments i p m
    let draw := drawAxi random (moments p)
    let E := fun w : ℝ × ℝ × ℝ => pot p + (w.1 ^ 2 + w.2.1 ^ 2 + w.2.2 ^ 2) / 2
    o.2 = m ∧ o.1.pos = cylToCar p ∧
    (∃ k, Chosen draw (hash p i) (fun w => E w > 0) k ∧
      o.1.vx * cos p.phi + o.1.vy * sin p.phi = (nthDraw draw (hash p i) k).1 ∧
      o.1.vz = (nthDraw draw (hash p i) k).2.1 ∧
      o.1.vy * cos p.phi - o.1.vx * sin p.phi = (nthDraw draw (hash p i) k).2.2 ∧
      pot p + speed2 o.1 / 2 = E (nthDraw draw (hash p i) k)) ∧
    ((∃ j < 100, E (nthDraw draw (hash p i) j) ≤ 0) → pot p + speed2 o.1 / 2 ≤ 0) := by
  intro o draw E
  set bad := fun w : ℝ × ℝ × ℝ => E w > 0 with hbad
  have hb : (fun w : ℝ × ℝ × ℝ => pot p + 0.5 * (w.1 * w.1 + w.2.1 * w.2.1 + w.2.2 * w.2.2) > 0) = bad := by
    funext w
    have : (0.5 : ℝ) * (w.1 * w.1 + w.2.1 * w.2.1 + w.2.2 * w.2.2) = (w.1 ^ 2 + w.2.1 ^ 2 + w.2.2 ^ 2) / 2 := by ring
    simp only [hbad, E, this]
  obtain ⟨k, hk, h1, -, -⟩ := attempts_spec draw bad (hash p i)
  have ho : o = (vCylToCar ⟨p.R, p.z, p.phi, (nthDraw draw (hash p i) k).1, (nthDraw draw (hash p i) k).2.1,
      (nthDraw draw (hash p i) k).2.2⟩, m) := by
    rw [← h1, ← hb]; rfl
  have hcs := sin_sq_add_cos_sq p.phi
  generalize hw : nthDraw draw (hash p i) k = w at ho hk
  have hE : pot p + speed2 o.1 / 2 = E w := by
    rw [ho]
    simp only [speed2, vCylToCar, E]
    linear_combination (w.1 ^ 2 + w.2.2 ^ 2) / 2 * hcs
  refine ⟨by rw [ho], by rw [ho]; rfl, ⟨k, hk, ?_, ?_, ?_, ?_⟩, ?_⟩
  · rw [ho, hw]; simp only [vCylToCar]; linear_combination w.1 * hcs
  · rw [ho, hw]; rfl
  · rw [ho, hw]; simp only [vCylToCar]; linear_combination w.2.2 * hcs
  · rw [hw]; exact hE
  · rintro ⟨j, hj, hgj⟩
    rw [hE, ← hw]
    rcases hk.2.2 with h | h
    · exact not_lt.mp h
    · by_cases hjk : j < k
      · exact absurd (hk.2.1 j hjk) (not_lt.mpr hgj)
      · have hh := hk.1
        have : j = k := by omega
        subst this; exact hgj

/-! ## concrete cases and refutations -/

/-- a generator which always returns `1/2`, `0`, `1/2`, `0`, ... -/
noncomputable def altRandom (s : Bool) : ℝ × Bool := (if s then 1/2 else 0, !s)

theorem altRandom_range (s : Bool) : 0 ≤ (altRandom s).1 ∧ (altRandom s).1 ≤ 1 := by
  cases s <;> norm_num [altRandom]

theorem altRandom_normal : getNormal altRandom true = ((0, √(2 * log 2)), true) := by
  simp [getNormal, altRandom, normalPair, Real.log_inv]

theorem altRandom_draws (sr beta : ℝ) (k : ℕ) :
    stateAfter (drawSph altRandom sr beta) true k = true ∧
    nthDraw (drawSph altRandom sr beta) true k = (0, √(2 * log 2) * (sr * √(2 - 2 * beta))) := by
  have h : stateAfter (drawSph altRandom sr beta) true k = true := by
    induction k with
    | zero => rfl
    | succ k ih => rw [stateAfter, ih]; simp [drawSph, altRandom_normal]
  refine ⟨h, ?_⟩
  unfold nthDraw
  rw [h]
  simp [drawSph, altRandom_normal]

/-- the hypotheses of `C113_jeansSph_bound_partial` are met with a nonzero velocity -/
example : (∃ j < 100, (-1:ℝ) + ((nthDraw (drawSph altRandom (1/2) 0) true j).1 ^ 2
      + (nthDraw (drawSph altRandom (1/2) 0) true j).2 ^ 2) / 2 ≤ 0) ∧ 0 < (nthDraw (drawSph altRandom (1/2) 0) true 0).2 := by
  have hl : 0 < log 2 := by have := log_two_gt_d9; linarith
  have hl2 := log_two_lt_d9
  constructor
  · refine ⟨0, by norm_num, ?_⟩
    rw [(altRandom_draws _ _ _).2]
    simp only
    have e1 := sq_sqrt (show (0:ℝ) ≤ 2 * log 2 by positivity)
    have e2 := sq_sqrt (show (0:ℝ) ≤ 2 - 2 * 0 by norm_num)
    rw [mul_pow, mul_pow, e1, e2]
    nlinarith
  · rw [(altRandom_draws _ _ _).2]
    simp only
    have := sqrt_pos.mpr (show (0:ℝ) < 2 * log 2 by positivity)
    have := sqrt_pos.mpr (show (0:ℝ) < 2 - 2 * 0 by norm_num)
    positivity

/-- **C113, refuted part**: "assigned velocities will not exceed the local escape velocity at any point"
(galaxymodel_velocitysampler.h:107) is false of the Jeans variants: when a hundred draws are all unbound, the last one is
used as it is (the Eddington variant sets the velocity to zero). -/
theorem C113_refuted_bound : ∃ (random : Bool → ℝ × Bool) (pot : PosCyl → ℝ) (jeans : ℝ → ℝ) (p : PosCyl),
    (∀ s, 0 ≤ (random s).1 ∧ (random s).1 ≤ 1) ∧ pot p < 0 ∧
    pot p + speed2 (iterJeansSph (fun _ _ => true) random pot jeans 0 0 p 1).1 / 2 > 0 := by
  refine ⟨altRandom, fun _ => -1, fun _ => 2, ⟨1, 0, 0⟩, altRandom_range, by norm_num, ?_⟩
  obtain ⟨-, -, k, -, h1, -⟩ := C113_jeansSph (fun _ _ => true) altRandom altRandom_range (fun _ => -1) (fun _ => 2) 0 0 ⟨1, 0, 0⟩ 1
  have hr0 : √((1:ℝ) ^ 2 + 0 ^ 2) ≠ 0 := by norm_num
  obtain ⟨-, h⟩ := h1 hr0
  rw [(altRandom_draws _ _ _).2] at h
  simp only at h
  rw [h]
  have e1 := sq_sqrt (show (0:ℝ) ≤ 2 * log 2 by have := log_two_gt_d9; linarith)
  have e2 := sq_sqrt (show (0:ℝ) ≤ 2 - 2 * 0 by norm_num)
  rw [mul_pow, mul_pow, e1, e2]
  have := log_two_gt_d9
  norm_num
  linarith

end Verif.Gal
