import Verif.Pot.Modifiers
import Verif.Pot.Kepler
import Verif.Pot.Radial

/-!
# C68: symmetry flags

Models `/repo/src/coord.h:50-131` and the `symmetry()` methods of the composite and modified potentials
(`/repo/src/potential_composite.h:90-560`, `/repo/src/potential_composite.cpp:266-275, 395-404, 424-438, 556-566, 681-691`) and of the analytic
potentials (`/repo/src/potential_analytic.h`, `/repo/src/potential_base.h:306-389`, `/repo/src/potential_spheroid.h:151`).
The enumeration is represented by its numerical value, a natural number; negative values (which no code in the library produces) are not
represented.
-/

namespace Verif.Pot

open Real Verif.Coord

/-! ## model -/

/-- coord.h:50-76 -/
def stXRefl : ℕ := 1
/-- coord.h:54 -/
def stYRefl : ℕ := 2
/-- coord.h:55 -/
def stZRefl : ℕ := 4
/-- coord.h:56 -/
def stRefl : ℕ := 8
/-- coord.h:57 -/
def stZRot : ℕ := 16
/-- coord.h:58 -/
def stRot : ℕ := 32
/-- coord.h:60 -/
def stUnknown : ℕ := 64
/-- coord.h:66 -/
def stBisymmetric : ℕ := stZRefl ||| stRefl
/-- coord.h:72 -/
def stTriaxial : ℕ := stXRefl ||| stYRefl ||| stZRefl ||| stRefl
/-- coord.h:73 -/
def stAxisymmetric : ℕ := stTriaxial ||| stZRot
/-- coord.h:74 -/
def stSpherical : ℕ := stAxisymmetric ||| stRot
/-- coord.h:77-125: `(sym & FLAG) == FLAG` -/
def hasFlag (sym flag : ℕ) : Bool := sym &&& flag == flag
/-- coord.h:127-130 -/
def isUnknown (sym : ℕ) : Bool := decide (stSpherical < sym)

/-- potential_composite.cpp:266-275, 395-404: the loop, `sym` being the value accumulated so far -/
def compositeSymLoop (sym : ℕ) : List ℕ → ℕ
  | [] => sym
  | csym :: rest => if isUnknown csym then csym else compositeSymLoop (sym &&& csym) rest
/-- potential_composite.cpp:395-404 -/
def compositeSym (l : List ℕ) : ℕ := compositeSymLoop stSpherical l
/-- potential_composite.cpp:428-438: the loop of the constructor of `Evolving` -/
def evolvingSymLoop (sym : ℕ) : List ℕ → ℕ
  | [] => sym
  | isym :: rest => evolvingSymLoop (if isUnknown isym || isUnknown sym then stUnknown else sym &&& isym) rest
/-- potential_composite.cpp:428-438 -/
def evolvingSym : List ℕ → ℕ
  | [] => stUnknown
  | s :: l => evolvingSymLoop s l
/-- potential_composite.h:177-178, 222-223 -/
def shiftedSym (sym : ℕ) : ℕ := if isUnknown sym then stUnknown else 0
/-- potential_composite.cpp:556-566 -/
def tiltedSym (sym : ℕ) : ℕ := if isUnknown sym || hasFlag sym stSpherical then sym else sym &&& stRefl
/-- potential_composite.cpp:681-691 -/
def rotatingSym (sym : ℕ) : ℕ := if isUnknown sym || hasFlag sym stZRot then sym else sym &&& stBisymmetric
/-- potential_composite.h:440, 493 -/
def scaledSym (sym : ℕ) : ℕ := sym

open Classical in
/-- potential_analytic.h:104-105, 126-127, potential_spheroid.h:151-152 -/
noncomputable def ellipsoidalSym (p2 q2 : ℝ) : ℕ := if p2 = 1 then (if q2 = 1 then stSpherical else stAxisymmetric) else stTriaxial
open Classical in
/-- potential_analytic.h:175-176 -/
noncomputable def keplerBinarySym (P : KBParams) : ℕ := if P.sma = 0 ∨ P.q = 0 then stSpherical else 0

/-! ## specification -/

/-- the scalar field `f` really has every symmetry announced by the flags `sym` -/
structure SymOk (sym : ℕ) (f : PosCar → ℝ) : Prop where
  xrefl : hasFlag sym stXRefl = true → ∀ p, f ⟨-p.x, p.y, p.z⟩ = f p
  yrefl : hasFlag sym stYRefl = true → ∀ p, f ⟨p.x, -p.y, p.z⟩ = f p
  zrefl : hasFlag sym stZRefl = true → ∀ p, f ⟨p.x, p.y, -p.z⟩ = f p
  refl : hasFlag sym stRefl = true → ∀ p, f ⟨-p.x, -p.y, -p.z⟩ = f p
  zrot : hasFlag sym stZRot = true → ∀ a p, f (turnPos a p) = f p
  rot : hasFlag sym stRot = true → ∀ o : Orientation, o.IsRotation → ∀ p, f (o.toRotPos p) = f p

/-- an object: the flags it announces and its scalar field; consistent if the flags are "unknown" or all true -/
def Announces (sym : ℕ) (f : PosCar → ℝ) : Prop := isUnknown sym = true ∨ SymOk sym f

/-! ## flags -/

/-- the composite flags are what their descriptions say -/
theorem C68_flag_values (sym : ℕ) :
    (hasFlag sym stBisymmetric = true ↔ hasFlag sym stZRefl = true ∧ hasFlag sym stRefl = true) ∧
    (hasFlag sym stTriaxial = true ↔ hasFlag sym stXRefl = true ∧ hasFlag sym stYRefl = true ∧ hasFlag sym stZRefl = true ∧ hasFlag sym stRefl = true) ∧
    (hasFlag sym stAxisymmetric = true ↔ hasFlag sym stTriaxial = true ∧ hasFlag sym stZRot = true) ∧
    (hasFlag sym stSpherical = true ↔ hasFlag sym stAxisymmetric = true ∧ hasFlag sym stRot = true) := by
  have key : ∀ a b, hasFlag sym (a ||| b) = true ↔ hasFlag sym a = true ∧ hasFlag sym b = true := by
    intro a b
    simp only [hasFlag, beq_iff_eq]
    constructor
    · intro h
      constructor <;> apply Nat.eq_of_testBit_eq <;> intro i <;> have := congrArg (Nat.testBit · i) h <;>
        simp only [Nat.testBit_and, Nat.testBit_or] at this ⊢ <;> revert this <;>
        generalize sym.testBit i = u <;> generalize a.testBit i = v <;> generalize b.testBit i = w <;> revert u v w <;> decide
    · rintro ⟨ha, hb⟩
      rw [Nat.and_or_distrib_left, ha, hb]
  refine ⟨key _ _, ?_, key _ _, key _ _⟩
  rw [stTriaxial, key, key, key]
  tauto

theorem hasFlag_and_left {a b k : ℕ} (h : hasFlag (a &&& b) k = true) : hasFlag a k = true := by
  simp only [hasFlag, beq_iff_eq] at *
  have : k &&& a = k := by
    conv_lhs => rw [← h]
    rw [Nat.and_comm, ← Nat.and_assoc, ← Nat.and_assoc, Nat.and_self, h]
  rw [Nat.and_comm, this]

theorem hasFlag_and_right {a b k : ℕ} (h : hasFlag (a &&& b) k = true) : hasFlag b k = true :=
  hasFlag_and_left (a := b) (b := a) (by rw [Nat.and_comm]; exact h)

/-- announcing fewer symmetries is always safe -/
theorem SymOk.mono {a b : ℕ} {f : PosCar → ℝ} (h : SymOk a f) (hb : ∀ k, hasFlag b k = true → hasFlag a k = true) : SymOk b f :=
  ⟨fun c => h.1 (hb _ c), fun c => h.2 (hb _ c), fun c => h.3 (hb _ c), fun c => h.4 (hb _ c), fun c => h.5 (hb _ c), fun c => h.6 (hb _ c)⟩

theorem SymOk.add {a : ℕ} {f g : PosCar → ℝ} (hf : SymOk a f) (hg : SymOk a g) (u v : ℝ) : SymOk a (fun p => u * f p + v * g p) :=
  ⟨fun c p => by simp only [hf.1 c p, hg.1 c p], fun c p => by simp only [hf.2 c p, hg.2 c p], fun c p => by simp only [hf.3 c p, hg.3 c p],
    fun c p => by simp only [hf.4 c p, hg.4 c p], fun c t p => by simp only [hf.5 c t p, hg.5 c t p], fun c o ho p => by simp only [hf.6 c o ho p, hg.6 c o ho p]⟩

theorem symOk_zero (a : ℕ) : SymOk a (fun _ => 0) :=
  ⟨fun _ _ => rfl, fun _ _ => rfl, fun _ _ => rfl, fun _ _ => rfl, fun _ _ _ => rfl, fun _ _ _ _ => rfl⟩

/-! ## composite and evolving -/

theorem compositeSymLoop_spec (l : List ℕ) (s : ℕ) :
    (∃ c ∈ l, isUnknown c = true ∧ compositeSymLoop s l = c) ∨
    ((∀ c ∈ l, isUnknown c = false) ∧ ∀ k, hasFlag (compositeSymLoop s l) k = true → hasFlag s k = true ∧ ∀ c ∈ l, hasFlag c k = true) := by
  induction l generalizing s with
  | nil => exact .inr ⟨by simp, fun k h => ⟨h, by simp⟩⟩
  | cons c l ih =>
    by_cases hc : isUnknown c = true
    · exact .inl ⟨c, by simp, hc, by simp [compositeSymLoop, hc]⟩
    · simp only [compositeSymLoop, if_neg hc]
      rcases ih (s &&& c) with ⟨d, hd, hu, e⟩ | ⟨h1, h2⟩
      · exact .inl ⟨d, by simp [hd], hu, e⟩
      · refine .inr ⟨by simpa [hc] using h1, fun k hk => ?_⟩
        obtain ⟨a, b⟩ := h2 k hk
        refine ⟨hasFlag_and_left a, ?_⟩
        simp only [List.mem_cons, forall_eq_or_imp]
        exact ⟨hasFlag_and_right a, b⟩

/-- C68, composite: the announced symmetry is a symmetry of the sum of the components -/
theorem C68_composite (comps : List (ℕ × (PosCar → ℝ))) (h : ∀ c ∈ comps, Announces c.1 c.2) :
    Announces (compositeSym (comps.map Prod.fst)) (fun p => (comps.map fun c => c.2 p).sum) := by
  rcases compositeSymLoop_spec (comps.map Prod.fst) stSpherical with ⟨d, -, hu, e⟩ | ⟨h1, h2⟩
  · left; rw [compositeSym, e]; exact hu
  · right
    have h3 : ∀ c ∈ comps, SymOk (compositeSym (comps.map Prod.fst)) c.2 := by
      intro c hc
      have hm : c.1 ∈ comps.map Prod.fst := List.mem_map_of_mem hc
      have := (h c hc).resolve_left (by rw [h1 _ hm]; simp)
      exact this.mono fun k hk => (h2 k hk).2 _ hm
    generalize compositeSym (comps.map Prod.fst) = s at h3
    clear h h1 h2
    induction comps with
    | nil => exact symOk_zero s
    | cons c l ih =>
      have a := (h3 c (by simp)).add (ih fun d hd => h3 d (by simp [hd])) 1 1
      simpa using a

theorem evolvingSymLoop_spec (l : List ℕ) (s : ℕ) :
    isUnknown (evolvingSymLoop s l) = true ∨
    ((isUnknown s = false ∧ ∀ c ∈ l, isUnknown c = false) ∧
      ∀ k, hasFlag (evolvingSymLoop s l) k = true → hasFlag s k = true ∧ ∀ c ∈ l, hasFlag c k = true) := by
  induction l generalizing s with
  | nil =>
    cases hs : isUnknown s
    · exact .inr ⟨⟨rfl, by simp⟩, fun k h => ⟨h, by simp⟩⟩
    · exact .inl hs
  | cons c l ih =>
    by_cases hc : (isUnknown c || isUnknown s) = true
    · simp only [evolvingSymLoop, if_pos hc]
      rcases ih stUnknown with h | ⟨⟨h1, -⟩, -⟩
      · exact .inl h
      · exact absurd h1 (by decide)
    · simp only [evolvingSymLoop, if_neg hc]
      rcases ih (s &&& c) with h | ⟨⟨-, h1⟩, h2⟩
      · exact .inl h
      · simp only [Bool.or_eq_true, not_or, Bool.not_eq_true] at hc
        refine .inr ⟨⟨hc.2, by simpa [hc.1] using h1⟩, fun k hk => ?_⟩
        obtain ⟨a, b⟩ := h2 k hk
        refine ⟨hasFlag_and_left a, ?_⟩
        simp only [List.mem_cons, forall_eq_or_imp]
        exact ⟨hasFlag_and_right a, b⟩

/-- C68, evolving potential: the announced symmetry is a symmetry at every time, whatever the interpolation -/
theorem C68_evolving (times : List ℝ) (hs : times.Pairwise (· < ·)) (lin : Bool) (t : ℝ) (syms : List ℕ) (hl : syms.length = times.length) (hne : syms ≠ [])
    (inst : ℕ → PosCar → OutCar) (h : ∀ i s, syms[i]? = some s → Announces s (fun p => (inst i p).pot)) :
    Announces (evolvingSym syms) (fun p => (evolving times lin t inst p).pot) := by
  have hall : isUnknown (evolvingSym syms) = true ∨ ∀ i < syms.length, SymOk (evolvingSym syms) (fun p => (inst i p).pot) := by
    rcases syms with _ | ⟨s, l⟩
    · exact absurd rfl hne
    · rcases evolvingSymLoop_spec l s with hu | ⟨⟨h1, h2⟩, h3⟩
      · exact .inl hu
      · right
        intro i hi
        have hm : (s :: l)[i] ∈ s :: l := List.getElem_mem hi
        have hu : isUnknown (s :: l)[i] = false := by
          rcases List.mem_cons.1 hm with e | e
          · rw [e]; exact h1
          · exact h2 _ e
        have := (h i _ (List.getElem?_eq_getElem hi)).resolve_left (by rw [hu]; simp)
        refine this.mono fun k hk => ?_
        obtain ⟨a, b⟩ := h3 k hk
        rcases List.mem_cons.1 hm with e | e
        · rw [e]; exact a
        · exact b _ e
  rcases hall with hu | hall
  · exact .inl hu
  · right
    have hsafe := C67_evolving_safe times hs (by rintro rfl; exact hne (List.length_eq_zero_iff.1 hl)) lin t
    simp only [evolving_eq_blend, blend]
    simp only [] at hsafe
    generalize searchInterp t times lin (timeBin t times) = iw at *
    by_cases hw : iw.2 = 1
    · have := hall iw.1 (by omega)
      simpa [hw] using this
    · exact (hall iw.1 (by omega)).add (hall (iw.1 + 1) (by have := hsafe.2 hw; omega)) _ _

/-! ## modifiers -/

theorem shiftedSym_unknown {sym : ℕ} (h : isUnknown sym = true) : isUnknown (shiftedSym sym) = true := by
  rw [shiftedSym, if_pos h]; decide

/-- C68, shifted -/
theorem C68_shifted (cx cy cz : ℝ) (sym : ℕ) (f : PosCar → ℝ) :
    Announces (shiftedSym sym) (fun p => f (shiftPos cx cy cz p)) := by
  by_cases hu : isUnknown sym = true
  · exact .inl (shiftedSym_unknown hu)
  · right
    rw [shiftedSym, if_neg hu]
    refine ⟨?_, ?_, ?_, ?_, ?_, ?_⟩ <;> intro hc <;> exact absurd hc (by decide)

/-- C68, tilted -/
theorem C68_tilted (alpha beta gamma : ℝ) (sym : ℕ) (f : PosCar → ℝ) (h : Announces sym f) :
    Announces (tiltedSym sym) (fun p => f ((Orientation.ofEuler alpha beta gamma).toRotPos p)) := by
  by_cases hu : isUnknown sym = true
  · left; rw [tiltedSym, if_pos (by simp [hu])]; exact hu
  · have h := h.resolve_left hu
    right
    by_cases hsph : hasFlag sym stSpherical = true
    · rw [tiltedSym, if_pos (by simp [hsph])]
      have e : (fun p => f ((Orientation.ofEuler alpha beta gamma).toRotPos p)) = f :=
        funext fun p => h.rot ((C68_flag_values sym).2.2.2.1 hsph).2 _ (C61_isRotation ..) p
      rw [e]; exact h
    · rw [tiltedSym, if_neg (by simp [hu, hsph])]
      have hz : ∀ {k : ℕ}, hasFlag (sym &&& stRefl) k = true → hasFlag stRefl k = true := fun c => hasFlag_and_right c
      refine ⟨fun c => absurd (hz c) (by decide), fun c => absurd (hz c) (by decide), fun c => absurd (hz c) (by decide), fun c p => ?_,
        fun c => absurd (hz c) (by decide), fun c => absurd (hz c) (by decide)⟩
      rw [← h.refl (hasFlag_and_left c)]
      congr 1
      simp only [Orientation.toRotPos, Orientation.toRot]
      ext <;> simp only [] <;> ring

theorem rotPos_eq_turn (a : ℝ) (p : PosCar) : rotPos a p = turnPos (-a) p := by
  ext <;> simp only [rotPos, turnPos, cos_neg, sin_neg] <;> ring

/-- C68, rotating -/
theorem C68_rotating (angle : ℝ) (sym : ℕ) (f : PosCar → ℝ) (h : Announces sym f) :
    Announces (rotatingSym sym) (fun p => f (rotPos angle p)) := by
  by_cases hu : isUnknown sym = true
  · left; rw [rotatingSym, if_pos (by simp [hu])]; exact hu
  · have h := h.resolve_left hu
    right
    by_cases hsph : hasFlag sym stZRot = true
    · rw [rotatingSym, if_pos (by simp [hsph])]
      have e : (fun p => f (rotPos angle p)) = f := funext fun p => by rw [rotPos_eq_turn, h.zrot hsph]
      rw [e]; exact h
    · rw [rotatingSym, if_neg (by simp [hu, hsph])]
      have hz : ∀ {k : ℕ}, hasFlag (sym &&& stBisymmetric) k = true → hasFlag stBisymmetric k = true := fun c => hasFlag_and_right c
      refine ⟨fun c => absurd (hz c) (by decide), fun c => absurd (hz c) (by decide), fun c p => ?_, fun c p => ?_,
        fun c => absurd (hz c) (by decide), fun c => absurd (hz c) (by decide)⟩
      · rw [← h.zrefl (hasFlag_and_left c)]; simp only [rotPos, neg_neg]
      · rw [← h.refl (hasFlag_and_left c)]
        congr 1
        ext <;> simp only [rotPos] <;> ring

/-- C68, scaled -/
theorem C68_scaled (ampl scale : ℝ) (sym : ℕ) (f : PosCar → ℝ) (h : Announces sym f) :
    Announces (scaledSym sym) (fun p => f ⟨p.x * (1 / scale), p.y * (1 / scale), p.z * (1 / scale)⟩ * (ampl * (1 / scale))) := by
  rcases h with hu | h
  · exact .inl hu
  · right
    rw [scaledSym]
    refine ⟨fun c p => ?_, fun c p => ?_, fun c p => ?_, fun c p => ?_, fun c a p => ?_, fun c o ho p => ?_⟩ <;> congr 1
    · rw [← h.xrefl c]; simp only [neg_mul, neg_neg]
    · rw [← h.yrefl c]; simp only [neg_mul, neg_neg]
    · rw [← h.zrefl c]; simp only [neg_mul, neg_neg]
    · rw [← h.refl c]; simp only [neg_mul, neg_neg]
    · refine Eq.trans (congrArg f ?_) (h.zrot c a _)
      ext <;> simp only [turnPos] <;> ring
    · refine Eq.trans (congrArg f ?_) (h.rot c o ho _)
      ext <;> simp only [Orientation.toRotPos, Orientation.toRot] <;> ring

/-! ## analytic potentials -/

theorem turn_norm (a : ℝ) (p : PosCar) : (turnPos a p).x ^ 2 + (turnPos a p).y ^ 2 = p.x ^ 2 + p.y ^ 2 := by
  simp only [turnPos]
  linear_combination (p.x ^ 2 + p.y ^ 2) * sin_sq_add_cos_sq a

theorem rot_norm {o : Orientation} (ho : o.IsRotation) (p : PosCar) :
    (o.toRotPos p).x ^ 2 + (o.toRotPos p).y ^ 2 + (o.toRotPos p).z ^ 2 = p.x ^ 2 + p.y ^ 2 + p.z ^ 2 := by
  obtain ⟨-, ⟨r1, r2, r3, r4, r5, r6⟩, -⟩ := ho.eqs
  simp only [Orientation.toRotPos, Orientation.toRot]
  linear_combination p.x ^ 2 * r1 + p.y ^ 2 * r2 + p.z ^ 2 * r3 + 2 * p.x * p.y * r4 + 2 * p.x * p.z * r5 + 2 * p.y * p.z * r6

/-- a function of the ellipsoidal radius has the symmetry announced by `Logarithmic`, `Harmonic` and `SpheroidDensity` -/
theorem symOk_ellipsoidal (p2 q2 : ℝ) (F : ℝ → ℝ) : SymOk (ellipsoidalSym p2 q2) (fun p => F (p.x ^ 2 + p.y ^ 2 / p2 + p.z ^ 2 / q2)) := by
  refine ⟨fun _ p => ?_, fun _ p => ?_, fun _ p => ?_, fun _ p => ?_, fun c a p => ?_, fun c o ho p => ?_⟩ <;> try simp only [neg_sq]
  · unfold ellipsoidalSym at c
    split_ifs at c with h1 h2
    · subst h1; subst h2; rw [div_one, div_one, div_one, div_one, turn_norm]; simp only [turnPos]
    · subst h1; rw [div_one, div_one, turn_norm]; simp only [turnPos]
    · exact absurd c (by decide)
  · unfold ellipsoidalSym at c
    split_ifs at c with h1 h2
    · subst h1; subst h2; rw [div_one, div_one, div_one, div_one, rot_norm ho]
    · exact absurd c (by decide)
    · exact absurd c (by decide)

/-- C68, logarithmic and harmonic potentials and densities stratified on ellipsoids -/
theorem C68_analytic (v c p2 q2 L O2 : ℝ) (rho : ℝ → ℝ) :
    SymOk (ellipsoidalSym p2 q2) (fun p => (logarithmic v c p2 q2 L p).pot) ∧
    SymOk (ellipsoidalSym p2 q2) (fun p => (harmonic O2 p2 q2 p).pot) ∧
    SymOk (ellipsoidalSym p2 q2) (fun p => rho (√(p.x ^ 2 + p.y ^ 2 / p2 + p.z ^ 2 / q2))) := by
  refine ⟨?_, symOk_ellipsoidal p2 q2 _, symOk_ellipsoidal p2 q2 fun m => rho √m⟩
  convert symOk_ellipsoidal p2 q2 fun m => 0.5 * v * log ((c + m) / L) using 2 with p
  simp only [logarithmic]; ring_nf

/-- C68: potentials that depend only on the radius are spherical, potentials that depend only on `R` and `|z|` are axisymmetric -/
theorem C68_radial (f : ℝ → ℝ) (g : ℝ → ℝ → ℝ) :
    SymOk stSpherical (fun p => f √(p.x ^ 2 + p.y ^ 2 + p.z ^ 2)) ∧
    SymOk stAxisymmetric (fun p => g √(p.x ^ 2 + p.y ^ 2) (p.z ^ 2)) := by
  constructor
  · refine ⟨fun _ p => ?_, fun _ p => ?_, fun _ p => ?_, fun _ p => ?_, fun _ a p => ?_, fun _ o ho p => ?_⟩ <;> try simp only [neg_sq]
    · rw [turn_norm]; simp only [turnPos]
    · rw [rot_norm ho]
  · refine ⟨fun _ p => ?_, fun _ p => ?_, fun _ p => ?_, fun _ p => ?_, fun _ a p => ?_, fun c => absurd c (by decide)⟩ <;> try simp only [neg_sq]
    rw [turn_norm]; simp only [turnPos]

/-- C68, Miyamoto–Nagai (evaluated in Cartesian coordinates through the conversion to cylindrical) -/
theorem C68_miyamotoNagai (mass A B : ℝ) : SymOk stAxisymmetric (fun p => (miyamotoNagai mass A B (carToCyl p)).pot) := by
  have := (C68_radial (fun _ => 0) fun R z2 => -mass * √(1 / (R ^ 2 + (A + √(z2 + B ^ 2)) ^ 2))).2
  exact this

/-- C68, Kepler binary, at every time -/
theorem C68_keplerBinary (P : KBParams) (solve : ℝ → ℝ → ℝ) (t : ℝ) :
    SymOk (keplerBinarySym P) (fun p => (keplerBinary P (keplerOrbit P solve t) p).pot) := by
  classical
  unfold keplerBinarySym
  split_ifs with hc
  · have hs : (keplerOrbit P solve t).X0 = 0 ∧ (keplerOrbit P solve t).Y0 = 0 := by
      unfold keplerOrbit
      split_ifs with h
      · rcases hc with h0 | h0
        · exact absurd h0 h
        · simp [h0]
      · exact ⟨rfl, rfl⟩
    have e : ∀ p, (keplerBinary P (keplerOrbit P solve t) p).pot = 0 - P.mass * √(1 / (p.x ^ 2 + p.y ^ 2 + p.z ^ 2)) := by
      intro p
      have : ¬ (P.sma ≠ 0 ∧ P.q ≠ 0) := by tauto
      simp only [keplerBinary, if_neg this, addPointMass, zeroOut, hs.1, hs.2, sub_zero]
    simp only [e]
    have h := (C68_radial (fun r => 0 - P.mass * √(1 / r ^ 2)) fun _ _ => 0).1
    convert h using 2 with p
    rw [sq_sqrt (by positivity)]
  · refine ⟨?_, ?_, ?_, ?_, ?_, ?_⟩ <;> intro h <;> exact absurd h (by decide)

/-- the claims are not vacuous: tilting a triaxial potential leaves only the mirror symmetry, rotating it leaves the bisymmetry, adding a tilted
to an axisymmetric component leaves the mirror symmetry -/
example : tiltedSym stTriaxial = stRefl ∧ rotatingSym stTriaxial = stBisymmetric ∧ rotatingSym stAxisymmetric = stAxisymmetric ∧
    tiltedSym stSpherical = stSpherical ∧ compositeSym [stAxisymmetric, tiltedSym stTriaxial, stSpherical] = stRefl ∧
    evolvingSym [stAxisymmetric, stTriaxial] = stTriaxial ∧ isUnknown (evolvingSym [stAxisymmetric, stUnknown, stTriaxial]) = true ∧
    isUnknown (compositeSym [stAxisymmetric, stUnknown]) = true := by decide

/-- symmetry flags that the code drops are in general really absent: a tilted triaxial potential is not z-reflection-symmetric -/
theorem C68_tilted_dropped : ¬ ∀ p, (fun p => (harmonic 1 1 0.25 ((Orientation.ofEuler 0 (π / 4) 0).toRotPos p)).pot) ⟨p.x, p.y, -p.z⟩ =
    (fun p => (harmonic 1 1 0.25 ((Orientation.ofEuler 0 (π / 4) 0).toRotPos p)).pot) p := by
  intro h
  have := h ⟨0, 1, 1⟩
  simp only [harmonic, Orientation.toRotPos, Orientation.toRot, Orientation.ofEuler, sin_zero, cos_zero, sin_pi_div_four, cos_pi_div_four] at this
  have h2 : √(2 : ℝ) ^ 2 = 2 := sq_sqrt (by norm_num)
  norm_num at this
  nlinarith [this, h2]

/-! ## enclosed mass of the binary -/

open Classical in
/-- potential_analytic.h:178-179 -/
noncomputable def keplerBinaryEnclosed (P : KBParams) (radius : ℝ) : ℝ := if radius ≥ P.sma then P.mass else 0

open Classical in
/-- specification: total mass of the bodies within a given distance from the origin -/
noncomputable def massWithin (P : KBParams) (s : KBState) (radius : ℝ) : ℝ :=
  (if s.X0 ^ 2 + s.Y0 ^ 2 ≤ radius ^ 2 then P.mass / (1 + P.q) else 0) + (if s.X1 ^ 2 + s.Y1 ^ 2 ≤ radius ^ 2 then P.mass * P.q / (1 + P.q) else 0)

/-- the enclosed mass reported by the binary is wrong in both directions: for an equal-mass circular binary both bodies are always within 0.6 of
the semimajor axis but the reported mass is zero; for a vanishing secondary all mass is at the origin but the reported mass is zero at small
radii -/
theorem C66_enclosedMass_refuted :
    (∀ solve t, massWithin ⟨1, 1, 1, 0, 0⟩ (keplerOrbit ⟨1, 1, 1, 0, 0⟩ solve t) 0.6 = 1 ∧ keplerBinaryEnclosed ⟨1, 1, 1, 0, 0⟩ 0.6 = 0) ∧
    (∀ solve t, massWithin ⟨1, 0, 1, 0, 0⟩ (keplerOrbit ⟨1, 0, 1, 0, 0⟩ solve t) 0.6 = 1 ∧ keplerBinaryEnclosed ⟨1, 0, 1, 0, 0⟩ 0.6 = 0) := by
  constructor
  · intro solve t
    refine ⟨?_, by norm_num [keplerBinaryEnclosed]⟩
    have hsc := sin_sq_add_cos_sq (solve 0 (√(1 / 1 ^ 3) * t + 0))
    have h1 : (keplerOrbit ⟨1, 1, 1, 0, 0⟩ solve t).X1 ^ 2 + (keplerOrbit ⟨1, 1, 1, 0, 0⟩ solve t).Y1 ^ 2 = 1 / 4 := by
      simp only [keplerOrbit, ne_eq, one_ne_zero, not_false_eq_true, if_true, mul_zero, sub_zero, sqrt_one]
      linear_combination hsc / 4
    have h0 : (keplerOrbit ⟨1, 1, 1, 0, 0⟩ solve t).X0 ^ 2 + (keplerOrbit ⟨1, 1, 1, 0, 0⟩ solve t).Y0 ^ 2 = 1 / 4 := by
      simp only [keplerOrbit, ne_eq, one_ne_zero, not_false_eq_true, if_true, mul_zero, sub_zero, sqrt_one]
      linear_combination hsc / 4
    rw [massWithin, h0, h1]
    norm_num
  · intro solve t
    refine ⟨?_, by norm_num [keplerBinaryEnclosed]⟩
    have h0 : (keplerOrbit ⟨1, 0, 1, 0, 0⟩ solve t).X0 ^ 2 + (keplerOrbit ⟨1, 0, 1, 0, 0⟩ solve t).Y0 ^ 2 = 0 := by
      simp [keplerOrbit]
    rw [massWithin, h0]
    norm_num

end Verif.Pot
