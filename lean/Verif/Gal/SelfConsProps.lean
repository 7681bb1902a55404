import Verif.Gal.SelfCons
import Mathlib.Algebra.BigOperators.Group.List.Basic
import Mathlib.Algebra.BigOperators.Pi
import Mathlib.Algebra.Group.Hom.Defs
import Mathlib.Tactic

/-!
# C117: self-consistent modelling
-/
namespace Verif.Gal.SelfCons
noncomputable section

variable {X A : Type}

/-! ## specification -/

/-- the densities of the spheroidal components -/
def sph (cs : List (Comp X A)) : List (X → ℝ) := cs.filterMap (fun c => if c.disk then none else c.dens)
/-- the densities of the disky components -/
def dsk (cs : List (Comp X A)) : List (X → ℝ) := cs.filterMap (fun c => if c.disk then c.dens else none)
/-- the potentials of the components -/
def pots (cs : List (Comp X A)) : List (X → ℝ) := cs.filterMap (fun c => c.pot)

/-- a component after its update in the potential `p` with the action finder `a` -/
def refresh (p : X → ℝ) (a : A) (c : Comp X A) : Comp X A :=
  match c.recompute with
  | none => c
  | some f => { c with dens := f p a }

/-- the update of the component succeeds -/
def Updatable (p : X → ℝ) (a : A) (c : Comp X A) : Prop := ∀ f, c.recompute = some f → ∃ d, f p a = some d

open Classical in
/-- the store after all objects listed in `l` are updated with the same potential and action finder -/
def newHeap (p : X → ℝ) (a : A) (l : List ℕ) (h : ℕ → Comp X A) : ℕ → Comp X A :=
  fun i => if i ∈ l then refresh p a (h i) else h i

/-- the action finder, if there is one, is that of the total potential -/
def Consistent (mk : (X → ℝ) → Option A) (s : State X A) : Prop := ∀ a, s.af = some a → ∃ p, s.tp = some p ∧ mk p = some a

/-! ## the total potential -/

theorem sumF_eq (l : List (X → ℝ)) : sumF l = l.sum := by
  have : ∀ (l : List (X → ℝ)) (x : X) (z : ℝ), l.foldl (fun s f => s + f x) z = z + l.sum x := by
    intro l x
    induction l with
    | nil => intro z; simp
    | cons a t ih => intro z; rw [List.foldl_cons, ih, List.sum_cons, Pi.add_apply, add_assoc]
  funext x
  rw [sumF, this, zero_add]

theorem combine_nil : combine ([] : List (X → ℝ)) = none := rfl

theorem combine_some {l : List (X → ℝ)} (h : l ≠ []) : combine l = some l.sum := by
  unfold combine
  split_ifs with h1
  · rw [sumF_eq]
  · obtain ⟨a, t, rfl⟩ := List.exists_cons_of_ne_nil h
    have : t = [] := by
      cases t with
      | nil => rfl
      | cons b t => simp at h1
    subst this
    simp

/-- the expansion of a list of densities, if there are any -/
def expn (e : (X → ℝ) → Option (X → ℝ)) (l : List (X → ℝ)) : Option (List (X → ℝ)) :=
  open Classical in if l = [] then some [] else (e l.sum).map (fun p => [p])

theorem append_eq (e : (X → ℝ) → Option (X → ℝ)) (l q : List (X → ℝ)) :
    append e (combine l) q = (expn e l).map (fun t => q ++ t) := by
  unfold expn
  split_ifs with h
  · subst h; simp [combine_nil, append]
  · rw [combine_some h]
    unfold append
    cases h2 : e l.sum with
    | none => simp only [h2]; rfl
    | some p => simp only [h2]; rfl

theorem assemble_eq (mul cyl : (X → ℝ) → Option (X → ℝ)) (cs : List (Comp X A)) :
    assemble mul cyl cs = (expn mul (sph cs)).bind (fun a => (expn cyl (dsk cs)).bind (fun b =>
      open Classical in if pots cs = [] ∧ a = [] ∧ b = [] then none else some ((pots cs).sum + a.sum + b.sum))) := by
  unfold assemble
  simp only
  rw [append_eq]
  change (match (expn mul (sph cs)).map (fun t => pots cs ++ t) with
    | none => none
    | some q => match append cyl (combine (dsk cs)) q with
      | none => none
      | some q => if q.length = 0 then none else if q.length = 1 then q.head? else some (sumF q)) = _
  cases hm : expn mul (sph cs) with
  | none => rfl
  | some a =>
    simp only [Option.map_some, Option.bind_some]
    rw [append_eq]
    cases hc : expn cyl (dsk cs) with
    | none => rfl
    | some b =>
      simp only [Option.map_some, Option.bind_some]
      have key : ∀ q : List (X → ℝ), (if q.length = 0 then none else if q.length = 1 then q.head? else some (sumF q)) =
          (open Classical in if q = [] then none else some q.sum) := by
        intro q
        by_cases h : q = []
        · simp [h]
        · rw [if_neg (by simpa using h), if_neg h]
          obtain ⟨c, t, rfl⟩ := List.exists_cons_of_ne_nil h
          split_ifs with h1
          · have : t = [] := by simpa using h1
            subst this
            simp
          · rw [sumF_eq]
      rw [key]
      by_cases h : pots cs = [] ∧ a = [] ∧ b = []
      · obtain ⟨h1, h2, h3⟩ := h
        simp [h1, h2, h3]
      · rw [if_neg h, if_neg (by simpa [List.append_eq_nil_iff, and_assoc] using h), List.sum_append, List.sum_append]

theorem expn_sum {e : (X → ℝ) → Option (X → ℝ)} {G : (X → ℝ) →+ (X → ℝ)} (he : ∀ d p, e d = some p → p = G d)
    {l t : List (X → ℝ)} (h : expn e l = some t) : t.sum = G l.sum ∧ (t = [] ↔ l = []) := by
  unfold expn at h
  split_ifs at h with h1
  · cases h; subst h1; simp
  · rw [Option.map_eq_some_iff] at h
    obtain ⟨p, hp, rfl⟩ := h
    rw [he _ _ hp]
    simp [h1]

theorem filterMap_sum (cs : List (Comp X A)) (g : Comp X A → Option (X → ℝ)) :
    (cs.filterMap g).sum = (cs.map (fun c => (g c).getD 0)).sum := by
  induction cs with
  | nil => rfl
  | cons c t ih =>
    rw [List.filterMap_cons, List.map_cons, List.sum_cons]
    cases h : g c with
    | none => simp [ih]
    | some d => simp [ih]

/-- **C117** The total potential is the sum over the components of the given potentials and of the potentials generated by the
densities, each counted once, whichever expansion it goes into (if the expansions are exact). -/
theorem C117_potential (mul cyl : (X → ℝ) → Option (X → ℝ)) (G : (X → ℝ) →+ (X → ℝ)) (hmul : ∀ d p, mul d = some p → p = G d)
    (hcyl : ∀ d p, cyl d = some p → p = G d) (cs : List (Comp X A)) (p : X → ℝ) (h : assemble mul cyl cs = some p) :
    p = (cs.map (fun c => c.pot.getD 0 + G (c.dens.getD 0))).sum := by
  rw [assemble_eq, Option.bind_eq_some_iff] at h
  obtain ⟨a, ha, h⟩ := h
  rw [Option.bind_eq_some_iff] at h
  obtain ⟨b, hb, h⟩ := h
  split_ifs at h with h1
  rw [Option.some.injEq] at h
  rw [← h, (expn_sum hmul ha).1, (expn_sum hcyl hb).1, add_assoc, ← map_add]
  unfold sph dsk pots
  rw [filterMap_sum, filterMap_sum, filterMap_sum]
  clear h h1 ha hb
  induction cs with
  | nil => simp
  | cons c t ih =>
    simp only [List.map_cons, List.sum_cons]
    rw [← ih]
    cases hd : c.disk with
    | true => simp only [if_true, Option.getD_none, map_add]; simp only [map_zero]; abel
    | false => simp only [Bool.false_eq_true, if_false, Option.getD_none, map_add]; simp only [map_zero]; abel

/-- **C117** If the expansions cannot fail, there is a total potential unless no component has a density or a potential. -/
theorem C117_potential_exists (mul cyl : (X → ℝ) → Option (X → ℝ)) (hmul : ∀ d, (mul d).isSome) (hcyl : ∀ d, (cyl d).isSome)
    (cs : List (Comp X A)) :
    (assemble mul cyl cs).isSome ↔ ∃ c ∈ cs, c.dens ≠ none ∨ c.pot ≠ none := by
  have hx : ∀ (e : (X → ℝ) → Option (X → ℝ)), (∀ d, (e d).isSome) → ∀ l, ∃ t, expn e l = some t ∧ (t = [] ↔ l = []) := by
    intro e he l
    unfold expn
    split_ifs with h
    · exact ⟨[], rfl, by simp [h]⟩
    · obtain ⟨p, hp⟩ := Option.isSome_iff_exists.mp (he l.sum)
      exact ⟨[p], by rw [hp]; rfl, by simp [h]⟩
  obtain ⟨a, ha, ha'⟩ := hx mul hmul (sph cs)
  obtain ⟨b, hb, hb'⟩ := hx cyl hcyl (dsk cs)
  rw [assemble_eq, ha, Option.bind_some, hb, Option.bind_some]
  simp only [ha', hb']
  have hn : ∀ g : Comp X A → Option (X → ℝ), cs.filterMap g = [] ↔ ∀ c ∈ cs, g c = none := by
    intro g; rw [List.filterMap_eq_nil_iff]
  unfold pots sph dsk
  simp only [hn]
  split_ifs with h
  · simp only [Option.isSome_none, Bool.false_eq_true, false_iff]
    rintro ⟨c, hc, h1 | h1⟩
    · apply h1
      have e1 := h.2.1 c hc
      have e2 := h.2.2 c hc
      cases hd : c.disk with
      | true => simpa [hd] using e2
      | false => simpa [hd] using e1
    · exact h1 (h.1 c hc)
  · simp only [Option.isSome_some, true_iff]
    by_contra hno
    push Not at hno
    apply h
    refine ⟨fun c hc => (hno c hc).2, fun c hc => ?_, fun c hc => ?_⟩
    · rw [(hno c hc).1]; simp
    · rw [(hno c hc).1]; simp

theorem assemble_perm (mul cyl : (X → ℝ) → Option (X → ℝ)) {cs cs' : List (Comp X A)} (h : cs.Perm cs') :
    assemble mul cyl cs = assemble mul cyl cs' := by
  rw [assemble_eq, assemble_eq]
  have he : ∀ (e : (X → ℝ) → Option (X → ℝ)) (l l' : List (X → ℝ)), l.Perm l' → expn e l = expn e l' := by
    intro e l l' hp
    unfold expn
    have h1 : l = [] ↔ l' = [] := ⟨fun h => by subst h; exact hp.nil_eq.symm, fun h => by subst h; exact hp.eq_nil⟩
    rw [hp.sum_eq]
    by_cases h2 : l' = []
    · rw [if_pos h2, if_pos (h1.2 h2)]
    · rw [if_neg h2, if_neg (fun h => h2 (h1.1 h))]
  have h1 := he mul (sph cs) (sph cs') (h.filterMap _)
  have h2 := he cyl (dsk cs) (dsk cs') (h.filterMap _)
  have h3 : (pots cs).Perm (pots cs') := h.filterMap _
  have h4 : pots cs = [] ↔ pots cs' = [] := ⟨fun h => by rw [h] at h3; exact h3.nil_eq.symm, fun h => by rw [h] at h3; exact h3.eq_nil⟩
  simp only [h1, h2, h3.sum_eq, h4]

/-! ## the loop over components -/

theorem refresh_recompute (p : X → ℝ) (a : A) (c : Comp X A) : (refresh p a c).recompute = c.recompute := by
  unfold refresh
  cases h : c.recompute with
  | none => exact h
  | some f => rfl

theorem refresh_idem (p : X → ℝ) (a : A) (c : Comp X A) : refresh p a (refresh p a c) = refresh p a c := by
  cases h : c.recompute with
  | none =>
    have : refresh p a c = c := by unfold refresh; rw [h]
    rw [this, this]
  | some f =>
    have : refresh p a c = { c with dens := f p a } := by unfold refresh; rw [h]
    rw [this]
    unfold refresh
    simp only [h]

theorem newHeap_nil (p : X → ℝ) (a : A) (h : ℕ → Comp X A) : newHeap p a [] h = h := by
  funext i; simp [newHeap]

/-- the loop: either all components are updated in the same potential, or those before the first failing one are -/
theorem loop_spec (p : X → ℝ) (a : A) : ∀ (l : List ℕ) (s : State X A),
    ((∀ i ∈ l, Updatable p a (s.heap i)) ∧ updateLoop p a l s = ({ s with heap := newHeap p a l s.heap }, true)) ∨
    ∃ l1 i l2, l = l1 ++ i :: l2 ∧ (∀ j ∈ l1, Updatable p a (s.heap j)) ∧ ¬ Updatable p a (s.heap i) ∧
      updateLoop p a l s = ({ s with heap := newHeap p a l1 s.heap }, false)
  | [], s => Or.inl ⟨by simp, by rw [newHeap_nil]; rfl⟩
  | i :: t, s => by
    rcases hr : (s.heap i).recompute with _ | f
    · have e : updateLoop p a (i :: t) s = updateLoop p a t s := by
        rw [updateLoop]
        split
        · rfl
        · rename_i g h; rw [hr] at h; cases h
      rw [e]
      have hu : Updatable p a (s.heap i) := by intro f hf; rw [hr] at hf; cases hf
      have hre : refresh p a (s.heap i) = s.heap i := by unfold refresh; rw [hr]
      have hh : ∀ l, newHeap p a (i :: l) s.heap = newHeap p a l s.heap := by
        intro l; funext j
        unfold newHeap
        by_cases hj : j = i
        · subst hj; simp [hre]
        · simp [hj]
      rcases loop_spec p a t s with ⟨h1, h2⟩ | ⟨l1, j, l2, h1, h2, h3, h4⟩
      · left
        refine ⟨by simpa using ⟨hu, h1⟩, ?_⟩
        rw [h2, hh]
      · right
        refine ⟨i :: l1, j, l2, by rw [h1]; rfl, by simpa using ⟨hu, h2⟩, h3, ?_⟩
        rw [h4, hh]
    · rcases hf : f p a with _ | d
      · right
        refine ⟨[], i, t, rfl, by simp, ?_, ?_⟩
        swap
        · rw [newHeap_nil, updateLoop]
          split
          · rename_i h; rw [hr] at h; cases h
          · rename_i g h
            rw [hr] at h; cases h
            rw [hf]
        intro hu
        obtain ⟨d, hd⟩ := hu f hr
        rw [hf] at hd; cases hd
      · have hu : Updatable p a (s.heap i) := by
          intro g hg
          rw [hr] at hg; cases hg
          exact ⟨d, hf⟩
        have hre : refresh p a (s.heap i) = { s.heap i with dens := some d } := by unfold refresh; simp only [hr, hf]
        set s' : State X A := { s with heap := Function.update s.heap i { s.heap i with dens := some d } } with hs'
        have e : updateLoop p a (i :: t) s = updateLoop p a t s' := by
          rw [updateLoop]
          split
          · rename_i h; rw [hr] at h; cases h
          · rename_i g h
            rw [hr] at h; cases h
            rw [hf]
        rw [e]
        have hs'i : ∀ j, s'.heap j = if j = i then refresh p a (s.heap i) else s.heap j := by
          intro j
          rw [hre, hs']
          simp only [Function.update_apply]
        have hup : ∀ j, Updatable p a (s'.heap j) ↔ Updatable p a (s.heap j) := by
          intro j
          rw [hs'i]
          by_cases hj : j = i
          · subst hj
            rw [if_pos rfl]
            unfold Updatable
            rw [refresh_recompute]
          · rw [if_neg hj]
        have hh : ∀ l, newHeap p a l s'.heap = newHeap p a (i :: l) s.heap := by
          intro l; funext j
          unfold newHeap
          rw [hs'i]
          by_cases hj : j = i
          · subst hj
            simp [refresh_idem]
          · simp [hj]
        rcases loop_spec p a t s' with ⟨h1, h2⟩ | ⟨l1, j, l2, h1, h2, h3, h4⟩
        · left
          refine ⟨?_, ?_⟩
          · intro j hj
            rcases List.mem_cons.mp hj with rfl | hj
            · exact hu
            · exact (hup j).1 (h1 j hj)
          · rw [h2, hh]
        · right
          refine ⟨i :: l1, j, l2, by rw [h1]; rfl, ?_, fun h => h3 ((hup j).2 h), ?_⟩
          · intro k hk
            rcases List.mem_cons.mp hk with rfl | hk
            · exact hu
            · exact (hup k).1 (h2 k hk)
          · rw [h4, hh]

/-! ## one iteration -/

theorem total_spec (mul cyl : (X → ℝ) → Option (X → ℝ)) (mk : (X → ℝ) → Option A) (s : State X A) :
    (assemble mul cyl (s.comps.map s.heap) = none ∧ updateTotalPotential mul cyl mk s = (s, false)) ∨
    (∃ p, assemble mul cyl (s.comps.map s.heap) = some p ∧
      ((∃ a, mk p = some a ∧ updateTotalPotential mul cyl mk s = ({ s with tp := some p, af := some a }, true)) ∨
       (mk p = none ∧ updateTotalPotential mul cyl mk s = ({ s with tp := some p }, false)))) := by
  unfold updateTotalPotential updateActionFinder
  cases h : assemble mul cyl (s.comps.map s.heap) with
  | none => simp
  | some p =>
    right
    refine ⟨p, rfl, ?_⟩
    cases h2 : mk p with
    | none => simp [h2]
    | some a => simp [h2]

/-- what the loop and the final update do, starting from a potential `p` and an action finder `a` -/
theorem iter_spec (mul cyl : (X → ℝ) → Option (X → ℝ)) (mk : (X → ℝ) → Option A) (s : State X A) (p : X → ℝ) (a : A)
    (hp : s.tp = some p) (ha : s.af = some a) :
    ((∀ i ∈ s.comps, Updatable p a (s.heap i)) ∧
      doIteration mul cyl mk s = updateTotalPotential mul cyl mk { s with heap := newHeap p a s.comps s.heap }) ∨
    ∃ l1 i l2, s.comps = l1 ++ i :: l2 ∧ (∀ j ∈ l1, Updatable p a (s.heap j)) ∧ ¬ Updatable p a (s.heap i) ∧
      doIteration mul cyl mk s = ({ s with heap := newHeap p a l1 s.heap }, false) := by
  have e : doIteration mul cyl mk s = (if (updateLoop p a s.comps s).2 = false then updateLoop p a s.comps s else
      updateTotalPotential mul cyl mk (updateLoop p a s.comps s).1) := by
    unfold doIteration
    simp only [hp, ha]
    simp
  rw [e]
  rcases loop_spec p a s.comps s with ⟨h1, h2⟩ | ⟨l1, i, l2, h1, h2, h3, h4⟩
  · left
    refine ⟨h1, ?_⟩
    rw [h2]; simp
  · right
    refine ⟨l1, i, l2, h1, h2, h3, ?_⟩
    rw [h4]; simp

/-- **C117** An iteration that completes: all components are updated in the same potential with the same action finder (those of
the model at the beginning, or assembled from the initial densities if there were none), other objects are not touched, and
afterwards the total potential is that assembled from the updated components, and the action finder belongs to it. -/
theorem C117_iteration (mul cyl : (X → ℝ) → Option (X → ℝ)) (mk : (X → ℝ) → Option A) (s s' : State X A)
    (h : doIteration mul cyl mk s = (s', true)) :
    ∃ p a, (s.tp = some p ∨ s.tp = none ∧ assemble mul cyl (s.comps.map s.heap) = some p) ∧
      (s.tp ≠ none ∧ s.af = some a ∨ mk p = some a) ∧
      (∀ i ∈ s.comps, Updatable p a (s.heap i)) ∧
      s'.comps = s.comps ∧ (∀ i, s'.heap i = if i ∈ s.comps then refresh p a (s.heap i) else s.heap i) ∧
      ∃ p' a', assemble mul cyl (s.comps.map s'.heap) = some p' ∧ mk p' = some a' ∧ s'.tp = some p' ∧ s'.af = some a' := by
  have fin : ∀ (s1 : State X A) p a, s1.tp = some p → s1.af = some a → doIteration mul cyl mk s1 = (s', true) →
      (∀ i ∈ s1.comps, Updatable p a (s1.heap i)) ∧ s'.comps = s1.comps ∧
      (∀ i, s'.heap i = if i ∈ s1.comps then refresh p a (s1.heap i) else s1.heap i) ∧
      ∃ p' a', assemble mul cyl (s1.comps.map s'.heap) = some p' ∧ mk p' = some a' ∧ s'.tp = some p' ∧ s'.af = some a' := by
    intro s1 p a hp ha h1
    rcases iter_spec mul cyl mk s1 p a hp ha with ⟨hu, e⟩ | ⟨_, _, _, _, _, _, e⟩
    · rw [e] at h1
      rcases total_spec mul cyl mk { s1 with heap := newHeap p a s1.comps s1.heap } with ⟨_, e2⟩ | ⟨p', hp', ⟨a', ha', e2⟩ | ⟨_, e2⟩⟩
      · rw [e2] at h1; simp at h1
      · rw [e2] at h1
        simp only [Prod.mk.injEq, and_true] at h1
        subst h1
        refine ⟨hu, rfl, fun i => ?_, p', a', hp', ha', rfl, rfl⟩
        simp only [newHeap]
      · rw [e2] at h1; simp at h1
    · rw [e] at h1; simp at h1
  cases hp : s.tp with
  | some p =>
    cases ha : s.af with
    | some a =>
      obtain ⟨h1, h2, h3, h4⟩ := fin s p a hp ha h
      exact ⟨p, a, Or.inl rfl, Or.inl ⟨by simp, rfl⟩, h1, h2, h3, h4⟩
    | none =>
      cases hm : mk p with
      | none =>
        unfold doIteration updateActionFinder at h
        simp [hp, ha, hm] at h
      | some a =>
        have e : doIteration mul cyl mk s = doIteration mul cyl mk { s with af := some a } := by
          unfold doIteration updateActionFinder
          simp [hp, ha, hm]
        rw [e] at h
        obtain ⟨h1, h2, h3, h4⟩ := fin { s with af := some a } p a hp rfl h
        exact ⟨p, a, Or.inl rfl, Or.inr hm, h1, h2, h3, h4⟩
  | none =>
    rcases total_spec mul cyl mk s with ⟨_, e2⟩ | ⟨p, hp', ⟨a, ha', e2⟩ | ⟨_, e2⟩⟩
    · unfold doIteration at h; simp [hp, e2] at h
    · have e : doIteration mul cyl mk s = doIteration mul cyl mk { s with tp := some p, af := some a } := by
        conv_lhs => unfold doIteration
        conv_rhs => unfold doIteration
        simp [hp, e2]
      rw [e] at h
      obtain ⟨h1, h2, h3, h4⟩ := fin { s with tp := some p, af := some a } p a rfl rfl h
      exact ⟨p, a, Or.inr ⟨rfl, hp'⟩, Or.inr ha', h1, h2, h3, h4⟩
    · unfold doIteration at h; simp [hp, e2] at h

/-- **C117** When an iteration completes: with the potential and the action finder it starts from (created if they do not exist), all
components with a DF can be updated, a total potential can be assembled from the updated components, and an action finder exists
for it. -/
theorem C117_completes (mul cyl : (X → ℝ) → Option (X → ℝ)) (mk : (X → ℝ) → Option A) (s : State X A) :
    (doIteration mul cyl mk s).2 = true ↔
      ∃ p a, (s.tp = some p ∧ s.af = some a ∨ s.tp = some p ∧ s.af = none ∧ mk p = some a ∨
          s.tp = none ∧ assemble mul cyl (s.comps.map s.heap) = some p ∧ mk p = some a) ∧
        (∀ i ∈ s.comps, Updatable p a (s.heap i)) ∧
        ∃ p', assemble mul cyl (s.comps.map (fun i => refresh p a (s.heap i))) = some p' ∧ mk p' ≠ none := by
  have core : ∀ (s1 : State X A) p a, s1.tp = some p → s1.af = some a → ((doIteration mul cyl mk s1).2 = true ↔
      (∀ i ∈ s1.comps, Updatable p a (s1.heap i)) ∧
        ∃ p', assemble mul cyl (s1.comps.map (fun i => refresh p a (s1.heap i))) = some p' ∧ mk p' ≠ none) := by
    intro s1 p a hp ha
    have hm : s1.comps.map (newHeap p a s1.comps s1.heap) = s1.comps.map (fun i => refresh p a (s1.heap i)) := by
      apply List.map_congr_left
      intro i hi
      unfold newHeap
      rw [if_pos hi]
    rcases iter_spec mul cyl mk s1 p a hp ha with ⟨hu, e⟩ | ⟨l1, i, l2, hl, _, hn, e⟩
    · rw [e]
      rcases total_spec mul cyl mk { s1 with heap := newHeap p a s1.comps s1.heap } with ⟨h0, e2⟩ | ⟨p', hp', ⟨a', ha', e2⟩ | ⟨h0, e2⟩⟩
      · simp only [hm] at h0
        rw [e2]; simp [h0]
      · simp only [hm] at hp'
        rw [e2]; simp only [true_iff]
        exact ⟨hu, p', hp', by rw [ha']; simp⟩
      · simp only [hm] at hp'
        rw [e2]; simp only [Bool.false_eq_true, false_iff]
        rintro ⟨-, q, hq, hq'⟩
        rw [hp'] at hq; cases hq
        exact hq' h0
    · rw [e]
      simp only [Bool.false_eq_true, false_iff]
      rintro ⟨h, -⟩
      exact hn (h i (by rw [hl]; simp))
  obtain ⟨o, hp⟩ : ∃ o, s.tp = o := ⟨_, rfl⟩
  obtain ⟨o', ha⟩ : ∃ o, s.af = o := ⟨_, rfl⟩
  cases o with
  | some p =>
    cases o' with
    | some a =>
      rw [core s p a hp ha]
      constructor
      · rintro ⟨h1, h2⟩; exact ⟨p, a, Or.inl ⟨hp, ha⟩, h1, h2⟩
      · rintro ⟨q, b, (⟨h1, h2⟩ | ⟨h1, h2, -⟩ | ⟨h1, -⟩), h3⟩
        · rw [hp] at h1; rw [ha] at h2; cases h1; cases h2; exact h3
        · rw [ha] at h2; cases h2
        · rw [hp] at h1; cases h1
    | none =>
      cases hm : mk p with
      | none =>
        have : (doIteration mul cyl mk s).2 = false := by
          unfold doIteration updateActionFinder
          simp [hp, ha, hm]
        rw [this]; simp only [Bool.false_eq_true, false_iff]
        rintro ⟨q, b, (⟨h1, h2⟩ | ⟨h1, h2, h3⟩ | ⟨h1, -⟩), -⟩
        · rw [ha] at h2; cases h2
        · rw [hp] at h1; cases h1; rw [hm] at h3; cases h3
        · rw [hp] at h1; cases h1
      | some a =>
        have e : doIteration mul cyl mk s = doIteration mul cyl mk { s with af := some a } := by
          unfold doIteration updateActionFinder
          simp [hp, ha, hm]
        rw [e, core { s with af := some a } p a hp rfl]
        constructor
        · rintro ⟨h1, h2⟩; exact ⟨p, a, Or.inr (Or.inl ⟨hp, ha, hm⟩), h1, h2⟩
        · rintro ⟨q, b, (⟨h1, h2⟩ | ⟨h1, h2, h3⟩ | ⟨h1, -⟩), h4⟩
          · rw [ha] at h2; cases h2
          · rw [hp] at h1; cases h1; rw [hm] at h3; cases h3; exact h4
          · rw [hp] at h1; cases h1
  | none =>
    rcases total_spec mul cyl mk s with ⟨h0, e2⟩ | ⟨p, hp', ⟨a, ha', e2⟩ | ⟨h0, e2⟩⟩
    · have : (doIteration mul cyl mk s).2 = false := by unfold doIteration; simp [hp, e2]
      rw [this]; simp only [Bool.false_eq_true, false_iff]
      rintro ⟨q, b, (⟨h1, h2⟩ | ⟨h1, h2, h3⟩ | ⟨h1, h2, h3⟩), -⟩
      · rw [hp] at h1; cases h1
      · rw [hp] at h1; cases h1
      · rw [h0] at h2; cases h2
    · have e : doIteration mul cyl mk s = doIteration mul cyl mk { s with tp := some p, af := some a } := by
        conv_lhs => unfold doIteration
        conv_rhs => unfold doIteration
        simp [hp, e2]
      rw [e, core { s with tp := some p, af := some a } p a rfl rfl]
      constructor
      · rintro ⟨h1, h2⟩; exact ⟨p, a, Or.inr (Or.inr ⟨hp, hp', ha'⟩), h1, h2⟩
      · rintro ⟨q, b, (⟨h1, h2⟩ | ⟨h1, h2, h3⟩ | ⟨h1, h2, h3⟩), h4⟩
        · rw [hp] at h1; cases h1
        · rw [hp] at h1; cases h1
        · rw [hp'] at h2; cases h2; rw [ha'] at h3; cases h3; exact h4
    · have : (doIteration mul cyl mk s).2 = false := by unfold doIteration; simp [hp, e2]
      rw [this]; simp only [Bool.false_eq_true, false_iff]
      rintro ⟨q, b, (⟨h1, h2⟩ | ⟨h1, h2, h3⟩ | ⟨h1, h2, h3⟩), -⟩
      · rw [hp] at h1; cases h1
      · rw [hp] at h1; cases h1
      · rw [hp'] at h2; cases h2; rw [h0] at h3; cases h3

/-- **C117** An iteration that throws: the list of components is unchanged; the objects updated are those before some element of the list,
in the old potential; potential and action finder are the old ones, except if it is the creation of the
action finder that fails: then the potential is already the new one. -/
theorem C117_failure (mul cyl : (X → ℝ) → Option (X → ℝ)) (mk : (X → ℝ) → Option A) (s s' : State X A) (p : X → ℝ) (a : A)
    (hp : s.tp = some p) (ha : s.af = some a) (h : doIteration mul cyl mk s = (s', false)) :
    s'.comps = s.comps ∧ s'.af = some a ∧ ∃ l1 l2, s.comps = l1 ++ l2 ∧
      (∀ i, s'.heap i = if i ∈ l1 then refresh p a (s.heap i) else s.heap i) ∧
      (s'.tp = some p ∨ l2 = [] ∧ ∃ p', assemble mul cyl (s.comps.map s'.heap) = some p' ∧ s'.tp = some p' ∧ mk p' = none) := by
  rcases iter_spec mul cyl mk s p a hp ha with ⟨hu, e⟩ | ⟨l1, i, l2, hl, _, _, e⟩
  · rw [e] at h
    rcases total_spec mul cyl mk { s with heap := newHeap p a s.comps s.heap } with ⟨_, e2⟩ | ⟨p', hp', ⟨a', ha', e2⟩ | ⟨hm, e2⟩⟩
    · rw [e2] at h
      simp only [Prod.mk.injEq, and_true] at h
      subst h
      exact ⟨rfl, ha, s.comps, [], by simp, fun i => by simp only [newHeap], Or.inl hp⟩
    · rw [e2] at h; simp at h
    · rw [e2] at h
      simp only [Prod.mk.injEq, and_true] at h
      subst h
      exact ⟨rfl, ha, s.comps, [], by simp, fun i => by simp only [newHeap], Or.inr ⟨rfl, p', hp', rfl, hm⟩⟩
  · rw [e] at h
    simp only [Prod.mk.injEq, and_true] at h
    subst h
    exact ⟨rfl, ha, l1, i :: l2, hl, fun i => by simp only [newHeap], Or.inl hp⟩

/-- **C117** The order of the components does not matter for an iteration that completes. -/
theorem C117_order (mul cyl : (X → ℝ) → Option (X → ℝ)) (mk : (X → ℝ) → Option A) (s s' : State X A) (l : List ℕ)
    (hl : l.Perm s.comps) (h : doIteration mul cyl mk s = (s', true)) :
    doIteration mul cyl mk { s with comps := l } = ({ s' with comps := l }, true) := by
  have step : ∀ (s1 : State X A) p a, s1.comps = s.comps → s1.tp = some p → s1.af = some a →
      doIteration mul cyl mk s1 = (s', true) → doIteration mul cyl mk { s1 with comps := l } = ({ s' with comps := l }, true) := by
    intro s1 p a hc hp ha h1
    rcases iter_spec mul cyl mk s1 p a hp ha with ⟨hu, e⟩ | ⟨_, _, _, _, _, _, e⟩
    swap
    · rw [e] at h1; simp at h1
    rcases iter_spec mul cyl mk { s1 with comps := l } p a hp ha with ⟨hu', e'⟩ | ⟨l1, i, l2, hl1, _, hn, e'⟩
    swap
    · exact absurd (hu i (by rw [hc]; apply hl.mem_iff.mp; simp only at hl1; rw [hl1]; simp)) hn
    have hh : newHeap p a l s1.heap = newHeap p a s1.comps s1.heap := by
      funext i
      unfold newHeap
      rw [hc]
      simp only [hl.mem_iff]
    rw [e']
    simp only
    rw [hh]
    rw [e] at h1
    have hperm : (l.map (newHeap p a s1.comps s1.heap)).Perm (s1.comps.map (newHeap p a s1.comps s1.heap)) := by
      rw [hc]; exact hl.map _
    rcases total_spec mul cyl mk { s1 with heap := newHeap p a s1.comps s1.heap } with ⟨_, e2⟩ | ⟨p', hp', ⟨a', ha', e2⟩ | ⟨_, e2⟩⟩
    · rw [e2] at h1; simp at h1
    · rw [e2] at h1
      simp only [Prod.mk.injEq, and_true] at h1
      subst h1
      simp only at hp'
      unfold updateTotalPotential updateActionFinder
      simp only
      rw [assemble_perm mul cyl hperm, hp']
      simp only [ha']
    · rw [e2] at h1; simp at h1
  obtain ⟨o, hp⟩ : ∃ o, s.tp = o := ⟨_, rfl⟩
  obtain ⟨o', ha⟩ : ∃ o, s.af = o := ⟨_, rfl⟩
  cases o with
  | some p =>
    cases o' with
    | some a => exact step s p a rfl hp ha h
    | none =>
      cases hm : mk p with
      | none =>
        unfold doIteration updateActionFinder at h
        simp [hp, ha, hm] at h
      | some a =>
        have e : ∀ l, doIteration mul cyl mk { s with comps := l } = doIteration mul cyl mk { s with comps := l, af := some a } := by
          intro l
          unfold doIteration updateActionFinder
          simp [hp, ha, hm]
        have h' := step { s with af := some a } p a rfl hp rfl ((e s.comps).symm.trans h)
        rw [e]; exact h'
  | none =>
    rcases total_spec mul cyl mk s with ⟨_, e2⟩ | ⟨p, hp', ⟨a, ha', e2⟩ | ⟨_, e2⟩⟩
    · unfold doIteration at h; simp [hp, e2] at h
    · have e : ∀ l' : List ℕ, l'.Perm s.comps →
          doIteration mul cyl mk { s with comps := l' } = doIteration mul cyl mk { s with comps := l', tp := some p, af := some a } := by
        intro l' hl'
        have e3 : updateTotalPotential mul cyl mk { s with comps := l' } = ({ s with comps := l', tp := some p, af := some a }, true) := by
          unfold updateTotalPotential updateActionFinder
          simp only
          rw [assemble_perm mul cyl (hl'.map s.heap), hp']
          simp only [ha']
        rw [hp] at e3 ⊢
        conv_lhs => unfold doIteration
        conv_rhs => unfold doIteration
        simp [e3]
      have h' := step { s with tp := some p, af := some a } p a rfl rfl rfl ((e s.comps (List.Perm.refl _)).symm.trans h)
      rw [e l hl]; exact h'
    · unfold doIteration at h; simp [hp, e2] at h

/-- **C117** A model is unchanged by an iteration iff it is self-consistent: each density is that computed from the DF in the
total potential, which is the one assembled from these densities. -/
theorem C117_fixed (mul cyl : (X → ℝ) → Option (X → ℝ)) (mk : (X → ℝ) → Option A) (s : State X A) (p : X → ℝ) (a : A)
    (hp : s.tp = some p) (ha : s.af = some a) :
    doIteration mul cyl mk s = (s, true) ↔
      (∀ i ∈ s.comps, ∀ f, (s.heap i).recompute = some f → ∃ d, f p a = some d ∧ (s.heap i).dens = some d) ∧
      assemble mul cyl (s.comps.map s.heap) = some p ∧ mk p = some a := by
  have hre : ∀ c : Comp X A, Updatable p a c → (refresh p a c = c ↔ ∀ f, c.recompute = some f → ∃ d, f p a = some d ∧ c.dens = some d) := by
    intro c hu
    unfold refresh
    cases hr : c.recompute with
    | none => simp
    | some f =>
      obtain ⟨d, hd⟩ := hu f hr
      simp only [Option.some.injEq, forall_eq']
      rw [hd]
      constructor
      · intro h; exact ⟨d, rfl, by rw [← h]⟩
      · rintro ⟨d', h1, h2⟩
        cases h1
        rw [← h2, ← hr]
  constructor
  · intro h
    obtain ⟨q, b, h1, h2, h3, h4, h5, p', a', h6, h7, h8, h9⟩ := C117_iteration mul cyl mk s s h
    obtain rfl : q = p := by
      rcases h1 with h1 | ⟨h1, -⟩
      · rw [hp] at h1; exact (Option.some.inj h1).symm
      · rw [hp] at h1; cases h1
    rw [hp, Option.some.injEq] at h8
    rw [ha, Option.some.injEq] at h9
    subst h8 h9
    obtain rfl : b = a := by
      rcases h2 with ⟨-, h2⟩ | h2
      · rw [ha] at h2; exact (Option.some.inj h2).symm
      · rw [h7] at h2; exact (Option.some.inj h2).symm
    refine ⟨?_, h6, h7⟩
    intro i hi
    have := h5 i
    rw [if_pos hi] at this
    exact (hre _ (h3 i hi)).1 this.symm
  · rintro ⟨h1, h2, h3⟩
    have hu : ∀ i ∈ s.comps, Updatable p a (s.heap i) := fun i hi f hf => by obtain ⟨d, hd, -⟩ := h1 i hi f hf; exact ⟨d, hd⟩
    have hh : newHeap p a s.comps s.heap = s.heap := by
      funext i
      unfold newHeap
      split_ifs with hi
      · exact (hre _ (hu i hi)).2 (h1 i hi)
      · rfl
    rcases iter_spec mul cyl mk s p a hp ha with ⟨-, e⟩ | ⟨l1, i, l2, hl, _, hn, e⟩
    · rw [e, hh]
      unfold updateTotalPotential updateActionFinder
      simp only [h2, h3]
      rw [← hp, ← ha]
    · exact absurd (hu i (by rw [hl]; simp)) hn

/-! ## histories -/

/-- what a user may do: iterate, update the potential, or change the components (not the potential and action finder) -/
inductive Op (X A : Type) where
  | iterate
  | total
  | edit (heap : ℕ → Comp X A) (comps : List ℕ)

/-- the state after an operation, whether or not it throws -/
def run1 (mul cyl : (X → ℝ) → Option (X → ℝ)) (mk : (X → ℝ) → Option A) (s : State X A) : Op X A → State X A
  | .iterate => (doIteration mul cyl mk s).1
  | .total => (updateTotalPotential mul cyl mk s).1
  | .edit heap comps => { s with heap := heap, comps := comps }

/-- the state after a history -/
def run (mul cyl : (X → ℝ) → Option (X → ℝ)) (mk : (X → ℝ) → Option A) (s : State X A) (l : List (Op X A)) : State X A :=
  l.foldl (run1 mul cyl mk) s

theorem consistent_total (mul cyl : (X → ℝ) → Option (X → ℝ)) (mk : (X → ℝ) → Option A) (hmk : ∀ p, mk p ≠ none) (s : State X A)
    (hs : Consistent mk s) : Consistent mk (updateTotalPotential mul cyl mk s).1 := by
  rcases total_spec mul cyl mk s with ⟨_, e2⟩ | ⟨p, hp', ⟨a, ha', e2⟩ | ⟨hm, _⟩⟩
  · rw [e2]; exact hs
  · rw [e2]; intro b hb
    simp only [Option.some.injEq] at hb
    subst hb
    exact ⟨p, rfl, ha'⟩
  · exact absurd hm (hmk p)

/-- **C117** As long as an action finder can be created for each potential, after any history of iterations, updates and changes of the
components, including those ended by exceptions, the action finder of the model is that of its total potential. -/
theorem C117_consistent_partial (mul cyl : (X → ℝ) → Option (X → ℝ)) (mk : (X → ℝ) → Option A) (hmk : ∀ p, mk p ≠ none)
    (s : State X A) (hs : Consistent mk s) (l : List (Op X A)) : Consistent mk (run mul cyl mk s l) := by
  induction l generalizing s with
  | nil => exact hs
  | cons o t ih =>
    apply ih
    cases o with
    | edit heap comps => exact hs
    | total => exact consistent_total mul cyl mk hmk s hs
    | iterate =>
      have step : ∀ (s1 : State X A) p a, s1.tp = some p → s1.af = some a → Consistent mk s1 → Consistent mk (doIteration mul cyl mk s1).1 := by
        intro s1 p a hp ha h1
        rcases iter_spec mul cyl mk s1 p a hp ha with ⟨hu, e⟩ | ⟨l1, i, l2, hl, _, _, e⟩
        · rw [e]; exact consistent_total mul cyl mk hmk _ h1
        · rw [e]; exact h1
      change Consistent mk (doIteration mul cyl mk s).1
      cases hp : s.tp with
      | some p =>
        cases ha : s.af with
        | some a => exact step s p a hp ha hs
        | none =>
          cases hm : mk p with
          | none => exact absurd hm (hmk p)
          | some a =>
            have e : doIteration mul cyl mk s = doIteration mul cyl mk { s with af := some a } := by
              unfold doIteration updateActionFinder
              simp [hp, ha, hm]
            rw [e]
            refine step { s with af := some a } p a hp rfl ?_
            intro b hb
            simp only [Option.some.injEq] at hb
            subst hb
            exact ⟨p, hp, hm⟩
      | none =>
        rcases total_spec mul cyl mk s with ⟨_, e2⟩ | ⟨p, hp', ⟨a, ha', e2⟩ | ⟨hm, _⟩⟩
        · have : doIteration mul cyl mk s = (s, false) := by unfold doIteration; simp [hp, e2]
          rw [this]; exact hs
        · have e : doIteration mul cyl mk s = doIteration mul cyl mk { s with tp := some p, af := some a } := by
            conv_lhs => unfold doIteration
            conv_rhs => unfold doIteration
            simp [hp, e2]
          rw [e]
          refine step { s with tp := some p, af := some a } p a rfl rfl ?_
          intro b hb
          simp only [Option.some.injEq] at hb
          subst hb
          exact ⟨p, rfl, ha'⟩
        · exact absurd hm (hmk p)

/-- the objects of the counterexample: two static densities and a component with a DF whose density is the value of the action finder -/
def cexHeap : ℕ → Comp Unit ℝ
  | 0 => ⟨false, some 1, none, none⟩
  | 1 => ⟨false, some 10, none, none⟩
  | _ => ⟨false, some 1, none, some (fun _ a => some (fun _ => a))⟩

/-- an action finder is the value of the potential; it cannot be created above 5 -/
def cexMk (p : Unit → ℝ) : Option ℝ := open Classical in if p () > 5 then none else some (p ())

/-- **C117** What fails: if the action finder cannot be created for the new potential, the model keeps the action finder of the
previous one, and the next iteration completes using this pair: starting from an empty model, after two updates, of which the second
one throws, the state is inconsistent, and the iteration with a component having a DF computes its density with the
stale action finder (value 1) in a potential (11) for which none can be created. -/
theorem C117_refuted_stale :
    let s := run some some cexMk ⟨cexHeap, [0], none, none⟩ [.total, .edit cexHeap [0, 1], .total, .edit cexHeap [2]]
    ¬ Consistent cexMk s ∧ s.tp = some (fun _ => 11) ∧ s.af = some 1 ∧ cexMk (fun _ => 11) = none ∧
    ∃ s', doIteration some some cexMk s = (s', true) ∧ (s'.heap 2).dens = some (fun _ => 1) := by
  have m1 : cexMk (fun _ => 1) = some 1 := by unfold cexMk; rw [if_neg (by norm_num)]
  have m11 : cexMk (fun _ => 11) = none := by unfold cexMk; rw [if_pos (by norm_num)]
  have a1 : assemble (A := ℝ) some some ([0].map cexHeap) = some (fun _ => 1) := by
    simp [assemble, cexHeap, combine, append]; rfl
  have a2 : assemble (A := ℝ) some some ([0, 1].map cexHeap) = some (fun _ => 11) := by
    simp [assemble, cexHeap, combine, append]
    funext x
    simp [sumF]
    norm_num
  have hs : run some some cexMk ⟨cexHeap, [0], none, none⟩ [.total, .edit cexHeap [0, 1], .total, .edit cexHeap [2]] =
      ⟨cexHeap, [2], some (fun _ => 11), some 1⟩ := by
    simp only [run, List.foldl_cons, List.foldl_nil, run1, updateTotalPotential, updateActionFinder, a1, m1, a2, m11]
  intro s
  have e : s = ⟨cexHeap, [2], some (fun _ => 11), some 1⟩ := hs
  rw [e]
  refine ⟨?_, rfl, rfl, m11, ?_⟩
  · intro h
    obtain ⟨p, hp, hm⟩ := h 1 rfl
    simp only [Option.some.injEq] at hp
    subst hp
    rw [m11] at hm; cases hm
  · set h' : ℕ → Comp Unit ℝ := Function.update cexHeap 2 ⟨false, some (fun _ => 1), none, some (fun _ a => some (fun _ => a))⟩ with hh'
    have a3 : assemble (A := ℝ) some some ([2].map h') = some (fun _ => 1) := by
      simp [assemble, hh', combine, append]
    refine ⟨⟨h', [2], some (fun _ => 1), some 1⟩, ?_, by simp [hh']⟩
    have hl : updateLoop (fun _ => (11 : ℝ)) (1 : ℝ) [2] ⟨cexHeap, [2], some (fun _ => 11), some 1⟩ =
        (⟨h', [2], some (fun _ => 11), some 1⟩, true) := by
      simp only [updateLoop, cexHeap, hh']
    unfold doIteration
    simp only [hl]
    simp only [updateTotalPotential, updateActionFinder, a3, m1, Bool.true_eq_false, if_false]

/-! ## examples -/

/-- a self-consistent model: the hypotheses of `C117_fixed`, `C117_iteration` and `C117_order` are met -/
example : doIteration (X := Unit) (A := ℝ) some some cexMk ⟨cexHeap, [2], some 1, some 1⟩ =
    (⟨cexHeap, [2], some 1, some 1⟩, true) := by
  apply (C117_fixed some some cexMk _ 1 1 rfl rfl).2
  refine ⟨?_, ?_, ?_⟩
  · intro i hi f hf
    simp only [List.mem_singleton] at hi
    subst hi
    simp only [cexHeap, Option.some.injEq] at hf
    subst hf
    exact ⟨_, rfl, rfl⟩
  · simp [assemble, cexHeap, combine, append]
  · unfold cexMk; rw [if_neg (by simp only [Pi.one_apply]; norm_num)]; rfl

/-- the hypotheses of `C117_consistent_partial` are met by the empty model and an action finder which always exists -/
example : Consistent (X := Unit) (A := ℝ) (fun p => some (p ())) ⟨cexHeap, [], none, none⟩ ∧
    ∀ p : Unit → ℝ, (fun p : Unit → ℝ => some (p ())) p ≠ none := by
  exact ⟨fun a h => by (cases h), fun p => by simp⟩

end
end Verif.Gal.SelfCons
