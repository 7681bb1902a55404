import Verif.DF.Scaling
import Mathlib.Algebra.BigOperators.Intervals

/-! # C99: several distribution functions combined into one -/

namespace Verif.DF

open Finset

/-- assignment in a loop over points -/
theorem fold_set {α : Type} (k : ℕ → ℕ) (hk : Function.Injective k) (f : ℕ → α → α) (v : ℕ → α) (n i : ℕ) :
    ((List.range n).foldl (fun v p => Function.update v (k p) (f p (v (k p)))) v) i = if ∃ p < n, k p = i then (fun p => f p (v i)) (Function.invFun k i) else v i := by
  induction n with
  | zero => simp
  | succ n ih =>
    rw [List.range_succ, List.foldl_append, List.foldl_cons, List.foldl_nil]
    by_cases h : k n = i
    · subst h
      rw [Function.update_self, ih, if_neg, if_pos ⟨n, Nat.lt_succ_self n, rfl⟩, Function.leftInverse_invFun hk n]
      rintro ⟨p, hp, e⟩
      exact absurd (hk e) hp.ne
    · rw [Function.update_of_ne (Ne.symm h), ih]
      by_cases c : ∃ p < n, k p = i
      · rw [if_pos c, if_pos (by obtain ⟨p, hp, e⟩ := c; exact ⟨p, by omega, e⟩)]
      · rw [if_neg c, if_neg]
        rintro ⟨p, hp, e⟩
        rcases Nat.lt_succ_iff_lt_or_eq.mp hp with q | q
        · exact c ⟨p, q, e⟩
        · exact h (q ▸ e)

theorem fold_set_at {α : Type} (k : ℕ → ℕ) (hk : Function.Injective k) (f : ℕ → α → α) (v : ℕ → α) {n p : ℕ} (hp : p < n) :
    ((List.range n).foldl (fun v p => Function.update v (k p) (f p (v (k p)))) v) (k p) = f p (v (k p)) := by
  rw [fold_set k hk, if_pos ⟨p, hp, rfl⟩, Function.leftInverse_invFun hk p]

theorem fold_set_ne {α : Type} (k : ℕ → ℕ) (hk : Function.Injective k) (f : ℕ → α → α) (v : ℕ → α) {n i : ℕ} (h : ∀ p < n, k p ≠ i) :
    ((List.range n).foldl (fun v p => Function.update v (k p) (f p (v (k p)))) v) i = v i := by
  rw [fold_set k hk, if_neg (by rintro ⟨p, hp, e⟩; exact h p hp e)]

theorem kinj {m : ℕ} (hm : 0 < m) (c : ℕ) : Function.Injective fun p => p * m + c := by
  intro a b h
  exact Nat.eq_of_mul_eq_mul_right hm (by simpa using h)

section
variable {α : Type} [AddCommMonoid α]

theorem sep_fold (npoints ncomp : ℕ) (hm : 0 < ncomp) (comp : ℕ → ℕ → α) (v : ℕ → α) (m : ℕ) (hmn : m ≤ ncomp) :
    let r := (List.range m).foldl (fun values c => compositeStep npoints ncomp true c (comp c) values) v
    (∀ p < npoints, ∀ c < m, r (p * ncomp + c) = comp c p) ∧ (∀ i, npoints * ncomp ≤ i → r i = v i) := by
  induction m with
  | zero => simp
  | succ m ih =>
    obtain ⟨h1, h2⟩ := ih (by omega)
    simp only at h1 h2 ⊢
    rw [List.range_succ, List.foldl_append, List.foldl_cons, List.foldl_nil]
    set r := (List.range m).foldl (fun values c => compositeStep npoints ncomp true c (comp c) values) v
    have e : compositeStep npoints ncomp true m (comp m) r = (List.range npoints).foldl (fun v p => Function.update v ((fun p => p * ncomp + m) p) ((fun p _ => comp m p) p (v ((fun p => p * ncomp + m) p)))) r := rfl
    rw [e]
    refine ⟨fun p hp c hc => ?_, fun i hi => ?_⟩
    · by_cases q : c = m
      · subst q
        exact fold_set_at (fun p => p * ncomp + c) (kinj hm c) (fun p _ => comp c p) r hp
      · refine (fold_set_ne _ (kinj hm m) (fun p _ => comp m p) _ ?_).trans (h1 p hp c (by omega))
        · intro p' _ h
          have : (p' * ncomp + m) % ncomp = (p * ncomp + c) % ncomp := by rw [h]
          rw [Nat.mul_add_mod_self_right, Nat.mul_add_mod_self_right, Nat.mod_eq_of_lt (by omega), Nat.mod_eq_of_lt (by omega)] at this
          exact q this.symm
    · refine (fold_set_ne _ (kinj hm m) (fun p _ => comp m p) _ ?_).trans (h2 i hi)
      · intro p hp h
        have : (p + 1) * ncomp ≤ npoints * ncomp := Nat.mul_le_mul_right _ hp
        rw [Nat.add_mul] at this
        omega

/-- C99 (composite, separate): the value of each component at each point is stored in its own place (contiguously for each point), and nothing else is written. -/
theorem C99_composite_separate (npoints ncomp : ℕ) (hm : 0 < ncomp) (comp : ℕ → ℕ → α) (values : ℕ → α) :
    (∀ p < npoints, ∀ c < ncomp, compositeMany npoints ncomp true comp values (p * ncomp + c) = comp c p) ∧
      (∀ i, npoints * ncomp ≤ i → compositeMany npoints ncomp true comp values i = values i) := by
  rw [compositeMany]
  by_cases h : ncomp = 1
  · subst h
    rw [if_pos rfl]
    refine ⟨fun p hp c hc => ?_, fun i hi => ?_⟩
    · obtain rfl : c = 0 := by omega
      have := fold_set_at (fun p => p) Function.injective_id (fun p _ => comp 0 p) values hp
      simpa using this
    · have := fold_set_ne (fun p => p) Function.injective_id (fun p _ => comp 0 p) values (n := npoints) (i := i) (by intro p hp; omega)
      simpa using this
  · rw [if_neg h]
    have := sep_fold npoints ncomp hm comp values ncomp le_rfl
    simpa using this

theorem sum_fold (npoints ncomp : ℕ) (comp : ℕ → ℕ → α) (v : ℕ → α) (m i : ℕ) :
    ((List.range m).foldl (fun values c => compositeStep npoints ncomp false c (comp c) values) v) i = if i < npoints then v i + ∑ c ∈ range m, comp c i else v i := by
  induction m with
  | zero => simp
  | succ m ih =>
    rw [List.range_succ, List.foldl_append, List.foldl_cons, List.foldl_nil]
    set r := (List.range m).foldl (fun values c => compositeStep npoints ncomp false c (comp c) values) v
    have e : compositeStep npoints ncomp false m (comp m) r = (List.range npoints).foldl (fun v p => Function.update v ((fun p => p) p) ((fun p q => q + comp m p) p (v ((fun p => p) p)))) r := rfl
    rw [e]
    by_cases h : i < npoints
    · rw [if_pos h]
      have := fold_set_at (fun p => p) Function.injective_id (fun p q => q + comp m p) r h
      refine this.trans ?_
      rw [ih, if_pos h, sum_range_succ, add_assoc]
    · rw [if_neg h]
      refine (fold_set_ne (fun p => p) Function.injective_id (fun p q => q + comp m p) _ (by intro p hp; omega)).trans ?_
      rw [ih, if_neg h]

/-- C99 (composite, summed): the value at each point is the sum of values of all components, whatever was in the output array before, and nothing else is written. -/
theorem C99_composite_sum (npoints ncomp : ℕ) (hm : 0 < ncomp) (comp : ℕ → ℕ → α) (values : ℕ → α) :
    (∀ p < npoints, compositeMany npoints ncomp false comp values p = ∑ c ∈ range ncomp, comp c p) ∧
      (∀ i, npoints ≤ i → compositeMany npoints ncomp false comp values i = values i) := by
  rw [compositeMany]
  by_cases h : ncomp = 1
  · subst h
    rw [if_pos rfl]
    refine ⟨fun p hp => ?_, fun i hi => ?_⟩
    · have := fold_set_at (fun p => p) Function.injective_id (fun p _ => comp 0 p) values hp
      simpa using this
    · have := fold_set_ne (fun p => p) Function.injective_id (fun p _ => comp 0 p) values (n := npoints) (i := i) (by intro p hp; omega)
      simpa using this
  · rw [if_neg h]
    simp only [Bool.false_eq_true, not_false_eq_true, if_true]
    refine ⟨fun p hp => ?_, fun i hi => ?_⟩
    · rw [sum_fold, if_pos hp]
      have := fold_set_at (fun p => p) Function.injective_id (fun _ _ => (0 : α)) values hp
      beta_reduce at this
      rw [this, zero_add]
    · rw [sum_fold, if_neg (by omega)]
      have := fold_set_ne (fun p => p) Function.injective_id (fun _ _ => (0 : α)) values (n := npoints) (i := i) (by intro p hp; omega)
      simpa using this

end

/-- two components, three points -/
example : (List.range 7).map (compositeMany 3 2 true (fun c p => 10 * (c + 1) + p) (fun _ => 99)) = [10, 20, 11, 21, 12, 22, 99] := by decide
example : (List.range 4).map (compositeMany 3 2 false (fun c p => 10 * (c + 1) + p) (fun _ => 99)) = [30, 32, 34, 99] := by decide

end Verif.DF
