import Verif.Sample.Model
import Verif.Random.Props
import Mathlib.Tactic.LinearCombination

/-! Linked lists of points in cells (math_sample.cpp) -/
namespace Verif.Sample

open Verif.Random Verif.Core

noncomputable section

variable {d : ℕ}

/-- The links starting from the given head form the given list of points -/
def Chain (next : ℕ → Option ℕ) : Option ℕ → List ℕ → Prop
  | h, [] => h = none
  | h, p :: l => h = some p ∧ Chain next (next p) l

theorem walk_chain {next : ℕ → Option ℕ} {h : Option ℕ} {l : List ℕ} (hc : Chain next h l) {fuel : ℕ} (hf : l.length ≤ fuel) : walk next fuel h = some l := by
  induction l generalizing h fuel with
  | nil =>
    have : h = none := hc
    subst this
    cases fuel <;> rfl
  | cons p l ih =>
    obtain ⟨rfl, hc⟩ := hc
    cases fuel with
    | zero => simp at hf
    | succ fuel =>
      rw [walk, ih hc (by simpa using hf)]
      rfl

theorem Chain.congr {next next' : ℕ → Option ℕ} {h : Option ℕ} {l : List ℕ} (hc : Chain next h l) (e : ∀ p ∈ l, next' p = next p) : Chain next' h l := by
  induction l generalizing h with
  | nil => exact hc
  | cons p l ih =>
    obtain ⟨rfl, hc⟩ := hc
    refine ⟨rfl, ?_⟩
    rw [e p (by simp)]
    exact ih hc fun q hq => e q (by simp [hq])

theorem Chain.head_none {next : ℕ → Option ℕ} {l : List ℕ} (hc : Chain next none l) : l = [] := by
  cases l with
  | nil => rfl
  | cons p l => exact absurd hc.1 (by simp)

theorem distribute_spec (coords : ℕ → Vec d) (k : Fin d) (y : ℝ) (l : List ℕ) :
    ∀ (fuel : ℕ) (next : ℕ → Option ℕ) (h a b : Option ℕ) (A B : List ℕ), l.length ≤ fuel → Chain next h l → l.Nodup → Chain next a A → Chain next b B →
      (∀ p ∈ l, p ∉ A ∧ p ∉ B) →
      ∃ r, distribute coords k y fuel h (next, a, b) = .ok r ∧ Chain r.1 r.2.1 ((l.filter fun p => coords p k < y).reverse ++ A) ∧
        Chain r.1 r.2.2 ((l.filter fun p => ¬ coords p k < y).reverse ++ B) ∧ ∀ q, q ∉ l → r.1 q = next q := by
  induction l with
  | nil =>
    intro fuel next h a b A B hf hc hn hA hB hd
    have : h = none := hc
    subst this
    refine ⟨(next, a, b), ?_, hA, hB, fun _ _ => rfl⟩
    cases fuel <;> rfl
  | cons p l ih =>
    intro fuel next h a b A B hf hc hn hA hB hd
    obtain ⟨rfl, hc⟩ := hc
    obtain ⟨fuel, rfl⟩ : ∃ f, fuel = f + 1 := ⟨fuel - 1, by simp at hf; omega⟩
    have hpl : p ∉ l := (List.nodup_cons.1 hn).1
    have hnl := (List.nodup_cons.1 hn).2
    have hd' := hd p (by simp)
    have up : ∀ (x : Option ℕ) (h' : Option ℕ) (l' : List ℕ), Chain next h' l' → p ∉ l' → Chain (Function.update next p x) h' l' := fun x h' l' hc' hp =>
      hc'.congr fun q hq => Function.update_of_ne (by rintro rfl; exact hp hq) _ _
    by_cases hy : coords p k < y
    · obtain ⟨r, hr, h1, h2, h3⟩ := ih fuel (Function.update next p a) (next p) (some p) b (p :: A) B (by simpa using hf) (up _ _ _ hc hpl) hnl
        ⟨rfl, by rw [Function.update_self]; exact up _ _ _ hA hd'.1⟩ (up _ _ _ hB hd'.2)
        (fun q hq => ⟨by
          have := (hd q (by simp [hq])).1
          rintro hq'
          rcases List.mem_cons.1 hq' with rfl | hq'
          · exact hpl hq
          · exact this hq', (hd q (by simp [hq])).2⟩)
      refine ⟨r, ?_, ?_, ?_, ?_⟩
      · rw [distribute]
        simp only [hy, if_true]
        exact hr
      · rw [List.filter_cons_of_pos (by simpa using hy), List.reverse_cons, List.append_assoc]
        exact h1
      · rw [List.filter_cons_of_neg (by simpa using hy)]
        exact h2
      · intro q hq
        rw [h3 q fun hq' => hq (by simp [hq'])]
        exact Function.update_of_ne (by rintro rfl; exact hq (by simp)) _ _
    · obtain ⟨r, hr, h1, h2, h3⟩ := ih fuel (Function.update next p b) (next p) a (some p) A (p :: B) (by simpa using hf) (up _ _ _ hc hpl) hnl
        (up _ _ _ hA hd'.1) ⟨rfl, by rw [Function.update_self]; exact up _ _ _ hB hd'.2⟩
        (fun q hq => ⟨(hd q (by simp [hq])).1, by
          have := (hd q (by simp [hq])).2
          rintro hq'
          rcases List.mem_cons.1 hq' with rfl | hq'
          · exact hpl hq
          · exact this hq'⟩)
      refine ⟨r, ?_, ?_, ?_, ?_⟩
      · rw [distribute]
        simp only [hy, if_false]
        exact hr
      · rw [List.filter_cons_of_neg (by simpa using hy)]
        exact h1
      · rw [List.filter_cons_of_pos (by simpa using hy), List.reverse_cons, List.append_assoc]
        exact h2
      · intro q hq
        rw [h3 q fun hq' => hq (by simp [hq'])]
        exact Function.update_of_ne (by rintro rfl; exact hq (by simp)) _ _

/-- The coordinates of a new point -/
def newPoint (e : Env d) (b : Vec d × Vec d) (first : ℕ) (perm : List ℕ) (p : ℕ) : Vec d := fun k => b.1 k + (b.2 k - b.1 k) * quasi e (first + perm.getD (p - first) 0) k

theorem addLoop_spec (e : Env d) (b : Vec d × Vec d) (first : ℕ) (perm : List ℕ) (count : ℕ) :
    ∀ (p : ℕ) (st : (ℕ → Vec d) × (ℕ → Option ℕ) × Option ℕ) (l : List ℕ), Chain st.2.1 st.2.2 l → (∀ q ∈ l, q < p) →
      let r := addLoop e b first perm count p st
      Chain r.2.1 r.2.2 ((List.range' p count).reverse ++ l) ∧ (∀ q, ¬ (p ≤ q ∧ q < p + count) → r.2.1 q = st.2.1 q ∧ r.1 q = st.1 q) ∧
        ∀ q, p ≤ q ∧ q < p + count → r.1 q = newPoint e b first perm q := by
  induction count with
  | zero =>
    intro p st l hc hl
    exact ⟨hc, fun q _ => ⟨rfl, rfl⟩, fun q hq => by omega⟩
  | succ count ih =>
    intro p st l hc hl
    have hp : p ∉ l := fun h => lt_irrefl _ (hl p h)
    obtain ⟨h1, h2, h3⟩ := ih (p + 1) (Function.update st.1 p (newPoint e b first perm p), Function.update st.2.1 p st.2.2, some p) (p :: l)
      ⟨rfl, by
        dsimp only
        rw [Function.update_self]
        exact hc.congr fun q hq => Function.update_of_ne (by rintro rfl; exact hp hq) _ _⟩
      (fun q hq => by
        rcases List.mem_cons.1 hq with rfl | hq
        · omega
        · have := hl q hq; omega)
    refine ⟨?_, ?_, ?_⟩
    · rw [List.range'_succ, List.reverse_cons, List.append_assoc]
      exact h1
    · intro q hq
      obtain ⟨g1, g2⟩ := h2 q (by omega)
      have hqp : q ≠ p := by omega
      exact ⟨g1.trans (Function.update_of_ne hqp _ _), g2.trans (Function.update_of_ne hqp _ _)⟩
    · intro q hq
      by_cases hqp : q = p
      · subst hqp
        exact (h2 q (by omega)).2.trans (Function.update_self _ _ _)
      · exact h3 q (by omega)

end

end Verif.Sample
