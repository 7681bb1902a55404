import Verif.Sample.Main
import Mathlib.Data.List.GetD

/-! drawSamples (math_sample.cpp:623-651): slicing of the cumulative distribution; C89 -/
namespace Verif.Sample

open Verif.Random Verif.Core Finset

noncomputable section

/-- The elements of the list at which the cumulative weight, starting from `S`, crosses the next half-integer multiple of `W`; `k` elements have been chosen before -/
def pick {α : Type*} (sw : α → ℝ) (W : ℝ) : ℝ → ℕ → List α → List α
  | _, _, [] => []
  | S, k, x :: l => if (k + 0.5) * W ≤ S + sw x then x :: pick sw W (S + sw x) (k + 1) l else pick sw W (S + sw x) k l

section
variable {α : Type*} {sw : α → ℝ} {W : ℝ}

theorem pick_sublist (l : List α) : ∀ S k, (pick sw W S k l).Sublist l := by
  induction l with
  | nil => intro S k; exact List.Sublist.refl _
  | cons x l ih =>
    intro S k
    rw [pick]
    split_ifs
    · exact (ih _ _).cons_cons x
    · exact (ih _ _).cons x

theorem pick_append (l1 l2 : List α) : ∀ S k, pick sw W S k (l1 ++ l2) = pick sw W S k l1 ++ pick sw W (S + (l1.map sw).sum) (k + (pick sw W S k l1).length) l2 := by
  induction l1 with
  | nil => intro S k; simp [pick]
  | cons x l ih =>
    intro S k
    rw [List.cons_append, pick, pick, List.map_cons, List.sum_cons, ← add_assoc]
    split_ifs
    · rw [ih, List.cons_append, List.length_cons, show k + 1 + (pick sw W (S + sw x) (k + 1) l).length = k + ((pick sw W (S + sw x) (k + 1) l).length + 1) by ring]
    · rw [ih]

theorem pick_bound (l : List α) (hl : ∀ x ∈ l, 0 ≤ sw x ∧ sw x ≤ W) : ∀ (S : ℝ) (k : ℕ), (k - 0.5) * W ≤ S → S < (k + 0.5) * W →
    ((k + (pick sw W S k l).length : ℕ) - 0.5) * W ≤ S + (l.map sw).sum ∧ S + (l.map sw).sum < ((k + (pick sw W S k l).length : ℕ) + 0.5) * W := by
  induction l with
  | nil => intro S k h1 h2; simpa [pick] using ⟨h1, h2⟩
  | cons x l ih =>
    intro S k h1 h2
    have hx := hl x (by simp)
    have ih := ih fun y hy => hl y (by simp [hy])
    rw [pick, List.map_cons, List.sum_cons, ← add_assoc]
    split_ifs with h
    · have := ih (S + sw x) (k + 1) (by push_cast; linarith) (by push_cast; linarith)
      rwa [List.length_cons, show k + ((pick sw W (S + sw x) (k + 1) l).length + 1) = k + 1 + (pick sw W (S + sw x) (k + 1) l).length by ring]
    · exact ih (S + sw x) k (by linarith) (not_le.1 h)

theorem pick_pos (l : List α) (hl : ∀ x ∈ l, 0 ≤ sw x ∧ sw x ≤ W) : ∀ (S : ℝ) (k : ℕ), S < (k + 0.5) * W → ∀ x ∈ pick sw W S k l, 0 < sw x := by
  induction l with
  | nil => intro S k h2 x hx; simp [pick] at hx
  | cons y l ih =>
    intro S k h2 x hx
    have hy := hl y (by simp)
    have ih := ih fun y hy => hl y (by simp [hy])
    rw [pick] at hx
    split_ifs at hx with h
    · rcases List.mem_cons.1 hx with rfl | hx
      · linarith
      · exact ih _ (k + 1) (by push_cast; linarith) x hx
    · exact ih _ k (not_le.1 h) x hx

/-- The rows filled with the chosen elements -/
def fill {β : Type*} (perm : List ℕ) (co : α → β) : ℕ → (ℕ → Option β) → List α → ℕ → Option β
  | _, out, [] => out
  | k, out, x :: l => fill perm co (k + 1) (Function.update out (perm.getD k 0) (some (co x))) l

theorem fill_other {β : Type*} (perm : List ℕ) (co : α → β) (l : List α) : ∀ (k : ℕ) (out : ℕ → Option β) (r : ℕ), (∀ j, k ≤ j → j < k + l.length → perm.getD j 0 ≠ r) →
    fill perm co k out l r = out r := by
  induction l with
  | nil => intro k out r _; rfl
  | cons x l ih =>
    intro k out r h
    rw [fill, ih _ _ _ fun j h1 h2 => h j (by omega) (by rw [List.length_cons]; omega), Function.update_of_ne]
    exact (h k le_rfl (by rw [List.length_cons]; omega)).symm

theorem fill_map {β : Type*} (perm : List ℕ) (hp : perm.Nodup) (co : α → β) (l : List α) : ∀ (k : ℕ) (out : ℕ → Option β), k + l.length = perm.length →
    (perm.drop k).map (fill perm co k out l) = l.map fun x => some (co x) := by
  induction l with
  | nil =>
    intro k out h
    rw [List.drop_of_length_le (by simp at h; omega)]
    rfl
  | cons x l ih =>
    intro k out h
    rw [List.length_cons] at h
    have hk : k < perm.length := by omega
    rw [List.drop_eq_getElem_cons hk, List.map_cons, List.map_cons, fill, ih _ _ (by omega)]
    congr 1
    rw [fill_other, List.getD_eq_getElem _ _ hk, Function.update_self]
    intro j h1 h2 hj
    have hj' : j < perm.length := by omega
    rw [List.getD_eq_getElem _ _ hj'] at hj
    have := (List.Nodup.getElem_inj_iff hp).1 hj
    omega

end

variable {d : ℕ} {e : Env d} {s : St d}

theorem draw_fold (perm : List ℕ) (W : ℝ) (l : List (ℕ × ℕ)) (hl : ∀ x ∈ l, 0 ≤ sampleWeight s x ∧ sampleWeight s x ≤ W) : ∀ (t : Draw d),
    (t.idx - 0.5) * W ≤ t.sum → t.sum < (t.idx + 0.5) * W → t.sum + (l.map (sampleWeight s)).sum ≤ e.N * W →
    l.foldlM (drawStep e s perm W) t = .ok ⟨t.sum + (l.map (sampleWeight s)).sum, t.idx + (pick (sampleWeight s) W t.sum t.idx l).length,
      fill perm (fun x => s.coords x.2) t.idx t.out (pick (sampleWeight s) W t.sum t.idx l)⟩ := by
  induction l with
  | nil => intro t _ _ _; simp [pick, fill, pure, Except.pure]
  | cons x l ih =>
    intro t h1 h2 h3
    have hx := hl x (by simp)
    have hl' := fun y (hy : y ∈ l) => hl y (by simp [hy])
    have hsum : 0 ≤ (l.map (sampleWeight s)).sum := List.sum_nonneg fun y hy => by
      obtain ⟨z, hz, rfl⟩ := List.mem_map.1 hy
      exact (hl' z hz).1
    rw [List.map_cons, List.sum_cons, ← add_assoc] at h3
    have hW : 0 ≤ W := hx.1.trans hx.2
    rw [List.foldlM_cons, drawStep, if_neg (not_lt.2 hx.2), List.map_cons, List.sum_cons, ← add_assoc]
    by_cases h : (t.idx + 0.5) * W ≤ t.sum + sampleWeight s x
    · have hlt : t.idx < e.N := by
        by_contra hn
        have : (e.N : ℝ) ≤ t.idx := by exact_mod_cast not_lt.1 hn
        have hWp : 0 < W := by nlinarith
        nlinarith
      have := ih hl' ⟨t.sum + sampleWeight s x, t.idx + 1, Function.update t.out (perm.getD t.idx 0) (some (s.coords x.2))⟩ (by simp only; push_cast; linarith) (by simp only; push_cast; linarith) h3
      have e1 : pick (sampleWeight s) W t.sum t.idx (x :: l) = x :: pick (sampleWeight s) W (t.sum + sampleWeight s x) (t.idx + 1) l := if_pos h
      rw [e1, List.length_cons, fill, if_pos h, if_pos hlt]
      show List.foldlM _ _ l = _
      rw [this]
      congr 2
      simp only; ring
    · have := ih hl' ⟨t.sum + sampleWeight s x, t.idx, t.out⟩ (by simp only; linarith) (not_le.1 h) h3
      have e1 : pick (sampleWeight s) W t.sum t.idx (x :: l) = pick (sampleWeight s) W (t.sum + sampleWeight s x) t.idx l := if_neg h
      rw [e1, if_neg h]
      show List.foldlM _ _ l = _
      rw [this]

/-- All points with a sufficiently small weight: the drawing of samples succeeds -/
theorem drawSamples_spec (hN : 0 < e.N) (l : List (ℕ × ℕ)) (hl : allPoints s = .ok l) (hsum : (l.map (sampleWeight s)).sum = s.integ) (hpos : 0 < s.integ)
    (hw : ∀ x ∈ l, 0 ≤ sampleWeight s x ∧ sampleWeight s x * e.N ≤ s.integ) :
    ∃ out, drawSamples e s = .ok out ∧ (pick (sampleWeight s) (s.integ / e.N) 0 0 l).length = e.N ∧
      ((List.range e.N).map out).Perm ((pick (sampleWeight s) (s.integ / e.N) 0 0 l).map fun x => some (s.coords x.2)) ∧ ∀ r, e.N ≤ r → out r = none := by
  obtain ⟨perm, hperm, hp⟩ := C22_permutation e.drawsOut (List.replicate e.N 0)
  rw [List.length_replicate] at hperm hp
  have hNr : (0 : ℝ) < e.N := by exact_mod_cast hN
  set W := s.integ / e.N with hW
  have hWp : 0 < W := div_pos hpos hNr
  have hNW : e.N * W = s.integ := by rw [hW]; field_simp
  have hw' : ∀ x ∈ l, 0 ≤ sampleWeight s x ∧ sampleWeight s x ≤ W := fun x hx => ⟨(hw x hx).1, by rw [hW, le_div_iff₀ hNr]; exact (hw x hx).2⟩
  have hf := draw_fold (e := e) perm W l hw' (⟨0, 0, fun _ => none⟩ : Draw d) (by simp only; push_cast; linarith) (by simp only; push_cast; linarith) (by rw [hsum, hNW]; simp)
  have hb := pick_bound l hw' 0 0 (by push_cast; linarith) (by push_cast; linarith)
  rw [hsum, ← hNW, zero_add, zero_add] at hb
  set P := pick (sampleWeight s) W 0 0 l with hP
  have hlen : P.length = e.N := by
    have h1 : (P.length : ℝ) - 0.5 ≤ e.N := le_of_mul_le_mul_right hb.1 hWp
    have h2 : (e.N : ℝ) < P.length + 0.5 := lt_of_mul_lt_mul_right hb.2 hWp.le
    have h3 : (P.length : ℝ) < e.N + 1 := by linarith
    have h4 : (e.N : ℝ) < P.length + 1 := by linarith
    have h3' : P.length < e.N + 1 := by exact_mod_cast h3
    have h4' : e.N < P.length + 1 := by exact_mod_cast h4
    omega
  have hpl : perm.length = e.N := by rw [hp.length_eq, List.length_range]
  refine ⟨fill perm (fun x => s.coords x.2) 0 (fun _ => none) P, ?_, hlen, ?_, fun r hr => ?_⟩
  · rw [drawSamples, hperm]
    simp only
    rw [hl]
    show (l.foldlM (drawStep e s perm W) ⟨0, 0, fun _ => none⟩ >>= _) = _
    rw [hf]
    show (if 0 + P.length ≠ e.N then _ else _) = _
    rw [if_neg (by simp [hlen])]
    rfl
  · have := fill_map perm (hp.nodup_iff.2 List.nodup_range) (fun x : ℕ × ℕ => s.coords x.2) P 0 (fun _ => none) (by omega)
    rw [List.drop_zero] at this
    rw [← this]
    exact (hp.map _).symm
  · rw [fill_other]
    intro j h1 h2 hj
    have hj' : j < perm.length := by omega
    rw [List.getD_eq_getElem _ _ hj'] at hj
    have : perm[j] ∈ List.range e.N := hp.mem_iff.1 (List.getElem_mem hj')
    rw [List.mem_range] at this
    omega

end

end Verif.Sample
