import Verif.Cubature.Rule
import Mathlib.Algebra.MvPolynomial.Degrees
import Mathlib.Algebra.MvPolynomial.Eval
import Mathlib.Analysis.Real.Sqrt
import Mathlib.MeasureTheory.Integral.Pi
import Mathlib.MeasureTheory.Integral.IntervalIntegral.FundThmCalculus
import Mathlib.Analysis.SpecialFunctions.Integrals.Basic
import Mathlib.Tactic.NormNum
import Mathlib.Tactic.FieldSimp

/-! Degree of exactness of the Genz-Malik rule; C86. -/
namespace Verif.Cubature

noncomputable section

open Finset

variable {d : ℕ}

/-- A monomial -/
def mono (α : Fin d → ℕ) (t : Vec d) : ℝ := ∏ i, t i ^ α i

/-- x^e + (-x)^e -/
def sym (x : ℝ) (e : ℕ) : ℝ := x ^ e + (-x) ^ e

theorem sym_odd (x : ℝ) {e : ℕ} (h : Odd e) : sym x e = 0 := by rw [sym, h.neg_pow]; ring
theorem sym_even (x : ℝ) {e : ℕ} (h : Even e) : sym x e = 2 * x ^ e := by rw [sym, h.neg_pow]; ring

/-- The average of a monomial over the cube [-1,1]^d -/
def avg (α : Fin d → ℕ) : ℝ := ∏ i, sym 1 (α i) / 2 / (α i + 1)

/-- The sums for the unit cube -/
def unitSums (L : Lambdas) (g : Vec d → ℝ) : Sums := gmSums d (gmValues L 0 1 g)

/-- Product of zero powers over the coordinates not in S -/
theorem mono_update (α : Fin d → ℕ) (i : Fin d) (x : ℝ) : mono α (axisPt 0 i x) = x ^ α i * ∏ j ∈ univ.erase i, (0 : ℝ) ^ α j := by
  rw [mono, ← Finset.mul_prod_erase univ _ (mem_univ i)]
  congr 1
  · simp [axisPt]
  · refine Finset.prod_congr rfl fun j hj => ?_
    rw [axisPt, Function.update_of_ne (Finset.ne_of_mem_erase hj)]; rfl

theorem mono_update2 (α : Fin d → ℕ) (i j : Fin d) (hij : i ≠ j) (x y : ℝ) :
    mono α (planePt 0 i j x y) = x ^ α i * y ^ α j * ∏ k ∈ (univ.erase i).erase j, (0 : ℝ) ^ α k := by
  rw [mono, ← Finset.mul_prod_erase univ _ (mem_univ i), ← Finset.mul_prod_erase (univ.erase i) _ (mem_erase.2 ⟨hij.symm, mem_univ j⟩), mul_assoc]
  congr 1
  · simp [planePt, hij]
  congr 1
  · simp [planePt]
  · refine Finset.prod_congr rfl fun k hk => ?_
    have h1 := Finset.ne_of_mem_erase hk
    have h2 := Finset.ne_of_mem_erase (Finset.mem_of_mem_erase hk)
    rw [planePt, Function.update_of_ne h1, Function.update_of_ne h2]; rfl

theorem mono_signs (α : Fin d → ℕ) (x : ℝ) : ∑ s : Fin d → Bool, mono α (signPoint 0 (fun _ => x) s) = ∏ i, sym x (α i) := by
  have e : ∀ i, sym x (α i) = ∑ b : Bool, (if b then (0 : ℝ) - x else 0 + x) ^ α i := by
    intro i; rw [sym]; simp [add_comm]
  rw [Finset.prod_congr rfl fun i _ => e i, Finset.prod_univ_sum]
  simp only [Fintype.piFinset_univ]
  rfl

/-- The contribution of a plane -/
def planeG (α : Fin d → ℕ) (x : ℝ) (i j : Fin d) : ℝ := sym x (α i) * sym x (α j) * ∏ k ∈ (univ.erase i).erase j, (0 : ℝ) ^ α k

theorem planeG_symm (α : Fin d → ℕ) (x : ℝ) (i j : Fin d) : planeG α x i j = planeG α x j i := by
  rw [planeG, planeG, Finset.erase_right_comm, mul_comm (sym x (α i))]

theorem unitSums_mono (L : Lambdas) (α : Fin d → ℕ) : unitSums L (mono α) =
    { val0 := ∏ j, (0 : ℝ) ^ α j
      sum2 := ∑ i, sym L.l2 (α i) * ∏ j ∈ univ.erase i, (0 : ℝ) ^ α j
      sum3 := ∑ i, sym L.l4 (α i) * ∏ j ∈ univ.erase i, (0 : ℝ) ^ α j
      sum4 := ∑ i, ∑ j ∈ Ioi i, planeG α L.l4 i j
      sum5 := ∏ i, sym L.l5 (α i) } := by
  rw [unitSums, gmSums_eq, Sums.mk.injEq]
  refine ⟨rfl, ?_, ?_, ?_, ?_⟩
  · refine Finset.sum_congr rfl fun i _ => ?_
    rw [mono_update, mono_update, sym]
    simp only [Pi.one_apply, one_mul]; ring
  · refine Finset.sum_congr rfl fun i _ => ?_
    rw [mono_update, mono_update, sym]
    simp only [Pi.one_apply, one_mul]; ring
  · refine Finset.sum_congr rfl fun i _ => Finset.sum_congr rfl fun j hj => ?_
    have hij : i ≠ j := (Finset.mem_Ioi.1 hj).ne
    rw [mono_update2 α i j hij, mono_update2 α i j hij, mono_update2 α i j hij, mono_update2 α i j hij, planeG, sym, sym]
    simp only [Pi.one_apply, one_mul]; ring
  · rw [← mono_signs]
    simp

theorem pair_sum (G : Fin d → Fin d → ℝ) (hG : ∀ i j, G i j = G j i) : ∑ i, ∑ j ∈ Ioi i, G i j = 1 / 2 * ∑ i, ∑ j ∈ univ.erase i, G i j := by
  have e1 : ∀ i, ∑ j ∈ univ.erase i, G i j = ∑ j ∈ Ioi i, G i j + ∑ j ∈ Iio i, G i j := by
    intro i
    rw [← Finset.sum_union (by
      rw [Finset.disjoint_left]
      intro a ha hb
      rw [mem_Ioi] at ha; rw [mem_Iio] at hb
      exact absurd ha (not_lt.2 hb.le))]
    refine Finset.sum_congr ?_ fun _ _ => rfl
    ext j
    simp only [mem_erase, mem_univ, and_true, mem_union, mem_Ioi, mem_Iio]
    rw [ne_comm, ne_iff_lt_or_gt]
  have e2 : ∑ i, ∑ j ∈ Iio i, G i j = ∑ i, ∑ j ∈ Ioi i, G i j := by
    rw [Finset.sum_sigma', Finset.sum_sigma']
    refine Finset.sum_bij' (fun p _ => ⟨p.2, p.1⟩) (fun p _ => ⟨p.2, p.1⟩) ?_ ?_ ?_ ?_ ?_
    · intro p hp; simp at hp ⊢; exact hp
    · intro p hp; simp at hp ⊢; exact hp
    · intro p _; rfl
    · intro p _; rfl
    · intro p _; exact hG _ _
  rw [Finset.sum_congr rfl fun i _ => e1 i, Finset.sum_add_distrib, e2]
  ring

/-! ## Moments -/

/-- The conditions on the constants: even moments up to the 6th degree are reproduced with the accuracy ε. -/
structure Good (L : Lambdas) (ε : ℝ) : Prop where
  nonneg : 0 ≤ ε
  m1 : ∀ e : ℕ, e = 2 ∨ e = 4 ∨ e = 6 → |1960 / 6561 * L.l2 ^ e + 2840 / 19683 * L.l4 ^ e + 6859 / 19683 * L.l5 ^ e - 1 / (e + 1)| ≤ ε
  m2 : ∀ e₁ e₂ : ℕ, (e₁ = 2 ∧ e₂ = 2) ∨ (e₁ = 2 ∧ e₂ = 4) ∨ (e₁ = 4 ∧ e₂ = 2) →
    |800 / 19683 * (L.l4 ^ e₁ * L.l4 ^ e₂) + 6859 / 19683 * (L.l5 ^ e₁ * L.l5 ^ e₂) - 1 / (e₁ + 1) * (1 / (e₂ + 1))| ≤ ε
  m3 : |6859 / 19683 * (L.l5 ^ 2 * L.l5 ^ 2 * L.l5 ^ 2) - 1 / 27| ≤ ε
  e1 : ∀ e : ℕ, e = 2 ∨ e = 4 → |245 / 243 * L.l2 ^ e + 165 / 729 * L.l4 ^ e - 1 / (e + 1)| ≤ ε
  e2 : |100 / 729 * (L.l4 ^ 2 * L.l4 ^ 2) - 1 / 9| ≤ ε

theorem good_exact : Good ⟨√(9 / 70), √(9 / 10), √(9 / 19)⟩ 0 := by
  have h2 : √(9 / 70 : ℝ) ^ 2 = 9 / 70 := Real.sq_sqrt (by norm_num)
  have h4 : √(9 / 10 : ℝ) ^ 2 = 9 / 10 := Real.sq_sqrt (by norm_num)
  have h5 : √(9 / 19 : ℝ) ^ 2 = 9 / 19 := Real.sq_sqrt (by norm_num)
  have p4 : ∀ x : ℝ, x ^ 4 = (x ^ 2) ^ 2 := fun x => by ring
  have p6 : ∀ x : ℝ, x ^ 6 = (x ^ 2) ^ 3 := fun x => by ring
  refine ⟨le_rfl, ?_, ?_, ?_, ?_, ?_⟩
  · rintro e (rfl | rfl | rfl) <;> dsimp only <;> simp only [p4, p6, h2, h4, h5] <;> norm_num
  · rintro a b (⟨rfl, rfl⟩ | ⟨rfl, rfl⟩ | ⟨rfl, rfl⟩) <;> dsimp only <;> simp only [p4, h4, h5] <;> norm_num
  · dsimp only; rw [h5]; norm_num
  · rintro e (rfl | rfl) <;> dsimp only <;> simp only [p4, h4, h2] <;> norm_num
  · dsimp only; rw [h4]; norm_num

theorem good_code : Good codeLambdas 1e-38 := by
  refine ⟨by norm_num, ?_, ?_, ?_, ?_, ?_⟩
  · rintro e (rfl | rfl | rfl) <;> norm_num [codeLambdas, abs_le]
  · rintro a b (⟨rfl, rfl⟩ | ⟨rfl, rfl⟩ | ⟨rfl, rfl⟩) <;> norm_num [codeLambdas, abs_le]
  · norm_num [codeLambdas, abs_le]
  · rintro e (rfl | rfl) <;> norm_num [codeLambdas, abs_le]
  · norm_num [codeLambdas, abs_le]

/-- Zero powers -/
theorem prod_zero_pow (α : Fin d → ℕ) (S : Finset (Fin d)) : ∏ j ∈ S, (0 : ℝ) ^ α j = if ∀ j ∈ S, α j = 0 then 1 else 0 := by
  split_ifs with h
  · exact Finset.prod_eq_one fun j hj => by rw [h j hj, pow_zero]
  · push Not at h
    obtain ⟨j, hj, h0⟩ := h
    exact Finset.prod_eq_zero hj (zero_pow h0)

theorem unit_odd (L : Lambdas) (α : Fin d → ℕ) (i : Fin d) (hi : Odd (α i)) : unitSums L (mono α) = ⟨0, 0, 0, 0, 0⟩ := by
  have h0 : α i ≠ 0 := hi.pos.ne'
  have hax : ∀ x, ∑ k, sym x (α k) * ∏ j ∈ univ.erase k, (0 : ℝ) ^ α j = 0 := by
    intro x
    refine Finset.sum_eq_zero fun k _ => ?_
    by_cases hk : k = i
    · rw [hk, sym_odd x hi, zero_mul]
    · rw [Finset.prod_eq_zero (mem_erase.2 ⟨Ne.symm hk, mem_univ i⟩) (zero_pow h0), mul_zero]
  rw [unitSums_mono, Sums.mk.injEq]
  refine ⟨Finset.prod_eq_zero (mem_univ i) (zero_pow h0), hax _, hax _, ?_, Finset.prod_eq_zero (mem_univ i) (sym_odd _ hi)⟩
  refine Finset.sum_eq_zero fun a _ => Finset.sum_eq_zero fun b _ => ?_
  rw [planeG]
  by_cases ha : a = i
  · rw [ha, sym_odd _ hi]; ring
  by_cases hb : b = i
  · rw [hb, sym_odd _ hi]; ring
  rw [Finset.prod_eq_zero (mem_erase.2 ⟨Ne.symm hb, mem_erase.2 ⟨Ne.symm ha, mem_univ i⟩⟩) (zero_pow h0), mul_zero]

theorem avg_odd (α : Fin d → ℕ) (i : Fin d) (hi : Odd (α i)) : avg α = 0 := by
  refine Finset.prod_eq_zero (mem_univ i) ?_
  rw [sym_odd _ hi]; simp

theorem prod_split {M : Type*} [CommMonoid M] (S : Finset (Fin d)) (F : Fin d → M) (h : ∀ i, i ∉ S → F i = 1) : ∏ i, F i = ∏ i ∈ S, F i :=
  (Finset.prod_subset (subset_univ S) fun i _ hi => h i hi).symm

theorem avg_even (α : Fin d → ℕ) (hev : ∀ i, Even (α i)) (S : Finset (Fin d)) (hS : ∀ i, i ∉ S → α i = 0) : avg α = ∏ i ∈ S, (1 / ((α i : ℝ) + 1)) := by
  rw [avg, prod_split S]
  · refine Finset.prod_congr rfl fun i _ => ?_
    rw [sym_even _ (hev i)]; norm_num
  · intro i hi
    rw [hS i hi, sym]; norm_num

theorem signs_even (x : ℝ) (α : Fin d → ℕ) (hev : ∀ i, Even (α i)) (S : Finset (Fin d)) (hS : ∀ i, i ∉ S → α i = 0) :
    ∏ i, sym x (α i) = 2 ^ d * ∏ i ∈ S, x ^ α i := by
  rw [Finset.prod_congr rfl fun i _ => sym_even x (hev i), Finset.prod_mul_distrib, Finset.prod_const, Finset.card_univ, Fintype.card_fin,
    prod_split S fun i => x ^ α i]
  intro i hi; rw [hS i hi, pow_zero]

theorem unit_zero (L : Lambdas) (α : Fin d → ℕ) (h : ∀ i, α i = 0) :
    unitSums L (mono α) = ⟨1, 2 * d, 2 * d, 2 * d * (d - 1), 2 ^ d⟩ := by
  obtain rfl : α = fun _ => 0 := funext h
  rw [unitSums_mono, Sums.mk.injEq]
  refine ⟨by simp, by simp [sym]; ring, by simp [sym]; ring, ?_, by simp [sym]; norm_num⟩
  rw [pair_sum _ (planeG_symm _ _)]
  have : ∀ i : Fin d, ∑ j ∈ univ.erase i, planeG (fun _ => 0) L.l4 i j = 4 * ((d : ℝ) - 1) := by
    intro i
    have e : ∀ j, planeG (fun _ : Fin d => 0) L.l4 i j = 4 := fun j => by simp [planeG, sym]; norm_num
    rw [Finset.sum_congr rfl fun j _ => e j, Finset.sum_const, Finset.card_erase_of_mem (mem_univ i), Finset.card_univ, Fintype.card_fin, nsmul_eq_mul,
      Nat.cast_sub (by have := i.2; omega)]
    push_cast; ring
  rw [Finset.sum_congr rfl fun i _ => this i]
  simp; ring

theorem unit_one (L : Lambdas) (α : Fin d → ℕ) (a : Fin d) (h : ∀ i, i ≠ a → α i = 0) (h0 : α a ≠ 0) (hev : Even (α a)) :
    unitSums L (mono α) = ⟨0, 2 * L.l2 ^ α a, 2 * L.l4 ^ α a, 4 * (d - 1) * L.l4 ^ α a, 2 ^ d * L.l5 ^ α a⟩ := by
  have hall : ∀ i, Even (α i) := fun i => by
    by_cases hi : i = a
    · rw [hi]; exact hev
    · rw [h i hi]; exact Even.zero
  have hax : ∀ x, ∑ k, sym x (α k) * ∏ j ∈ univ.erase k, (0 : ℝ) ^ α j = 2 * x ^ α a := by
    intro x
    rw [Finset.sum_eq_single a]
    · rw [sym_even x hev, prod_zero_pow, if_pos fun j hj => h j (ne_of_mem_erase hj), mul_one]
    · intro k _ hk
      rw [Finset.prod_eq_zero (mem_erase.2 ⟨Ne.symm hk, mem_univ a⟩) (zero_pow h0), mul_zero]
    · intro hh; exact absurd (mem_univ a) hh
  rw [unitSums_mono, Sums.mk.injEq]
  refine ⟨Finset.prod_eq_zero (mem_univ a) (zero_pow h0), hax _, hax _, ?_, ?_⟩
  · rw [pair_sum _ (planeG_symm _ _)]
    set x := L.l4
    have hA : ∀ j, j ≠ a → planeG α x a j = 4 * x ^ α a := by
      intro j hj
      rw [planeG, sym_even x hev, h j hj, prod_zero_pow, if_pos fun k hk => h k (ne_of_mem_erase (mem_of_mem_erase hk)), sym]
      ring
    have hB : ∀ i, i ≠ a → ∀ j, j ≠ a → planeG α x i j = 0 := by
      intro i hi j hj
      rw [planeG, Finset.prod_eq_zero (mem_erase.2 ⟨Ne.symm hj, mem_erase.2 ⟨Ne.symm hi, mem_univ a⟩⟩) (zero_pow h0), mul_zero]
    have hcard : ((univ.erase a : Finset (Fin d)).card : ℝ) = d - 1 := by
      rw [Finset.card_erase_of_mem (mem_univ a), Finset.card_univ, Fintype.card_fin, Nat.cast_sub (by have := a.2; omega)]; norm_num
    rw [← Finset.add_sum_erase univ _ (mem_univ a)]
    rw [Finset.sum_congr rfl fun j hj => hA j (ne_of_mem_erase hj), Finset.sum_const, nsmul_eq_mul, hcard]
    have : ∀ i ∈ univ.erase a, ∑ j ∈ univ.erase i, planeG α x i j = 4 * x ^ α a := by
      intro i hi
      have hia := ne_of_mem_erase hi
      rw [Finset.sum_eq_single a]
      · rw [planeG_symm, hA i hia]
      · intro j _ hj; exact hB i hia j hj
      · intro hh; exact absurd (mem_erase.2 ⟨Ne.symm hia, mem_univ a⟩) hh
    rw [Finset.sum_congr rfl this, Finset.sum_const, nsmul_eq_mul, hcard]
    ring
  · rw [signs_even L.l5 α hall {a} (fun i hi => h i (by simpa using hi))]; simp

theorem unit_two (L : Lambdas) (α : Fin d → ℕ) (a b : Fin d) (hab : a ≠ b) (h : ∀ i, i ≠ a → i ≠ b → α i = 0) (ha : α a ≠ 0) (hb : α b ≠ 0) (hea : Even (α a)) (heb : Even (α b)) :
    unitSums L (mono α) = ⟨0, 0, 0, 4 * (L.l4 ^ α a * L.l4 ^ α b), 2 ^ d * (L.l5 ^ α a * L.l5 ^ α b)⟩ := by
  have hall : ∀ i, Even (α i) := fun i => by
    by_cases hi : i = a
    · rw [hi]; exact hea
    by_cases hi2 : i = b
    · rw [hi2]; exact heb
    rw [h i hi hi2]; exact Even.zero
  have hax : ∀ x, ∑ k, sym x (α k) * ∏ j ∈ univ.erase k, (0 : ℝ) ^ α j = 0 := by
    intro x
    refine Finset.sum_eq_zero fun k _ => ?_
    by_cases hk : k = a
    · rw [Finset.prod_eq_zero (mem_erase.2 ⟨by rw [hk]; exact hab.symm, mem_univ b⟩) (zero_pow hb), mul_zero]
    · rw [Finset.prod_eq_zero (mem_erase.2 ⟨Ne.symm hk, mem_univ a⟩) (zero_pow ha), mul_zero]
  rw [unitSums_mono, Sums.mk.injEq]
  refine ⟨Finset.prod_eq_zero (mem_univ a) (zero_pow ha), hax _, hax _, ?_, ?_⟩
  · rw [pair_sum _ (planeG_symm _ _)]
    set x := L.l4
    have hA : planeG α x a b = 4 * (x ^ α a * x ^ α b) := by
      rw [planeG, sym_even x hea, sym_even x heb, prod_zero_pow, if_pos fun k hk => h k (ne_of_mem_erase (mem_of_mem_erase hk)) (ne_of_mem_erase hk)]
      ring
    have hz : ∀ i j c, α c ≠ 0 → i ≠ c → j ≠ c → planeG α x i j = 0 := by
      intro i j c hc hi hj
      rw [planeG, Finset.prod_eq_zero (mem_erase.2 ⟨Ne.symm hj, mem_erase.2 ⟨Ne.symm hi, mem_univ c⟩⟩) (zero_pow hc), mul_zero]
    rw [← Finset.add_sum_erase univ (fun i => ∑ j ∈ univ.erase i, planeG α x i j) (mem_univ a),
      ← Finset.add_sum_erase (univ.erase a) (fun i => ∑ j ∈ univ.erase i, planeG α x i j) (mem_erase.2 ⟨hab.symm, mem_univ b⟩)]
    rw [Finset.sum_eq_single b (fun j hj hjb => hz a j b hb hab hjb) (fun hh => absurd (mem_erase.2 ⟨hab.symm, mem_univ b⟩) hh)]
    rw [Finset.sum_eq_single a (fun j hj hja => hz b j a ha hab.symm hja) (fun hh => absurd (mem_erase.2 ⟨hab, mem_univ a⟩) hh)]
    rw [Finset.sum_eq_zero, planeG_symm α x b a, hA]
    · ring
    · intro i hi
      have hib := ne_of_mem_erase hi
      have hia := ne_of_mem_erase (mem_of_mem_erase hi)
      refine Finset.sum_eq_zero fun j _ => ?_
      by_cases hj : j = a
      · exact hz i j b hb hib (by rw [hj]; exact hab)
      · exact hz i j a ha hia hj
  · rw [signs_even L.l5 α hall {a, b} (fun i hi => h i (by rintro rfl; simp at hi) (by rintro rfl; simp at hi)), Finset.prod_pair hab]

theorem unit_three (L : Lambdas) (α : Fin d → ℕ) (S : Finset (Fin d)) (hc : 3 ≤ S.card) (h : ∀ i, i ∈ S ↔ α i ≠ 0) (hev : ∀ i, Even (α i)) :
    unitSums L (mono α) = ⟨0, 0, 0, 0, 2 ^ d * ∏ i ∈ S, L.l5 ^ α i⟩ := by
  have hz : ∀ T : Finset (Fin d), T.card ≤ 2 → ∏ j ∈ univ \ T, (0 : ℝ) ^ α j = 0 := by
    intro T hT
    obtain ⟨i, hi, hiT⟩ : ∃ i ∈ S, i ∉ T := by
      by_contra hh
      push Not at hh
      have := Finset.card_le_card (show S ⊆ T from hh)
      omega
    exact Finset.prod_eq_zero (mem_sdiff.2 ⟨mem_univ i, hiT⟩) (zero_pow ((h i).1 hi))
  have e1 : ∀ k : Fin d, univ.erase k = univ \ {k} := fun k => by ext; simp
  have e2 : ∀ k l : Fin d, (univ.erase k).erase l = univ \ {l, k} := fun k l => by ext; simp
  have hax : ∀ x, ∑ k, sym x (α k) * ∏ j ∈ univ.erase k, (0 : ℝ) ^ α j = 0 := by
    intro x
    refine Finset.sum_eq_zero fun k _ => ?_
    rw [e1, hz _ (by simp), mul_zero]
  rw [unitSums_mono, Sums.mk.injEq]
  refine ⟨?_, hax _, hax _, ?_, ?_⟩
  · have := hz ∅ (by simp); simpa using this
  · refine Finset.sum_eq_zero fun i _ => Finset.sum_eq_zero fun j _ => ?_
    rw [planeG, e2, hz _ Finset.card_le_two, mul_zero]
  · exact signs_even L.l5 α hev S fun i hi => by
      by_contra hh; exact hi ((h i).2 hh)

theorem gm7_val (d : ℕ) (s : Sums) : gm7 d s =
    (12824 - 9120 * (d : ℝ) + 400 * (d : ℝ) ^ 2) / 19683 * s.val0 + 980 / 6561 * s.sum2 + (1820 - 400 * (d : ℝ)) / 19683 * s.sum3 + 200 / 19683 * s.sum4 +
      6859 / 19683 * (s.sum5 / 2 ^ d) := by
  rw [gm7, Nat.one_shiftLeft]
  push_cast
  ring

theorem gm5_val (d : ℕ) (s : Sums) : gm5 d s =
    (729 - 950 * (d : ℝ) + 50 * (d : ℝ) ^ 2) / 729 * s.val0 + 245 / 486 * s.sum2 + (265 - 100 * (d : ℝ)) / 1458 * s.sum3 + 25 / 729 * s.sum4 := by
  rw [gm5]
  push_cast
  ring

/-- Both rules applied to a monomial -/
theorem moments (L : Lambdas) (ε : ℝ) (hL : Good L ε) (α : Fin d → ℕ) :
    (∑ i, α i ≤ 7 → |gm7 d (unitSums L (mono α)) - avg α| ≤ ε) ∧ (∑ i, α i ≤ 5 → |gm5 d (unitSums L (mono α)) - avg α| ≤ ε) := by
  have h2d : (2 : ℝ) ^ d ≠ 0 := by positivity
  have hε := hL.nonneg
  by_cases hodd : ∃ i, Odd (α i)
  · obtain ⟨i, hi⟩ := hodd
    rw [unit_odd L α i hi, avg_odd α i hi, gm7_val, gm5_val]
    simpa using ⟨fun _ => hε, fun _ => hε⟩
  push Not at hodd
  have hev : ∀ i, Even (α i) := fun i => Nat.not_odd_iff_even.1 (hodd i)
  set S : Finset (Fin d) := univ.filter fun i => α i ≠ 0 with hS
  have hmem : ∀ i, i ∈ S ↔ α i ≠ 0 := fun i => by simp [hS]
  have hout : ∀ i, i ∉ S → α i = 0 := fun i hi => by by_contra hh; exact hi ((hmem i).2 hh)
  have hsum : ∑ i, α i = ∑ i ∈ S, α i := (Finset.sum_subset (subset_univ S) fun i _ hi => hout i hi).symm
  have hge : ∀ i ∈ S, 2 ≤ α i := fun i hi => by
    have h1 := (hmem i).1 hi
    obtain ⟨k, hk⟩ := hev i
    omega
  rw [avg_even α hev S hout, hsum]
  rcases Nat.lt_or_ge S.card 3 with hlt | h3
  · interval_cases hc : S.card
    · rw [Finset.card_eq_zero] at hc
      rw [unit_zero L α (fun i => hout i (by rw [hc]; simp)), hc, gm7_val, gm5_val]
      dsimp only
      rw [div_self h2d]
      simp only [Finset.prod_empty]
      constructor
      · intro _
        rw [show (12824 - 9120 * (d : ℝ) + 400 * (d : ℝ) ^ 2) / 19683 * 1 + 980 / 6561 * (2 * d) + (1820 - 400 * (d : ℝ)) / 19683 * (2 * d) +
          200 / 19683 * (2 * d * (d - 1)) + 6859 / 19683 * 1 - 1 = 0 by ring]
        simpa using hε
      · intro _
        rw [show (729 - 950 * (d : ℝ) + 50 * (d : ℝ) ^ 2) / 729 * 1 + 245 / 486 * (2 * d) + (265 - 100 * (d : ℝ)) / 1458 * (2 * d) + 25 / 729 * (2 * d * (d - 1)) - 1 = 0 by ring]
        simpa using hε
    · obtain ⟨a, ha⟩ := Finset.card_eq_one.1 hc
      have haS : a ∈ S := by rw [ha]; simp
      obtain ⟨k, hk⟩ := hev a
      have hga := hge a haS
      rw [unit_one L α a (fun i hi => hout i (by rw [ha]; simpa using hi)) ((hmem a).1 haS) (hev a), ha, gm7_val, gm5_val]
      simp only [Finset.prod_singleton, Finset.sum_singleton]
      rw [mul_div_cancel_left₀ _ h2d]
      constructor
      · intro h7
        have := hL.m1 (α a) (by omega)
        rw [show (12824 - 9120 * (d : ℝ) + 400 * (d : ℝ) ^ 2) / 19683 * 0 + 980 / 6561 * (2 * L.l2 ^ α a) + (1820 - 400 * (d : ℝ)) / 19683 * (2 * L.l4 ^ α a) +
          200 / 19683 * (4 * (d - 1) * L.l4 ^ α a) + 6859 / 19683 * L.l5 ^ α a - 1 / ((α a : ℝ) + 1) =
          1960 / 6561 * L.l2 ^ α a + 2840 / 19683 * L.l4 ^ α a + 6859 / 19683 * L.l5 ^ α a - 1 / ((α a : ℝ) + 1) by ring]
        exact this
      · intro h5
        have := hL.e1 (α a) (by omega)
        rw [show (729 - 950 * (d : ℝ) + 50 * (d : ℝ) ^ 2) / 729 * 0 + 245 / 486 * (2 * L.l2 ^ α a) + (265 - 100 * (d : ℝ)) / 1458 * (2 * L.l4 ^ α a) +
          25 / 729 * (4 * (d - 1) * L.l4 ^ α a) - 1 / ((α a : ℝ) + 1) = 245 / 243 * L.l2 ^ α a + 165 / 729 * L.l4 ^ α a - 1 / ((α a : ℝ) + 1) by ring]
        exact this
    · obtain ⟨a, b, hab, ha⟩ := Finset.card_eq_two.1 hc
      have haS : a ∈ S := by rw [ha]; simp
      have hbS : b ∈ S := by rw [ha]; simp
      obtain ⟨k, hk⟩ := hev a
      obtain ⟨l, hl⟩ := hev b
      have hga := hge a haS
      have hgb := hge b hbS
      rw [unit_two L α a b hab (fun i hi hi2 => hout i (by rw [ha]; simp [hi, hi2])) ((hmem a).1 haS) ((hmem b).1 hbS) (hev a) (hev b), ha, gm7_val, gm5_val]
      simp only [Finset.prod_pair hab, Finset.sum_pair hab]
      rw [mul_div_cancel_left₀ _ h2d]
      constructor
      · intro h7
        have := hL.m2 (α a) (α b) (by omega)
        convert this using 2
        ring
      · intro h5
        obtain ⟨e1, e2⟩ : α a = 2 ∧ α b = 2 := by omega
        have := hL.e2
        rw [e1, e2]
        convert this using 2
        push_cast
        ring
  · have hsum6 : S.card * 2 ≤ ∑ i ∈ S, α i := Finset.card_nsmul_le_sum S α 2 hge
    refine ⟨fun h7 => ?_, fun h5 => by omega⟩
    have hc : S.card = 3 := by omega
    rw [unit_three L α S h3 hmem hev, gm7_val]
    obtain ⟨a, b, c, hab, hac, hbc, hS3⟩ := Finset.card_eq_three.1 hc
    have e : ∀ F : Fin d → ℝ, ∏ i ∈ S, F i = F a * F b * F c := by
      intro F
      rw [hS3, Finset.prod_insert (by simp [hab, hac]), Finset.prod_pair hbc, mul_assoc]
    have es : ∑ i ∈ S, α i = α a + α b + α c := by
      rw [hS3, Finset.sum_insert (by simp [hab, hac]), Finset.sum_pair hbc, add_assoc]
    have ga := hge a (by rw [hS3]; simp)
    have gb := hge b (by rw [hS3]; simp)
    have gc := hge c (by rw [hS3]; simp)
    obtain ⟨k, hk⟩ := hev a
    obtain ⟨l, hl⟩ := hev b
    obtain ⟨m, hm⟩ := hev c
    obtain ⟨ea, eb, ec⟩ : α a = 2 ∧ α b = 2 ∧ α c = 2 := by omega
    rw [e, e]
    dsimp only
    rw [mul_div_cancel_left₀ _ h2d, ea, eb, ec]
    have := hL.m3
    convert this using 2
    push_cast
    ring

/-! ## Polynomials -/

/-- The point with scaled coordinates t -/
def affine (c h t : Vec d) : Vec d := fun i => c i + h i * t i

/-- The coefficient of the monomial β in the expansion of the monomial α in scaled coordinates -/
def kap (c h : Vec d) (α β : Fin d → ℕ) : ℝ := ∏ i, (h i ^ β i * c i ^ (α i - β i) * ((α i).choose (β i) : ℝ))

theorem mono_affine (c h t : Vec d) (α : Fin d → ℕ) : mono α (affine c h t) = ∑ β ∈ Fintype.piFinset fun i => range (α i + 1), kap c h α β * mono β t := by
  rw [mono]
  have e : ∀ i, affine c h t i ^ α i = ∑ k ∈ range (α i + 1), h i ^ k * c i ^ (α i - k) * ((α i).choose k : ℝ) * t i ^ k := by
    intro i
    rw [affine, add_comm, add_pow]
    refine Finset.sum_congr rfl fun k _ => ?_
    rw [mul_pow]; ring
  rw [Finset.prod_congr rfl fun i _ => e i, Finset.prod_univ_sum]
  refine Finset.sum_congr rfl fun β _ => ?_
  rw [kap, mono, ← Finset.prod_mul_distrib]

theorem kap_abs (c h : Vec d) (α : Fin d → ℕ) : ∑ β ∈ Fintype.piFinset fun i => range (α i + 1), |kap c h α β| = ∏ i, (|c i| + |h i|) ^ α i := by
  have := mono_affine (fun i => |c i|) (fun i => |h i|) (fun _ => 1) α
  rw [mono] at this
  have e : ∀ i, affine (fun i => |c i|) (fun i => |h i|) (fun _ => 1) i = |c i| + |h i| := fun i => by simp [affine]
  rw [Finset.prod_congr rfl fun i _ => by rw [e i]] at this
  rw [this]
  refine Finset.sum_congr rfl fun β _ => ?_
  rw [kap, kap, mono, Finset.abs_prod]
  simp [abs_mul, abs_pow]

theorem degree_le (P : MvPolynomial (Fin d) ℝ) {α : Fin d →₀ ℕ} (hα : α ∈ P.support) {β : Fin d → ℕ} (hβ : β ∈ Fintype.piFinset fun i => range (α i + 1)) :
    ∑ i, β i ≤ P.totalDegree := by
  have h1 := MvPolynomial.le_totalDegree hα
  rw [Finsupp.sum_fintype _ _ (fun _ => rfl)] at h1
  refine le_trans (Finset.sum_le_sum fun i _ => ?_) h1
  have := (Fintype.mem_piFinset.1 hβ) i
  rw [mem_range] at this; omega

/-- The size of a polynomial in the box with the centre c and half-widths h: sum of absolute values of coefficients multiplied by the largest absolute values of monomials. -/
def size (P : MvPolynomial (Fin d) ℝ) (c h : Vec d) : ℝ := ∑ α ∈ P.support, |P.coeff α| * ∏ i, (|c i| + |h i|) ^ α i

/-- The average over the box -/
def avgPoly (P : MvPolynomial (Fin d) ℝ) (c h : Vec d) : ℝ :=
  ∑ α ∈ P.support, P.coeff α * ∑ β ∈ Fintype.piFinset fun i => range (α i + 1), kap c h α β * avg β

theorem eval_affine (P : MvPolynomial (Fin d) ℝ) (c h t : Vec d) : MvPolynomial.eval (affine c h t) P =
    ∑ α ∈ P.support, P.coeff α * ∑ β ∈ Fintype.piFinset fun i => range (α i + 1), kap c h α β * mono β t := by
  rw [MvPolynomial.eval_eq']
  refine Finset.sum_congr rfl fun α _ => ?_
  rw [← mono_affine]; rfl

/-- A linear functional which approximates averages of monomials up to the degree n does so for polynomials. -/
theorem functional_bound (Λ : (Vec d → ℝ) → ℝ) (hΛ : ∀ (ι : Type) (s : Finset ι) (a : ι → ℝ) (g : ι → Vec d → ℝ), Λ (fun t => ∑ i ∈ s, a i * g i t) = ∑ i ∈ s, a i * Λ (g i))
    (n : ℕ) (ε : ℝ) (hmono : ∀ α : Fin d → ℕ, ∑ i, α i ≤ n → |Λ (mono α) - avg α| ≤ ε) (P : MvPolynomial (Fin d) ℝ) (hP : P.totalDegree ≤ n) (c h : Vec d) :
    |Λ (fun t => MvPolynomial.eval (affine c h t) P) - avgPoly P c h| ≤ ε * size P c h := by
  have e : (fun t => MvPolynomial.eval (affine c h t) P) = fun t => ∑ α ∈ P.support, P.coeff α * (∑ β ∈ Fintype.piFinset fun i => range (α i + 1), kap c h α β * mono β t) :=
    funext fun t => eval_affine P c h t
  rw [e, hΛ _ P.support (fun α => P.coeff α) (fun α t => ∑ β ∈ Fintype.piFinset fun i => range (α i + 1), kap c h α β * mono β t), avgPoly, ← Finset.sum_sub_distrib]
  refine le_trans (Finset.abs_sum_le_sum_abs _ _) ?_
  rw [size, Finset.mul_sum]
  refine Finset.sum_le_sum fun α hα => ?_
  rw [hΛ _ (Fintype.piFinset fun i => range (α i + 1)) (fun β => kap c h α β) (fun β t => mono β t), ← mul_sub, ← Finset.sum_sub_distrib, abs_mul, ← kap_abs, mul_left_comm]
  refine mul_le_mul_of_nonneg_left ?_ (abs_nonneg _)
  refine le_trans (Finset.abs_sum_le_sum_abs _ _) ?_
  rw [Finset.mul_sum]
  refine Finset.sum_le_sum fun β hβ => ?_
  rw [← mul_sub, abs_mul, mul_comm]
  exact mul_le_mul_of_nonneg_right (hmono β ((degree_le P hα hβ).trans hP)) (abs_nonneg _)

/-! ## Integrals -/

open MeasureTheory

theorem integral_scaled (c h : ℝ) (hh : 0 < h) (k : ℕ) : ∫ x in Set.Icc (c - h) (c + h), ((x - c) / h) ^ k = 2 * h * (sym 1 k / 2 / (k + 1)) := by
  rw [integral_Icc_eq_integral_Ioc, ← intervalIntegral.integral_of_le (by linarith),
    intervalIntegral.integral_comp_sub_right (fun y => (y / h) ^ k) c, intervalIntegral.integral_comp_div (fun y => y ^ k) hh.ne', integral_pow]
  rw [show (c + h - c) / h = 1 by field_simp; ring, show (c - h - c) / h = -1 by field_simp; ring, sym, smul_eq_mul]
  have : ((k : ℝ) + 1) ≠ 0 := by positivity
  rw [pow_succ (-1 : ℝ) k]
  field_simp
  ring

theorem integral_mono_box (c h : Vec d) (hh : ∀ i, 0 < h i) (α : Fin d → ℕ) :
    ∫ x in Set.Icc (c - h) (c + h), mono α (fun i => (x i - c i) / h i) = (∏ i, 2 * h i) * avg α := by
  rw [← Set.pi_univ_Icc, volume_pi, Measure.restrict_pi_pi]
  simp only [mono]
  rw [integral_fintype_prod_eq_prod (fun i (x : ℝ) => ((x - c i) / h i) ^ α i), avg, ← Finset.prod_mul_distrib]
  exact Finset.prod_congr rfl fun i _ => integral_scaled (c i) (h i) (hh i) (α i)

theorem integral_poly_box (P : MvPolynomial (Fin d) ℝ) (c h : Vec d) (hh : ∀ i, 0 ≤ h i) :
    ∫ x in Set.Icc (c - h) (c + h), MvPolynomial.eval x P = (∏ i, 2 * h i) * avgPoly P c h := by
  by_cases hpos : ∀ i, 0 < h i
  · have e : ∀ x : Vec d, MvPolynomial.eval x P = ∑ α ∈ P.support, P.coeff α * ∑ β ∈ Fintype.piFinset fun i => range (α i + 1), kap c h α β * mono β (fun i => (x i - c i) / h i) := by
      intro x
      rw [← eval_affine]
      congr 2
      funext i
      have := (hpos i).ne'
      rw [affine]; field_simp; ring
    have hcont : ∀ β : Fin d → ℕ, Continuous fun x : Vec d => mono β (fun i => (x i - c i) / h i) := by
      intro β
      unfold mono
      fun_prop
    have hint : ∀ g : Vec d → ℝ, Continuous g → IntegrableOn g (Set.Icc (c - h) (c + h)) := fun g hg => hg.continuousOn.integrableOn_compact isCompact_Icc
    simp only [e]
    have hc1 : ∀ (α : Fin d →₀ ℕ) (β : Fin d → ℕ), Continuous fun x : Vec d => kap c h α β * mono β (fun i => (x i - c i) / h i) :=
      fun α β => continuous_const.mul (hcont β)
    have hc2 : ∀ α : Fin d →₀ ℕ, Continuous fun x : Vec d => P.coeff α * ∑ β ∈ Fintype.piFinset fun i => range (α i + 1), kap c h α β * mono β (fun i => (x i - c i) / h i) :=
      fun α => continuous_const.mul (continuous_finsetSum _ fun β _ => hc1 α β)
    rw [integral_finsetSum P.support (f := fun (α : Fin d →₀ ℕ) (x : Vec d) => P.coeff α * ∑ β ∈ Fintype.piFinset fun i => range (α i + 1), kap c h α β * mono β (fun i => (x i - c i) / h i))
      (fun α _ => hint _ (hc2 α)), avgPoly, Finset.mul_sum]
    refine Finset.sum_congr rfl fun α _ => ?_
    rw [integral_const_mul, integral_finsetSum (Fintype.piFinset fun i => range (α i + 1)) (f := fun (β : Fin d → ℕ) (x : Vec d) => kap c h α β * mono β (fun i => (x i - c i) / h i))
      (fun β _ => hint _ (hc1 α β)), mul_left_comm]
    congr 1
    rw [Finset.mul_sum]
    refine Finset.sum_congr rfl fun β _ => ?_
    rw [integral_const_mul, integral_mono_box c h hpos]
    ring
  · push Not at hpos
    obtain ⟨i, hi⟩ := hpos
    have h0 : h i = 0 := le_antisymm hi (hh i)
    have hv : volume (Set.Icc (c - h) (c + h)) = 0 := by
      rw [Real.volume_Icc_pi]
      exact Finset.prod_eq_zero (mem_univ i) (by simp [h0])
    rw [Measure.restrict_eq_zero.2 hv, integral_zero_measure, Finset.prod_eq_zero (mem_univ i) (by rw [h0, mul_zero]), zero_mul]

/-! ## The rule for a region -/

theorem sums_affine (L : Lambdas) (c h : Vec d) (f : Vec d → ℝ) : gmSums d (gmValues L c h f) = unitSums L (fun t => f (affine c h t)) := by
  rw [unitSums, gmSums_eq, gmSums_eq, Sums.mk.injEq]
  have e0 : affine c h 0 = c := by funext i; simp [affine]
  have e1 : ∀ i x, axisPt c i (h i * x) = affine c h (axisPt 0 i x) := by
    intro i x
    funext k
    by_cases hk : k = i
    · subst hk; simp [axisPt, affine]
    · simp [axisPt, affine, Function.update_of_ne hk]
  have e2 : ∀ i j x y, i ≠ j → planePt c i j (h i * x) (h j * y) = affine c h (planePt 0 i j x y) := by
    intro i j x y hij
    funext k
    by_cases hk : k = j
    · subst hk; simp [planePt, affine]
    by_cases hk2 : k = i
    · subst hk2; simp [planePt, affine, hij]
    · simp [planePt, affine, Function.update_of_ne hk, Function.update_of_ne hk2]
  have e3 : ∀ s x, signPoint c (fun i => h i * x) s = affine c h (signPoint 0 (fun _ => x) s) := by
    intro s x
    funext k
    simp only [signPoint, affine, Pi.zero_apply]
    split_ifs <;> ring
  refine ⟨by rw [e0], ?_, ?_, ?_, ?_⟩
  · refine Finset.sum_congr rfl fun i _ => ?_
    simp only [Pi.one_apply, one_mul, ← mul_neg, e1]
  · refine Finset.sum_congr rfl fun i _ => ?_
    simp only [Pi.one_apply, one_mul, ← mul_neg, e1]
  · refine Finset.sum_congr rfl fun i _ => Finset.sum_congr rfl fun j hj => ?_
    have hij : i ≠ j := (Finset.mem_Ioi.1 hj).ne
    simp only [Pi.one_apply, one_mul, ← mul_neg, e2 i j _ _ hij]
  · refine Finset.sum_congr rfl fun s _ => ?_
    simp only [Pi.one_apply, one_mul, e3]

theorem gmValues_sum (L : Lambdas) (c h : Vec d) {ι : Type*} (s : Finset ι) (a : ι → ℝ) (g : ι → Vec d → ℝ) (k : ℕ) :
    gmValues L c h (fun t => ∑ i ∈ s, a i * g i t) k = ∑ i ∈ s, a i * gmValues L c h (g i) k := by
  unfold gmValues
  generalize gmPoints L c h = l
  induction l generalizing k with
  | nil => simp
  | cons p l ih =>
    cases k with
    | zero => simp
    | succ k => simpa using ih k

theorem gm7_linear (L : Lambdas) (ι : Type) (s : Finset ι) (a : ι → ℝ) (g : ι → Vec d → ℝ) :
    gm7 d (unitSums L (fun t => ∑ i ∈ s, a i * g i t)) = ∑ i ∈ s, a i * gm7 d (unitSums L (g i)) := by
  simp only [gm7, unitSums, gmSums, gmValues_sum]
  simp only [← Finset.sum_add_distrib, Finset.mul_sum, mul_add, Finset.sum_comm (s := range _) (t := s)]
  refine Finset.sum_congr rfl fun i _ => ?_
  simp only [mul_left_comm (a i)]

theorem gm5_linear (L : Lambdas) (ι : Type) (s : Finset ι) (a : ι → ℝ) (g : ι → Vec d → ℝ) :
    gm5 d (unitSums L (fun t => ∑ i ∈ s, a i * g i t)) = ∑ i ∈ s, a i * gm5 d (unitSums L (g i)) := by
  simp only [gm5, unitSums, gmSums, gmValues_sum]
  simp only [← Finset.sum_add_distrib, Finset.mul_sum, mul_add, Finset.sum_comm (s := range _) (t := s)]
  refine Finset.sum_congr rfl fun i _ => ?_
  simp only [mul_left_comm (a i)]

/-- cubature.cpp:552: the estimate of the integral over a region with the given values of the integrand at its points -/
def gmResult (d : ℕ) (vol : ℝ) (v : ℕ → ℝ) : ℝ := vol * gm7 d (gmSums d v)
/-- cubature.cpp:553: the estimate of the lower degree -/
def gmRes5th (d : ℕ) (vol : ℝ) (v : ℕ → ℝ) : ℝ := vol * gm5 d (gmSums d v)

theorem result_bound (L : Lambdas) (ε : ℝ) (hL : Good L ε) (c h : Vec d) (hh : ∀ i, 0 ≤ h i) (P : MvPolynomial (Fin d) ℝ) :
    (P.totalDegree ≤ 7 → |gmResult d (∏ i, 2 * h i) (gmValues L c h fun x => MvPolynomial.eval x P) - ∫ x in Set.Icc (c - h) (c + h), MvPolynomial.eval x P| ≤
      ε * (∏ i, 2 * h i) * size P c h) ∧
    (P.totalDegree ≤ 5 → |gmRes5th d (∏ i, 2 * h i) (gmValues L c h fun x => MvPolynomial.eval x P) - ∫ x in Set.Icc (c - h) (c + h), MvPolynomial.eval x P| ≤
      ε * (∏ i, 2 * h i) * size P c h) := by
  have hvol : 0 ≤ ∏ i, 2 * h i := Finset.prod_nonneg fun i _ => by linarith [hh i]
  rw [integral_poly_box P c h hh, gmResult, gmRes5th, sums_affine, ← mul_sub, ← mul_sub, abs_mul, abs_mul, abs_of_nonneg hvol, mul_right_comm, mul_comm (ε * _)]
  constructor
  · intro h7
    exact mul_le_mul_of_nonneg_left (functional_bound (fun g => gm7 d (unitSums L g)) (gm7_linear L) 7 ε (fun α => (moments L ε hL α).1) P h7 c h) hvol
  · intro h5
    exact mul_le_mul_of_nonneg_left (functional_bound (fun g => gm5 d (unitSums L g)) (gm5_linear L) 5 ε (fun α => (moments L ε hL α).2) P h5 c h) hvol

end

end Verif.Cubature
