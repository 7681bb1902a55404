import Verif.Core.GLNodes
import Mathlib.Data.Finset.Sort

/-! The Gauss-Legendre rule of every order exists: P_n has n distinct roots inside (-1,1). -/
namespace Verif.GL
open Polynomial Verif.Leg

/-- nodes and weights of a symmetric quadrature rule on [-1,1], exact for polynomials of degree below 2n: what prepareIntegrationTableGL(-1,1,n) returns up to rounding (C38, C52, C53) -/
structure Rule (n : ℕ) (x w : ℕ → ℝ) : Prop where
  inside : ∀ j < n, -1 < x j ∧ x j < 1
  increasing : ∀ i j, i < j → j < n → x i < x j
  odd : ∀ j < n, x (n - 1 - j) = - x j
  even : ∀ j < n, w (n - 1 - j) = w j
  positive : ∀ j < n, 0 < w j
  exact : ∀ q : ℝ[X], q.natDegree < 2 * n → ∑ j ∈ Finset.range n, w j * q.eval (x j) = ∫ t in (-1 : ℝ)..1, q.eval t

theorem leg_ne_zero (n : ℕ) : leg n ≠ 0 := by
  intro h
  have := (eval_ends n).1
  rw [h] at this; simp at this

theorem leg_parity (n : ℕ) (x : ℝ) : (leg n).eval (-x) = (-1) ^ n * (leg n).eval x := by
  induction n using Nat.twoStepInduction with
  | zero => simp [leg]
  | one => simp [leg]
  | more n h0 h1 =>
    have hb := congrArg (eval x) (bonnet n)
    have hb' := congrArg (eval (-x)) (bonnet n)
    simp only [eval_mul, eval_sub, eval_X, eval_C] at hb hb'
    have hn : (n : ℝ) + 2 ≠ 0 := by positivity
    apply mul_left_cancel₀ hn
    rw [hb', h0, h1]
    have e1 : ((-1 : ℝ)) ^ (n + 2) = (-1) ^ n := by rw [pow_add]; norm_num
    have e2 : ((-1 : ℝ)) ^ (n + 1) = -(-1) ^ n := by rw [pow_succ]; ring
    rw [e1, e2]
    linear_combination (-1 : ℝ) ^ n * (-hb)

/-- the roots inside (-1,1) -/
noncomputable def S (n : ℕ) : Finset ℝ := (leg n).roots.toFinset.filter fun r => -1 < r ∧ r < 1

theorem mem_S (n : ℕ) (r : ℝ) : r ∈ S n ↔ (leg n).eval r = 0 ∧ -1 < r ∧ r < 1 := by
  rw [S, Finset.mem_filter, Multiset.mem_toFinset, mem_roots (leg_ne_zero n), IsRoot.def]

theorem const_sign (s : ℝ[X]) (h : ∀ r, -1 < r → r < 1 → s.eval r ≠ 0) : (∀ r, -1 < r → r < 1 → 0 < s.eval r) ∨ (∀ r, -1 < r → r < 1 → s.eval r < 0) := by
  have hc : ContinuousOn (fun r => s.eval r) (Set.Ioo (-1 : ℝ) 1) := s.continuous.continuousOn
  have pre := isPreconnected_Ioo (a := (-1 : ℝ)) (b := 1)
  rcases lt_or_gt_of_ne (h 0 (by norm_num) (by norm_num)) with h0 | h0
  · right
    intro r h1 h2
    by_contra hh
    have := pre.intermediate_value (a := 0) (b := r) (by constructor <;> norm_num) ⟨h1, h2⟩ hc
    obtain ⟨z, hz, e⟩ := this ⟨h0.le, not_lt.1 hh⟩
    exact h z hz.1 hz.2 e
  · left
    intro r h1 h2
    by_contra hh
    have := pre.intermediate_value (a := r) (b := 0) ⟨h1, h2⟩ (by constructor <;> norm_num) hc
    obtain ⟨z, hz, e⟩ := this ⟨not_lt.1 hh, h0.le⟩
    exact h z hz.1 hz.2 e

theorem prod_dvd (p : ℝ[X]) (T : Finset ℝ) (h : ∀ r ∈ T, p.eval r = 0) : ∃ s, p = (∏ r ∈ T, (X - C r)) * s := by
  have : (∏ r ∈ T, (X - C r)) ∣ p := by
    apply Finset.prod_dvd_of_coprime
    · intro a _ b _ hab
      exact isCoprime_X_sub_C_of_isUnit_sub (sub_ne_zero.2 hab).isUnit
    · intro r hr
      exact dvd_iff_isRoot.2 (h r hr)
  exact this

theorem L_pos (p : ℝ[X]) (h : ∀ r, -1 < r → r < 1 → 0 ≤ p.eval r) (h0 : p ≠ 0) : 0 < L p := by
  rw [L_def]
  have hc : Continuous fun x => p.eval x := p.continuous
  obtain ⟨z, hz, hne⟩ : ∃ z ∈ Set.Ioo (-1 : ℝ) 1, p.eval z ≠ 0 := by
    by_contra hcon
    push Not at hcon
    exact h0 (Polynomial.eq_zero_of_infinite_isRoot p (Set.Infinite.mono (fun z hz => hcon z hz) (Set.Ioo_infinite (by norm_num))))
  apply intervalIntegral.integral_pos (by norm_num) hc.continuousOn
  · intro x hx
    rcases eq_or_lt_of_le hx.2 with e | e
    · have hcl : closure (Set.Ioo (-1 : ℝ) 1) = Set.Icc (-1) 1 := closure_Ioo (by norm_num)
      have : x ∈ closure (Set.Ioo (-1 : ℝ) 1) := by rw [hcl]; exact ⟨hx.1.le, hx.2⟩
      have hcl2 : IsClosed {y : ℝ | 0 ≤ p.eval y} := isClosed_le continuous_const hc
      exact closure_minimal (fun y hy => h y hy.1 hy.2) hcl2 this
    · exact h x hx.1 e
  · exact ⟨z, ⟨hz.1.le, hz.2.le⟩, lt_of_le_of_ne (h z hz.1 hz.2) hne.symm⟩

theorem card_S (n : ℕ) (hn : 1 ≤ n) : (S n).card = n := by
  have le : (S n).card ≤ n := by
    calc (S n).card ≤ (leg n).roots.toFinset.card := Finset.card_filter_le _ _
      _ ≤ Multiset.card (leg n).roots := Multiset.toFinset_card_le _
      _ ≤ (leg n).natDegree := card_roots' _
      _ ≤ n := leg_natDegree_le n
  by_contra hne
  have hlt : (S n).card < n := by omega
  obtain ⟨s, hs⟩ := prod_dvd (leg n) (S n) fun r hr => ((mem_S n r).1 hr).1
  set q := ∏ r ∈ S n, (X - C r) with hq
  have qmon : q.Monic := monic_prod_of_monic _ _ fun r _ => monic_X_sub_C r
  have s0 : s ≠ 0 := by rintro rfl; exact leg_ne_zero n (by rw [hs, mul_zero])
  have hsr : ∀ r, -1 < r → r < 1 → s.eval r ≠ 0 := by
    intro r h1 h2 e
    have hroot : (leg n).eval r = 0 := by rw [hs, eval_mul, e, mul_zero]
    have hmem : r ∈ S n := (mem_S n r).2 ⟨hroot, h1, h2⟩
    have hq0 : q.eval r = 0 := by
      rw [hq, eval_prod]
      exact Finset.prod_eq_zero hmem (by simp)
    apply (leg_simple n hn r hroot).2
    rw [hs, derivative_mul, eval_add, eval_mul, eval_mul, e, hq0]; ring
  have deg : q.degree < n := by
    rw [hq, degree_prod_of_monic _ _ fun r _ => monic_X_sub_C r]
    simp only [degree_X_sub_C, Finset.sum_const, nsmul_eq_mul, mul_one]
    exact_mod_cast hlt
  have z := ortho n q deg
  have e : leg n * q = q * q * s := by rw [hs]; ring
  rw [e] at z
  have qq : q * q ≠ 0 := mul_ne_zero qmon.ne_zero qmon.ne_zero
  rcases const_sign s hsr with hpos | hneg
  · have := L_pos (q * q * s) (fun r h1 h2 => by
      rw [eval_mul, eval_mul]; exact mul_nonneg (mul_self_nonneg _) (hpos r h1 h2).le) (mul_ne_zero qq s0)
    linarith
  · have := L_pos (q * q * (-s)) (fun r h1 h2 => by
      rw [eval_mul, eval_mul, eval_neg]; exact mul_nonneg (mul_self_nonneg _) (by linarith [hneg r h1 h2])) (mul_ne_zero qq (neg_ne_zero.2 s0))
    rw [mul_neg, map_neg, z] at this
    linarith

/-- For every n ≥ 1 the rule exists: the nodes are the n roots of P_n in increasing order. -/
theorem rule_exists (n : ℕ) (hn : 1 ≤ n) : ∃ x w : ℕ → ℝ, Rule n x w ∧ ∀ j < n, (leg n).eval (x j) = 0 ∧ w j = 2 / ((1 - x j * x j) * (derivative (leg n)).eval (x j) ^ 2) := by
  obtain ⟨k, rfl⟩ : ∃ k, n = k + 1 := ⟨n - 1, by omega⟩
  set n := k + 1
  let o := (S n).orderEmbOfFin (card_S n hn)
  have omem : ∀ i, o i ∈ S n := fun i => Finset.orderEmbOfFin_mem _ _ i
  -- symmetry of the nodes
  have osym : ∀ i : Fin n, o (Fin.rev i) = - o i := by
    have hg : (fun i : Fin n => - o (Fin.rev i)) = o := by
      apply Finset.orderEmbOfFin_unique (card_S n hn)
      · intro i
        obtain ⟨a, b, c⟩ := (mem_S n _).1 (omem (Fin.rev i))
        exact (mem_S n _).2 ⟨by rw [leg_parity, a, mul_zero], by linarith, by linarith⟩
      · intro i j hij
        have : o (Fin.rev j) < o (Fin.rev i) := o.strictMono (Fin.rev_lt_rev.2 hij)
        linarith
    intro i
    have := congrFun hg i
    linarith
  have dsym : ∀ x : ℝ, (derivative (leg n)).eval (-x) ^ 2 = (derivative (leg n)).eval x ^ 2 := by
    have hp : (leg n).comp (-X) = C ((-1) ^ n) * leg n := by
      apply Polynomial.funext
      intro x
      rw [eval_comp, eval_neg, eval_X, leg_parity, eval_mul, eval_C]
    intro x
    have hd := congrArg (fun p => (derivative p).eval x) hp
    simp only [derivative_comp, derivative_neg, derivative_X, derivative_C_mul, eval_mul, eval_comp, eval_neg, eval_X, eval_C, eval_one] at hd
    have : (derivative (leg n)).eval (-x) = -((-1) ^ n * (derivative (leg n)).eval x) := by linarith
    rw [this, neg_sq, mul_pow, ← pow_mul, mul_comm n 2, pow_mul]; norm_num
  let x : ℕ → ℝ := fun j => if h : j < n then o ⟨j, h⟩ else 0
  let wf : ℝ → ℝ := fun t => 2 / ((1 - t * t) * (derivative (leg n)).eval t ^ 2)
  have xv : ∀ j (h : j < n), x j = o ⟨j, h⟩ := fun j h => by simp only [x]; rw [dif_pos h]
  have xs : ∀ j < n, x (n - 1 - j) = - x j := by
    intro j hj
    rw [xv j hj, xv (n - 1 - j) (by omega), ← osym]
    congr 1
    rw [Fin.ext_iff, Fin.val_rev]; simp only; omega
  refine ⟨x, fun j => wf (x j), ⟨?_, ?_, xs, ?_, ?_, ?_⟩, ?_⟩
  · intro j hj; rw [xv j hj]; exact ((mem_S n _).1 (omem _)).2
  · intro i j hij hj
    rw [xv i (by omega), xv j hj]
    exact o.strictMono (by simpa [Fin.lt_def] using hij)
  · intro j hj
    simp only [wf]
    rw [xs j hj, dsym]; ring_nf
  · intro j hj
    simp only [wf]
    obtain ⟨a, b, c⟩ := (mem_S n _).1 (omem ⟨j, hj⟩)
    rw [xv j hj]
    have h1 : 0 < 1 - o ⟨j, hj⟩ * o ⟨j, hj⟩ := by nlinarith
    have h2 : 0 < (derivative (leg n)).eval (o ⟨j, hj⟩) ^ 2 := by
      have := (leg_simple n hn _ a).2; positivity
    positivity
  · intro q hq
    have root : ∀ i, (leg n).eval (o i) = 0 := fun i => ((mem_S n _).1 (omem i)).1
    have g := gauss k (fun i => o i) o.injective root (fun i => (leg_simple n hn _ (root i)).2) (fun i => by rw [pow_two]; exact (leg_simple n hn _ (root i)).1) q
      (lt_of_le_of_lt degree_le_natDegree (by exact_mod_cast hq))
    rw [← g, Finset.sum_range]
    apply Finset.sum_congr rfl
    intro i _
    simp only [wf]
    rw [xv i i.2, Fin.eta, pow_two (o i)]
  · intro j hj
    exact ⟨by rw [xv j hj]; exact ((mem_S n _).1 (omem _)).1, rfl⟩

end Verif.GL
