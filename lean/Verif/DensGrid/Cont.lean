import Verif.DensGrid.Cells

/-! Classic scheme with N=1: continuity of the basis functions -/

namespace Verif.DensGrid

open Real Verif.Coord

noncomputable section

/-- specification: value of the q-th basis function at the given point -/
def Classic.value (g : Classic) (q : ℕ) (v : ℝ × ℝ × ℝ) : ℝ := contrib ((g.add1 ⟨v.1, v.2.1, v.2.2⟩ 1).getD []) q

variable {g : Classic}

theorem inSeg_of_le (hv : g.Valid) (hn : 2 ≤ g.radii.length) {r : ℝ} (h0 : 0 ≤ r) (h1 : r ≤ node g.radii g.radii.length) : ∃ k, InSeg g.radii k r := by
  obtain ⟨k, -, h | ⟨-, h⟩⟩ := locate_spec hv.grid h0
  · exact ⟨k, h⟩
  · have := h.2 (le_antisymm h1 h.1); omega

theorem inSeg_of_lt (hv : g.Valid) {r : ℝ} (h0 : 0 ≤ r) (h1 : r < node g.radii g.radii.length) : ∃ k, InSeg g.radii k r := by
  obtain ⟨k, -, h | ⟨-, h⟩⟩ := locate_spec hv.grid h0
  · exact ⟨k, h⟩
  · exact absurd h.1 (not_le.2 h1)

theorem value_eq (hv : g.Valid) (hn : 2 ≤ g.radii.length) (q : ℕ) {v : ℝ × ℝ × ℝ} (h1 : g.rad ⟨v.1, v.2.1, v.2.2⟩ ≤ node g.radii g.radii.length) {p : ℕ} (hp : g.InPane ⟨v.1, v.2.1, v.2.2⟩ p) :
    g.value q v = g.basis p (g.rad ⟨v.1, v.2.1, v.2.2⟩) (g.t1 ⟨v.1, v.2.1, v.2.2⟩ p) (g.t2 ⟨v.1, v.2.1, v.2.2⟩ p) q := by
  obtain ⟨k, hk⟩ := inSeg_of_le hv hn (rad_nonneg g _) h1
  obtain ⟨u, e1, -, e2⟩ := add1_eq hv one_ne_zero hk
  rw [Classic.value, e1, Option.getD_some, e2 p hp q, one_mul]

theorem rad_cont (g : Classic) : Continuous fun v : ℝ × ℝ × ℝ => g.rad ⟨v.1, v.2.1, v.2.2⟩ := by
  unfold Classic.rad Classic.sx Classic.sy Classic.sz
  fun_prop

theorem s_cont (g : Classic) : (Continuous fun v : ℝ × ℝ × ℝ => g.sx ⟨v.1, v.2.1, v.2.2⟩) ∧ (Continuous fun v : ℝ × ℝ × ℝ => g.sy ⟨v.1, v.2.1, v.2.2⟩) ∧ Continuous fun v : ℝ × ℝ × ℝ => g.sz ⟨v.1, v.2.1, v.2.2⟩ := by
  unfold Classic.sx Classic.sy Classic.sz
  exact ⟨by fun_prop, by fun_prop, by fun_prop⟩

theorem pane_cont (g : Classic) (p : ℕ) : Continuous fun v : ℝ × ℝ × ℝ => g.pane ⟨v.1, v.2.1, v.2.2⟩ p := by
  obtain ⟨h1, h2, h3⟩ := s_cont g
  unfold Classic.pane cyc
  split_ifs
  · exact h1.prodMk (h2.prodMk h3)
  · exact h2.prodMk (h3.prodMk h1)
  · exact h3.prodMk (h1.prodMk h2)

theorem pane_closed (g : Classic) (p : ℕ) : IsClosed {v : ℝ × ℝ × ℝ | g.InPane ⟨v.1, v.2.1, v.2.2⟩ p} := by
  have h := pane_cont g p
  have e : {v : ℝ × ℝ × ℝ | g.InPane ⟨v.1, v.2.1, v.2.2⟩ p} = {v | p < 3} ∩ ({v | (g.pane ⟨v.1, v.2.1, v.2.2⟩ p).2.1 ≤ (g.pane ⟨v.1, v.2.1, v.2.2⟩ p).1} ∩ {v | (g.pane ⟨v.1, v.2.1, v.2.2⟩ p).2.2 ≤ (g.pane ⟨v.1, v.2.1, v.2.2⟩ p).1}) := by
    ext v; rfl
  rw [e]
  exact isClosed_const.inter ((isClosed_le h.snd.fst h.fst).inter (isClosed_le h.snd.snd h.fst))

theorem angSum_le (hv : g.Valid) {t1 t2 : ℝ} (a1 : 0 ≤ t1) (a2 : t1 ≤ g.S) (b1 : 0 ≤ t2) (b2 : t2 ≤ g.S) (k p q : ℕ) :
    |∑ i ∈ Finset.range (g.S + 1), hatA i t1 * ∑ j ∈ Finset.range (g.S + 1), hatA j t2 * (if g.nodeIdx k p i j = q then (1 : ℝ) else 0)| ≤ 1 := by
  have hin : ∀ i, 0 ≤ ∑ j ∈ Finset.range (g.S + 1), hatA j t2 * (if g.nodeIdx k p i j = q then (1 : ℝ) else 0) ∧ ∑ j ∈ Finset.range (g.S + 1), hatA j t2 * (if g.nodeIdx k p i j = q then (1 : ℝ) else 0) ≤ 1 := by
    intro i
    constructor
    · refine Finset.sum_nonneg fun j _ => mul_nonneg (hatA_nonneg _ _) ?_
      split_ifs <;> norm_num
    · rw [← hatA_sum_one hv.strips b1 b2]
      refine Finset.sum_le_sum fun j _ => ?_
      have := hatA_nonneg j t2
      split_ifs
      · rw [hatA_sum_one hv.strips b1 b2, mul_one]
      · rw [mul_zero]; exact this
  rw [abs_of_nonneg (Finset.sum_nonneg fun i _ => mul_nonneg (hatA_nonneg _ _) (hin i).1)]
  refine le_trans ?_ (hatA_sum_one hv.strips a1 a2).le
  exact Finset.sum_le_sum fun i _ => by have := hatA_nonneg i t1; nlinarith [(hin i).2]

/-- on each pane, the basis function is continuous, including the origin -/
theorem value_cont_pane (hv : g.Valid) (hn : 2 ≤ g.radii.length) (q p : ℕ) :
    ContinuousOn (g.value q) ({v | g.rad ⟨v.1, v.2.1, v.2.2⟩ ≤ node g.radii g.radii.length} ∩ {v | g.InPane ⟨v.1, v.2.1, v.2.2⟩ p}) := by
  have hc : ContinuousOn (fun v : ℝ × ℝ × ℝ => g.basis p (g.rad ⟨v.1, v.2.1, v.2.2⟩) (g.t1 ⟨v.1, v.2.1, v.2.2⟩ p) (g.t2 ⟨v.1, v.2.1, v.2.2⟩ p) q)
      ({v | g.rad ⟨v.1, v.2.1, v.2.2⟩ ≤ node g.radii g.radii.length} ∩ {v | g.InPane ⟨v.1, v.2.1, v.2.2⟩ p}) := by
    intro v hvv
    unfold Classic.basis
    refine tendsto_finsetSum _ fun k hk => ?_
    have hk' : k ≤ g.radii.length := by rw [Finset.mem_range] at hk; omega
    have hhat : Continuous fun v : ℝ × ℝ × ℝ => hatR g.radii k (g.rad ⟨v.1, v.2.1, v.2.2⟩) := (hatR_continuous _ _).comp (rad_cont g)
    by_cases hr : g.rad ⟨v.1, v.2.1, v.2.2⟩ = 0
    · -- at the origin
      rcases Nat.eq_zero_or_pos k with h0 | h0
      · subst h0
        have hconst : ∀ v ∈ ({v | g.rad ⟨v.1, v.2.1, v.2.2⟩ ≤ node g.radii g.radii.length} ∩ {v : ℝ × ℝ × ℝ | g.InPane ⟨v.1, v.2.1, v.2.2⟩ p}),
            hatR g.radii 0 (g.rad ⟨v.1, v.2.1, v.2.2⟩) * ∑ i ∈ Finset.range (g.S + 1), hatA i (g.t1 ⟨v.1, v.2.1, v.2.2⟩ p) * ∑ j ∈ Finset.range (g.S + 1), hatA j (g.t2 ⟨v.1, v.2.1, v.2.2⟩ p) * (if g.nodeIdx 0 p i j = q then (1 : ℝ) else 0)
            = hatR g.radii 0 (g.rad ⟨v.1, v.2.1, v.2.2⟩) * (if 0 = q then 1 else 0) := by
          intro v hvv
          obtain ⟨⟨a1, a2⟩, a3, a4⟩ := t_range hv hvv.2
          have e : ∀ i j, g.nodeIdx 0 p i j = 0 := fun i j => by simp [Classic.nodeIdx]
          simp only [e]
          rw [← Finset.sum_mul, ← Finset.sum_mul, hatA_sum_one hv.strips a1 a2, hatA_sum_one hv.strips a3 a4]
          ring
        have hgoal : ContinuousWithinAt (fun v : ℝ × ℝ × ℝ => hatR g.radii 0 (g.rad ⟨v.1, v.2.1, v.2.2⟩) * (if 0 = q then 1 else 0)) ({v | g.rad ⟨v.1, v.2.1, v.2.2⟩ ≤ node g.radii g.radii.length} ∩ {v | g.InPane ⟨v.1, v.2.1, v.2.2⟩ p}) v :=
          (hhat.mul continuous_const).continuousWithinAt
        exact hgoal.congr hconst (hconst v hvv)
      · have hz : hatR g.radii k (g.rad ⟨v.1, v.2.1, v.2.2⟩) = 0 := by
          have := hatR_node hv.grid hk' (Nat.zero_le _)
          rw [node_zero, if_neg (by omega)] at this
          rw [hr, this]
        rw [hz, zero_mul]
        refine squeeze_zero_norm' (a := fun v : ℝ × ℝ × ℝ => hatR g.radii k (g.rad ⟨v.1, v.2.1, v.2.2⟩)) ?_ ?_
        · filter_upwards [self_mem_nhdsWithin] with w hw
          obtain ⟨⟨a1, a2⟩, a3, a4⟩ := t_range hv hw.2
          rw [Real.norm_eq_abs, abs_mul, abs_of_nonneg (hatR_nonneg _ _ _)]
          exact mul_le_of_le_one_right (hatR_nonneg _ _ _) (angSum_le hv a1 a2 a3 a4 k p q)
        · have := hhat.continuousWithinAt (s := {v | g.rad ⟨v.1, v.2.1, v.2.2⟩ ≤ node g.radii g.radii.length} ∩ {v | g.InPane ⟨v.1, v.2.1, v.2.2⟩ p}) (x := v)
          rw [ContinuousWithinAt, hz] at this
          exact this
    · have hz : (g.pane ⟨v.1, v.2.1, v.2.2⟩ p).1 ≠ 0 := fun h => hr ((pane_zero hv hvv.2).1 h)
      have hp := pane_cont g p
      have c1 : ContinuousAt (fun v : ℝ × ℝ × ℝ => g.t1 ⟨v.1, v.2.1, v.2.2⟩ p) v := by
        unfold Classic.t1 angCoord
        exact continuousAt_const.mul (((continuous_arctan.continuousAt).comp (hp.snd.fst.continuousAt.div hp.fst.continuousAt hz)).div_const _)
      have c2 : ContinuousAt (fun v : ℝ × ℝ × ℝ => g.t2 ⟨v.1, v.2.1, v.2.2⟩ p) v := by
        unfold Classic.t2 angCoord
        exact continuousAt_const.mul (((continuous_arctan.continuousAt).comp (hp.snd.snd.continuousAt.div hp.fst.continuousAt hz)).div_const _)
      have c3 : ContinuousAt (fun v : ℝ × ℝ × ℝ => hatR g.radii k (g.rad ⟨v.1, v.2.1, v.2.2⟩) * ∑ i ∈ Finset.range (g.S + 1), hatA i (g.t1 ⟨v.1, v.2.1, v.2.2⟩ p) * ∑ j ∈ Finset.range (g.S + 1), hatA j (g.t2 ⟨v.1, v.2.1, v.2.2⟩ p) * (if g.nodeIdx k p i j = q then (1 : ℝ) else 0)) v := by
        refine hhat.continuousAt.mul (tendsto_finsetSum _ fun i _ => ContinuousAt.mul ?_ (tendsto_finsetSum _ fun j _ => ContinuousAt.mul ?_ continuousAt_const))
        · exact (hatA_continuous i).continuousAt.comp c1
        · exact (hatA_continuous j).continuousAt.comp c2
      exact c3.continuousWithinAt
  exact hc.congr fun v hvv => value_eq hv hn q hvv.1 hvv.2

/-- Each basis function is continuous within the grid -/
theorem value_cont (hv : g.Valid) (hn : 2 ≤ g.radii.length) (q : ℕ) : ContinuousOn (g.value q) {v | g.rad ⟨v.1, v.2.1, v.2.2⟩ ≤ node g.radii g.radii.length} := by
  have hcl : IsClosed {v : ℝ × ℝ × ℝ | g.rad ⟨v.1, v.2.1, v.2.2⟩ ≤ node g.radii g.radii.length} := isClosed_le (rad_cont g) continuous_const
  have hcp : ∀ p, IsClosed ({v | g.rad ⟨v.1, v.2.1, v.2.2⟩ ≤ node g.radii g.radii.length} ∩ {v : ℝ × ℝ × ℝ | g.InPane ⟨v.1, v.2.1, v.2.2⟩ p}) := fun p => hcl.inter (pane_closed g p)
  have h01 := (value_cont_pane hv hn q 0).union_of_isClosed (value_cont_pane hv hn q 1) (hcp 0) (hcp 1)
  have h012 := h01.union_of_isClosed (value_cont_pane hv hn q 2) ((hcp 0).union (hcp 1)) (hcp 2)
  refine h012.mono fun v hvv => ?_
  obtain ⟨p, hp⟩ := exists_pane g ⟨v.1, v.2.1, v.2.2⟩
  have := hp.1
  interval_cases p
  · exact Or.inl (Or.inl ⟨hvv, hp⟩)
  · exact Or.inl (Or.inr ⟨hvv, hp⟩)
  · exact Or.inr ⟨hvv, hp⟩

end

end Verif.DensGrid
