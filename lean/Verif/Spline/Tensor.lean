import Verif.Spline.Interp2d

/-! Tensor products of one-dimensional interpolators (used for C95). -/

namespace Verif.Spline

open Verif.BSpline (Grid)

noncomputable section

/-- value, first or second derivative -/
def Jet3.get (r : ℕ) (j : Jet3) : ℝ := if r = 0 then j.val else if r = 1 then j.der else j.der2

@[simp] theorem Jet3.get_zero (j : Jet3) : j.get 0 = j.val := rfl
@[simp] theorem Jet3.get_one (j : Jet3) : j.get 1 = j.der := rfl
@[simp] theorem Jet3.get_two (j : Jet3) : j.get 2 = j.der2 := rfl

def delta (a i : ℕ) : ℕ → ℕ → ℝ := fun b j => if b = a ∧ j = i then 1 else 0

theorem lin_of_local {n m k : ℕ} (hk : k + 1 < n) {e : (ℕ → ℕ → ℝ) → ℝ} {A B : ℕ → ℝ}
    (h : ∀ D, e D = ∑ a ∈ Finset.range m, (D a k * A a + D a (k + 1) * B a)) (D : ℕ → ℕ → ℝ) :
    e D = ∑ a ∈ Finset.range m, ∑ i ∈ Finset.range n, D a i * e (delta a i) := by
  rw [h D]
  refine Finset.sum_congr rfl fun a ha => ?_
  have key : ∀ i, e (delta a i) = (if i = k then A a else 0) + (if i = k + 1 then B a else 0) := by
    intro i
    rw [h, Finset.sum_eq_single a]
    · simp [delta, eq_comm]
    · intro b _ hb; simp [delta, hb]
    · intro h'; exact absurd ha h'
  simp only [key, mul_add, Finset.sum_add_distrib, mul_ite, mul_zero, Finset.sum_ite_eq', Finset.mem_range]
  rw [if_pos (by omega), if_pos (by omega)]

def cubicE (x : ℕ → ℝ) (n : ℕ) (D : ℕ → ℕ → ℝ) (t : ℝ) : Jet3 := (CubicSpline.evalDeriv x (D 0) (D 1) n t).getD ⟨0, 0, 0, 0⟩
def quinticE (x : ℕ → ℝ) (n : ℕ) (D : ℕ → ℕ → ℝ) (t : ℝ) : Jet3 := (QuinticSpline.evalDeriv x (D 0) (D 1) (D 2) n t).getD ⟨0, 0, 0, 0⟩
def linearE (x : ℕ → ℝ) (n : ℕ) (D : ℕ → ℕ → ℝ) (t : ℝ) : Jet3 := (LinearInterpolator.evalDeriv x (D 0) n t).getD ⟨0, 0, 0, 0⟩

theorem evalCubic_lin (t a b fl fh dl dh : ℝ) (r : ℕ) : (evalCubic t a b fl fh dl dh).get r =
    fl * (evalCubic t a b 1 0 0 0).get r + fh * (evalCubic t a b 0 1 0 0).get r + (dl * (evalCubic t a b 0 0 1 0).get r + dh * (evalCubic t a b 0 0 0 1).get r) := by
  by_cases h0 : r = 0
  · subst h0; simp only [Jet3.get_zero, evalCubic]; ring
  · by_cases h1 : r = 1
    · subst h1; simp only [Jet3.get_one, evalCubic]; ring
    · simp only [Jet3.get, if_neg h0, if_neg h1, evalCubic]; ring

theorem evalQuintic_lin (t a b fl fh dl dh el eh : ℝ) (r : ℕ) : (evalQuintic t a b fl fh dl dh el eh).get r =
    fl * (evalQuintic t a b 1 0 0 0 0 0).get r + fh * (evalQuintic t a b 0 1 0 0 0 0).get r +
    (dl * (evalQuintic t a b 0 0 1 0 0 0).get r + dh * (evalQuintic t a b 0 0 0 1 0 0).get r) +
    (el * (evalQuintic t a b 0 0 0 0 1 0).get r + eh * (evalQuintic t a b 0 0 0 0 0 1).get r) := by
  by_cases hx : t = b
  · simp only [evalQuintic, if_pos hx]
    by_cases h0 : r = 0
    · subst h0; simp only [Jet3.get_zero]; ring
    · by_cases h1 : r = 1
      · subst h1; simp only [Jet3.get_one]; ring
      · simp only [Jet3.get, if_neg h0, if_neg h1]; ring
  · simp only [evalQuintic, if_neg hx]
    by_cases h0 : r = 0
    · subst h0; simp only [Jet3.get_zero]; ring
    · by_cases h1 : r = 1
      · subst h1; simp only [Jet3.get_one]; ring
      · simp only [Jet3.get, if_neg h0, if_neg h1]; ring

/-- inside of the grid the segment is found -/
theorem bin_in {x : ℕ → ℝ} {n : ℕ} (hg : Grid x n) (hn : 2 ≤ n) {t : ℝ} (h0 : x 0 ≤ t) (h1 : t ≤ x (n - 1)) :
    ∃ k : ℕ, k + 1 < n ∧ x k ≤ t ∧ t ≤ x (k + 1) ∧ (t = x (k + 1) → k + 2 = n) ∧ bin x n t = k := by
  rcases bin_cases hg (by omega) t with ⟨h, _⟩ | ⟨h, _⟩ | ⟨h, _, _⟩ | h
  · linarith
  · linarith
  · omega
  · exact h

theorem bin_out {x : ℕ → ℝ} {n : ℕ} (hg : Grid x n) (hn : 2 ≤ n) (t : ℝ) :
    (bin x n t < 0 ∨ bin x n t ≥ (n : ℤ) - 1) ↔ ¬(x 0 ≤ t ∧ t ≤ x (n - 1)) := by
  rcases bin_cases hg (by omega) t with ⟨h, hb⟩ | ⟨h, hb⟩ | ⟨h, _, _⟩ | ⟨k, hk, h1, h2, _, hb⟩
  · rw [hb]; constructor
    · intro _ h'; linarith [h'.1]
    · intro _; left; norm_num
  · rw [hb]; constructor
    · intro _ h'; linarith [h'.2]
    · intro _; right; exact le_rfl
  · omega
  · rw [hb]; constructor
    · intro h; omega
    · intro h; exact absurd ⟨(Grid.le hg (Nat.zero_le k) (by omega)).trans h1, h2.trans (Grid.le hg (by omega) (by omega))⟩ h

theorem cubicE_in {x : ℕ → ℝ} {n k : ℕ} (D : ℕ → ℕ → ℝ) (t : ℝ) (hk : k + 1 < n) (hb : bin x n t = k) :
    cubicE x n D t = evalCubic t (x k) (x (k + 1)) (D 0 k) (D 0 (k + 1)) (D 1 k) (D 1 (k + 1)) := by
  rw [cubicE, CubicSpline.evalDeriv, if_neg (by omega)]
  simp only [hb]
  rw [if_neg (by omega), if_neg (by omega)]
  simp

theorem quinticE_in {x : ℕ → ℝ} {n k : ℕ} (D : ℕ → ℕ → ℝ) (t : ℝ) (hk : k + 1 < n) (hb : bin x n t = k) :
    quinticE x n D t = evalQuintic t (x k) (x (k + 1)) (D 0 k) (D 0 (k + 1)) (D 1 k) (D 1 (k + 1)) (D 2 k) (D 2 (k + 1)) := by
  rw [quinticE, QuinticSpline.evalDeriv, if_neg (by omega)]
  simp only [hb]
  rw [if_neg (by omega), if_neg (by omega)]
  simp

theorem linearE_in {x : ℕ → ℝ} {n k : ℕ} (D : ℕ → ℕ → ℝ) (t : ℝ) (hk : k + 1 < n) (hb : bin x n t = k) :
    linearE x n D t = ⟨Verif.Core.linearInterp t (x k) (x (k + 1)) (D 0 k) (D 0 (k + 1)), (D 0 (k + 1) - D 0 k) / (x (k + 1) - x k), 0, 0⟩ := by
  rw [linearE, LinearInterpolator.evalDeriv, if_neg (by omega)]
  simp only [hb]
  rw [show (max 0 (min ((n : ℤ) - 2) (k : ℤ))).toNat = k by omega, if_pos (by omega), if_pos (by omega)]
  simp

/-- a one-dimensional interpolation with m arrays of node data and continuous derivative -/
structure Fam (x : ℕ → ℝ) (n m : ℕ) (E : (ℕ → ℕ → ℝ) → ℝ → Jet3) : Prop where
  lin : ∀ D t r, (E D t).get r = ∑ a ∈ Finset.range m, ∑ i ∈ Finset.range n, D a i * (E (delta a i) t).get r
  nodeVal : ∀ D, ∀ i < n, (E D (x i)).val = D 0 i
  nodeDer : ∀ D, ∀ i < n, (E D (x i)).der = D 1 i
  der : ∀ D t, HasDerivAt (fun t => (E D t).val) (E D t).der t
  cont : ∀ D, Continuous fun t => (E D t).der
  der2 : ∀ D t, (∀ i < n, t ≠ x i) → HasDerivAt (fun t => (E D t).der) (E D t).der2 t

theorem cubic_local {x : ℕ → ℝ} {n : ℕ} (hg : Grid x n) (hn : 2 ≤ n) (t : ℝ) : ∃ k, k + 1 < n ∧ ∃ A B : ℕ → ℕ → ℝ, ∀ r D,
    (cubicE x n D t).get r = ∑ a ∈ Finset.range 2, (D a k * A r a + D a (k + 1) * B r a) := by
  rcases bin_cases hg (by omega) t with ⟨h, hb⟩ | ⟨h, hb⟩ | ⟨h, _, _⟩ | ⟨k, hk, h1, h2, _, hb⟩
  · refine ⟨0, by omega, fun r a => if a = 0 then (⟨1, 0, 0, 0⟩ : Jet3).get r else (⟨t - x 0, 1, 0, 0⟩ : Jet3).get r, fun _ _ => 0, fun r D => ?_⟩
    rw [cubicE, CubicSpline.evalDeriv, if_neg (by omega)]
    simp only [hb]
    rw [if_pos (by norm_num), Option.getD_some, lin_if]
    simp only [Finset.sum_range_succ, Finset.sum_range_zero, Jet3.get]
    split_ifs <;> simp_all
  · refine ⟨n - 2, by omega, fun _ _ => 0, fun r a => if a = 0 then (⟨1, 0, 0, 0⟩ : Jet3).get r else (⟨t - x (n - 1), 1, 0, 0⟩ : Jet3).get r, fun r D => ?_⟩
    rw [cubicE, CubicSpline.evalDeriv, if_neg (by omega)]
    simp only [hb]
    rw [if_neg (by omega), if_pos le_rfl, Option.getD_some, lin_if]
    simp only [Finset.sum_range_succ, Finset.sum_range_zero, Jet3.get]
    rw [show n - 2 + 1 = n - 1 by omega]
    split_ifs <;> simp_all
  · omega
  · refine ⟨k, hk, fun r a => if a = 0 then (evalCubic t (x k) (x (k + 1)) 1 0 0 0).get r else (evalCubic t (x k) (x (k + 1)) 0 0 1 0).get r,
      fun r a => if a = 0 then (evalCubic t (x k) (x (k + 1)) 0 1 0 0).get r else (evalCubic t (x k) (x (k + 1)) 0 0 0 1).get r, fun r D => ?_⟩
    rw [cubicE_in D t hk hb, evalCubic_lin]
    simp [Finset.sum_range_succ]

theorem quintic_local {x : ℕ → ℝ} {n : ℕ} (hg : Grid x n) (hn : 2 ≤ n) (t : ℝ) : ∃ k, k + 1 < n ∧ ∃ A B : ℕ → ℕ → ℝ, ∀ r D,
    (quinticE x n D t).get r = ∑ a ∈ Finset.range 3, (D a k * A r a + D a (k + 1) * B r a) := by
  rcases bin_cases hg (by omega) t with ⟨h, hb⟩ | ⟨h, hb⟩ | ⟨h, _, _⟩ | ⟨k, hk, h1, h2, _, hb⟩
  · refine ⟨0, by omega, fun r a => if a = 0 then (⟨1, 0, 0, 0⟩ : Jet3).get r else if a = 1 then (⟨t - x 0, 1, 0, 0⟩ : Jet3).get r else 0, fun _ _ => 0, fun r D => ?_⟩
    rw [quinticE, QuinticSpline.evalDeriv, if_neg (by omega)]
    simp only [hb]
    rw [if_pos (by norm_num), Option.getD_some, lin_if]
    simp only [Finset.sum_range_succ, Finset.sum_range_zero, Jet3.get]
    split_ifs <;> simp_all
  · refine ⟨n - 2, by omega, fun _ _ => 0, fun r a => if a = 0 then (⟨1, 0, 0, 0⟩ : Jet3).get r else if a = 1 then (⟨t - x (n - 1), 1, 0, 0⟩ : Jet3).get r else 0, fun r D => ?_⟩
    rw [quinticE, QuinticSpline.evalDeriv, if_neg (by omega)]
    simp only [hb]
    rw [if_neg (by omega), if_pos le_rfl, Option.getD_some, lin_if]
    simp only [Finset.sum_range_succ, Finset.sum_range_zero, Jet3.get]
    rw [show n - 2 + 1 = n - 1 by omega]
    split_ifs <;> simp_all
  · omega
  · refine ⟨k, hk, fun r a => if a = 0 then (evalQuintic t (x k) (x (k + 1)) 1 0 0 0 0 0).get r else if a = 1 then (evalQuintic t (x k) (x (k + 1)) 0 0 1 0 0 0).get r else (evalQuintic t (x k) (x (k + 1)) 0 0 0 0 1 0).get r,
      fun r a => if a = 0 then (evalQuintic t (x k) (x (k + 1)) 0 1 0 0 0 0).get r else if a = 1 then (evalQuintic t (x k) (x (k + 1)) 0 0 0 1 0 0).get r else (evalQuintic t (x k) (x (k + 1)) 0 0 0 0 0 1).get r, fun r D => ?_⟩
    rw [quinticE_in D t hk hb, evalQuintic_lin]
    simp [Finset.sum_range_succ]

theorem fam_of {x : ℕ → ℝ} {n m deg : ℕ} {E : (ℕ → ℕ → ℝ) → ℝ → Jet3}
    (hl : ∀ t, ∃ k, k + 1 < n ∧ ∃ A B : ℕ → ℕ → ℝ, ∀ r D, (E D t).get r = ∑ a ∈ Finset.range m, (D a k * A r a + D a (k + 1) * B r a))
    (hi : ∀ D, Interpolates x (D 0) (D 1) n deg (E D)) (hc : ∀ D, Continuous fun t => (E D t).der) : Fam x n m E where
  lin := fun D t r => by
    obtain ⟨k, hk, A, B, h⟩ := hl t
    exact lin_of_local hk (h r) D
  nodeVal := fun D i h => ((hi D).nodes i h).1
  nodeDer := fun D i h => ((hi D).nodes i h).2
  der := fun D t => (hi D).deriv t
  cont := hc
  der2 := fun D t h => ((hi D).deriv2 t h).1

theorem cubic_fam {x : ℕ → ℝ} {n : ℕ} (hg : Grid x n) (hn : 2 ≤ n) : Fam x n 2 (cubicE x n) := by
  refine fam_of (deg := 3) (cubic_local hg hn) (fun D => ?_) (fun D => ?_)
  · obtain ⟨S, hS, h⟩ := C69_cubic x (D 0) (D 1) n hg (by omega)
    have : cubicE x n D = S := by funext t; rw [cubicE, hS]; rfl
    rw [this]; exact h
  · obtain ⟨S, hS, hp⟩ := getS (cubic_piece hg (by omega) (D 0) (D 1))
    have : cubicE x n D = S := by funext t; rw [cubicE, hS]; rfl
    rw [this, continuous_iff_continuousAt]
    intro t
    refine glue_continuous hg (by omega) hp Jet3.der ?_ fun k hk => ((cubicPiece_hasDeriv hg _ _ k hk.1 t).2.1).continuousAt
    rintro i hi rfl; have := cubic_node hg (D 0) (D 1) hi; rw [this.2.1, this.2.2.2]

theorem quintic_fam {x : ℕ → ℝ} {n : ℕ} (hg : Grid x n) (hn : 2 ≤ n) : Fam x n 3 (quinticE x n) := by
  refine fam_of (deg := 5) (quintic_local hg hn) (fun D => ?_) (fun D => ?_)
  · obtain ⟨S, hS, h, _⟩ := C69_quintic x (D 0) (D 1) (D 2) n hg (by omega)
    have : quinticE x n D = S := by funext t; rw [quinticE, hS]; rfl
    rw [this]; exact h
  · obtain ⟨S, hS, hp⟩ := getS (quintic_piece hg (by omega) (D 0) (D 1) (D 2))
    have : quinticE x n D = S := by funext t; rw [quinticE, hS]; rfl
    rw [this, continuous_iff_continuousAt]
    intro t
    refine glue_continuous hg (by omega) hp Jet3.der ?_ fun k hk => ((quinticPiece_hasDeriv hg _ _ _ k hk.1 t).2.1).continuousAt
    rintro i hi rfl; have := quintic_node hg (D 0) (D 1) (D 2) hi; rw [this.1.2.1, this.2.2.1]

/-- strictly inside of the grid, also at the nodes, the second derivative of the quintic spline exists and is continuous -/
theorem quintic_inner {x : ℕ → ℝ} {n : ℕ} (hg : Grid x n) (hn : 2 ≤ n) (D : ℕ → ℕ → ℝ) (t : ℝ) (h0 : x 0 < t) (h1 : t < x (n - 1)) :
    HasDerivAt (fun t => (quinticE x n D t).der) (quinticE x n D t).der2 t ∧ ContinuousAt (fun t => (quinticE x n D t).der2) t := by
  obtain ⟨S, hS, h, h2, _⟩ := C69_quintic x (D 0) (D 1) (D 2) n hg (by omega)
  have : quinticE x n D = S := by funext t; rw [quinticE, hS]; rfl
  rw [this]; exact h2 t h0 h1

/-! ### two dimensions -/

/-- nested evaluation: first in y, then in x -/
def nest (X Y : (ℕ → ℕ → ℝ) → ℝ → Jet3) (D : ℕ → ℕ → ℕ → ℕ → ℝ) (r s : ℕ) (x y : ℝ) : ℝ :=
  (X (fun a i => (Y (fun b j => D a b i j) y).get s) x).get r

def tens (m mx nx my : ℕ) (X Y : (ℕ → ℕ → ℝ) → ℝ → Jet3) (D : ℕ → ℕ → ℕ → ℕ → ℝ) (r s : ℕ) (x y : ℝ) : ℝ :=
  ∑ a ∈ Finset.range m, ∑ i ∈ Finset.range mx, ∑ b ∈ Finset.range nx, ∑ j ∈ Finset.range my, D a b i j * (X (delta a i) x).get r * (Y (delta b j) y).get s

variable {X Y : (ℕ → ℕ → ℝ) → ℝ → Jet3} {xs ys : ℕ → ℝ} {nx ny mx my : ℕ}

theorem nest_eq_tens (hX : Fam xs nx mx X) (hY : Fam ys ny my Y) (D : ℕ → ℕ → ℕ → ℕ → ℝ) (r s : ℕ) (x y : ℝ) :
    nest X Y D r s x y = tens mx nx my ny X Y D r s x y := by
  rw [nest, hX.lin, tens]
  refine Finset.sum_congr rfl fun a _ => Finset.sum_congr rfl fun i _ => ?_
  rw [hY.lin, Finset.sum_mul]
  refine Finset.sum_congr rfl fun b _ => ?_
  rw [Finset.sum_mul]
  exact Finset.sum_congr rfl fun j _ => by ring

theorem nest_swap (hX : Fam xs nx mx X) (hY : Fam ys ny my Y) (D : ℕ → ℕ → ℕ → ℕ → ℝ) (r s : ℕ) (x y : ℝ) :
    nest X Y D r s x y = nest Y X (fun b a j i => D a b i j) s r y x := by
  rw [nest_eq_tens hX hY, nest_eq_tens hY hX, tens, tens]
  have e1 : ∀ a ∈ Finset.range mx, (∑ i ∈ Finset.range nx, ∑ b ∈ Finset.range my, ∑ j ∈ Finset.range ny, D a b i j * (X (delta a i) x).get r * (Y (delta b j) y).get s) =
      ∑ b ∈ Finset.range my, ∑ j ∈ Finset.range ny, ∑ i ∈ Finset.range nx, D a b i j * (Y (delta b j) y).get s * (X (delta a i) x).get r := by
    intro a _
    rw [Finset.sum_comm]
    refine Finset.sum_congr rfl fun b _ => ?_
    rw [Finset.sum_comm]
    exact Finset.sum_congr rfl fun j _ => Finset.sum_congr rfl fun i _ => by ring
  rw [Finset.sum_congr rfl e1, Finset.sum_comm]
  exact Finset.sum_congr rfl fun b _ => Finset.sum_comm

theorem Fam.cont_get (hX : Fam xs nx mx X) (D : ℕ → ℕ → ℝ) {r : ℕ} (hr : r ≤ 1) : Continuous fun t => (X D t).get r := by
  rcases (by omega : r = 0 ∨ r = 1) with rfl | rfl
  · exact continuous_iff_continuousAt.2 fun t => (hX.der D t).continuousAt
  · exact hX.cont D

theorem nest_continuous (hX : Fam xs nx mx X) (hY : Fam ys ny my Y) (D : ℕ → ℕ → ℕ → ℕ → ℝ) {r s : ℕ} (hr : r ≤ 1) (hs : s ≤ 1) :
    Continuous fun p : ℝ × ℝ => nest X Y D r s p.1 p.2 := by
  simp only [nest_eq_tens hX hY, tens]
  refine continuous_finsetSum _ fun a _ => continuous_finsetSum _ fun i _ => continuous_finsetSum _ fun b _ => continuous_finsetSum _ fun j _ => ?_
  exact (continuous_const.mul ((hX.cont_get _ hr).comp continuous_fst)).mul ((hY.cont_get _ hs).comp continuous_snd)

theorem nest_continuousAt (hX : Fam xs nx mx X) (hY : Fam ys ny my Y) (D : ℕ → ℕ → ℕ → ℕ → ℝ) {r s : ℕ} {x y : ℝ}
    (hr : ∀ D, ContinuousAt (fun t => (X D t).get r) x) (hs : ∀ D, ContinuousAt (fun t => (Y D t).get s) y) :
    ContinuousAt (fun p : ℝ × ℝ => nest X Y D r s p.1 p.2) (x, y) := by
  simp only [nest_eq_tens hX hY, tens]
  refine tendsto_finsetSum _ fun a _ => tendsto_finsetSum _ fun i _ => tendsto_finsetSum _ fun b _ => tendsto_finsetSum _ fun j _ => ?_
  have h1 : ContinuousAt (fun p : ℝ × ℝ => (X (delta a i) p.1).get r) (x, y) := ContinuousAt.comp (g := fun t => (X (delta a i) t).get r) (f := Prod.fst) (x := (x, y)) (hr _) continuousAt_fst
  have h2 : ContinuousAt (fun p : ℝ × ℝ => (Y (delta b j) p.2).get s) (x, y) := ContinuousAt.comp (g := fun t => (Y (delta b j) t).get s) (f := Prod.snd) (x := (x, y)) (hs _) continuousAt_snd
  exact (continuousAt_const.mul h1).mul h2

end

end Verif.Spline
