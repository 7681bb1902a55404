import Mathlib.LinearAlgebra.Matrix.Gershgorin
import Verif.Linalg.SolveBand
import Verif.Spline.EvalProps

/-! Model of the construction of cubic splines (/repo/src/math_spline.cpp:417-468, 1269-1322), exact real arithmetic; C70. -/
namespace Verif.Spline

open Verif.BSpline (Grid)
open Verif.Band Verif.Band.BandMatrix

noncomputable section

/-! ## Model -/

/-- `mat(r,c) = g(mat(r,c))` through the writable accessor of BandMatrix (math_linalg.cpp:170-175); `none` is an access
outside of the band (assertion failure). -/
def upd (M : BandMatrix ℝ) (r c : ℕ) (g : ℝ → ℝ) : Option (BandMatrix ℝ) := M.set r c (g (dense M r c))

/-- math_spline.cpp:433-441: body of the loop over segments. -/
def cubicStep (x f : ℕ → ℝ) (s : BandMatrix ℝ × (ℕ → ℝ)) (i : ℕ) : Option (BandMatrix ℝ × (ℕ → ℝ)) := do
  let dxi := 1 / (x (i + 1) - x i)
  let dyx := (f (i + 1) - f i) * dxi ^ 2
  let m ← upd s.1 i i (· + 2 * dxi)
  let m ← upd m (i + 1) (i + 1) (· + 2 * dxi)
  let m ← upd m i (i + 1) (fun _ => dxi)
  let m ← upd m (i + 1) i (fun _ => dxi)
  let rhs := Function.update s.2 i (s.2 i + 3 * dyx)
  let rhs := Function.update rhs (i + 1) (rhs (i + 1) + 3 * dyx)
  return (m, rhs)

/-- math_spline.cpp:442-446: the left boundary condition (`none`: not finite). -/
def clampLeft (dl : Option ℝ) (s : BandMatrix ℝ × (ℕ → ℝ)) : Option (BandMatrix ℝ × (ℕ → ℝ)) :=
  match dl with
  | none => some s
  | some v => do
    let m ← upd s.1 0 0 (fun _ => 1)
    let m ← upd m 0 1 (fun _ => 0)
    return (m, Function.update s.2 0 v)

/-- math_spline.cpp:447-451: the right boundary condition. -/
def clampRight (n : ℕ) (dr : Option ℝ) (s : BandMatrix ℝ × (ℕ → ℝ)) : Option (BandMatrix ℝ × (ℕ → ℝ)) :=
  match dr with
  | none => some s
  | some v => do
    let m ← upd s.1 (n - 1) (n - 1) (fun _ => 1)
    let m ← upd m (n - 1) (n - 2) (fun _ => 0)
    return (m, Function.update s.2 (n - 1) v)

/-- math_spline.cpp:430-451: the linear system. -/
def cubicSystem (x f : ℕ → ℝ) (n : ℕ) (dl dr : Option ℝ) : Option (BandMatrix ℝ × (ℕ → ℝ)) := do
  let mat ← BandMatrix.create n 1 0
  let s ← (List.range (n - 1)).foldlM (cubicStep x f) (mat, fun _ => 0)
  let s ← clampLeft dl s
  clampRight n dr s

/-- math_spline.cpp:456-458. -/
def symmetric (x f : ℕ → ℝ) (n : ℕ) : Prop := ∀ i < (n + 1) / 2, x i = -x (n - 1 - i) ∧ f i = f (n - 1 - i)

open Classical in
/-- math_spline.cpp:417-468. The derivatives at the nodes; `none` is an assertion failure. The ends derivLeft, derivRight
are `none` if not finite (NaN by default). The input arrays have equal length (checked at line 423). -/
def constructCubicSpline (x f : ℕ → ℝ) (n : ℕ) (dl dr : Option ℝ) : Option (ℕ → ℝ) :=
  if n < 2 then some (fun _ => match dl, dr with | some v, _ => v | none, some v => v | none, none => 0) else do
  let s ← cubicSystem x f n dl dr
  let fder := solveBand s.1 s.2
  return if symmetric x f n then
      -- in increasing order of i: each assignment reads an element of the right half, which is not yet (never) changed
      fun i => if i < n / 2 then -fder (n - 1 - i) else if n % 2 = 1 ∧ i = n / 2 then 0 else fder i
    else fder

/-! ## Assembly -/

theorem upd_spec (M : BandMatrix ℝ) (r c : ℕ) (g : ℝ → ℝ) (h : InBand M r c) :
    ∃ M', upd M r c g = some M' ∧ M'.n = M.n ∧ M'.band = M.band ∧
      ∀ r' c', dense M' r' c' = if r' = r ∧ c' = c then g (dense M r c) else dense M r' c' := by
  obtain ⟨h1, h2, _, _⟩ := C32_store_read M r c (g (dense M r c))
  obtain ⟨M', hM⟩ := Option.isSome_iff_exists.1 (h1.2 h)
  obtain ⟨a, b, c', d⟩ := h2 M' hM
  refine ⟨M', hM, a, b, ?_⟩
  intro r' c''
  split_ifs with hh
  · obtain ⟨rfl, rfl⟩ := hh
    rw [dense, c']; rfl
  · rw [dense, dense, d r' c'' (by intro h; apply hh; exact ⟨congrArg Prod.fst h, congrArg Prod.snd h⟩)]

/-- Inverse lengths of the segments. -/
def hinv (x : ℕ → ℝ) (i : ℕ) : ℝ := 1 / (x (i + 1) - x i)

/-- Secants divided by the length. -/
def slope2 (x f : ℕ → ℝ) (i : ℕ) : ℝ := (f (i + 1) - f i) * hinv x i ^ 2

/-- The matrix after m segments. -/
def asm (x : ℕ → ℝ) (m r c : ℕ) : ℝ :=
  if c = r then 2 * ((if r < m then hinv x r else 0) + if 0 < r ∧ r ≤ m then hinv x (r - 1) else 0)
  else if c = r + 1 then (if r < m then hinv x r else 0)
  else if r = c + 1 then (if c < m then hinv x c else 0) else 0

def asmRhs (x f : ℕ → ℝ) (m r : ℕ) : ℝ :=
  3 * ((if r < m then slope2 x f r else 0) + if 0 < r ∧ r ≤ m then slope2 x f (r - 1) else 0)

theorem fold_spec (x f : ℕ → ℝ) (n : ℕ) (M0 : BandMatrix ℝ) (hn : M0.n = n) (hb : M0.band = 1)
    (h0 : ∀ r c, dense M0 r c = 0) (m : ℕ) (hm : m + 1 ≤ n) :
    ∃ M rhs, (List.range m).foldlM (cubicStep x f) (M0, fun _ => 0) = some (M, rhs) ∧ M.n = n ∧ M.band = 1 ∧
      (∀ r c, dense M r c = asm x m r c) ∧ ∀ r, rhs r = asmRhs x f m r := by
  induction m with
  | zero =>
    refine ⟨M0, fun _ => 0, rfl, hn, hb, ?_, ?_⟩
    · intro r c; rw [h0, asm]; simp; intro h1 h2; omega
    · intro r; rw [asmRhs]; simp; intro h1 h2; omega
  | succ m ih =>
    obtain ⟨M, rhs, e, e1, e2, e3, e4⟩ := ih (by omega)
    rw [List.range_succ, List.foldlM_append, e]
    obtain ⟨M1, u1, n1, b1, d1⟩ := upd_spec M m m (· + 2 * hinv x m) ⟨by omega, by omega, by omega, by omega⟩
    obtain ⟨M2, u2, n2, b2, d2⟩ := upd_spec M1 (m + 1) (m + 1) (· + 2 * hinv x m) ⟨by omega, by omega, by omega, by omega⟩
    obtain ⟨M3, u3, n3, b3, d3⟩ := upd_spec M2 m (m + 1) (fun _ => hinv x m) ⟨by omega, by omega, by omega, by omega⟩
    obtain ⟨M4, u4, n4, b4, d4⟩ := upd_spec M3 (m + 1) m (fun _ => hinv x m) ⟨by omega, by omega, by omega, by omega⟩
    have es : cubicStep x f (M, rhs) m = some (M4, Function.update (Function.update rhs m (rhs m + 3 * slope2 x f m)) (m + 1)
        (rhs (m + 1) + 3 * slope2 x f m)) := by
      simp only [hinv] at u1 u2 u3 u4
      simp only [cubicStep, u1, u2, u3, u4, Option.bind_eq_bind, Option.bind_some, slope2, hinv, Option.pure_def]
      rw [Function.update_of_ne (show m + 1 ≠ m by omega)]
    refine ⟨M4, _, by simp only [List.foldlM_cons, List.foldlM_nil, Option.bind_eq_bind, Option.bind_some, es]; rfl,
      by omega, by omega, ?_, ?_⟩
    · intro r c
      rw [d4, d3, d2, d1]
      simp only [d1, e3]
      simp only [asm]
      rcases Nat.lt_trichotomy r m with h | h | h
      · rcases eq_or_ne c r with h1 | h1
        · subst h1
          rw [if_neg (by omega), if_neg (by omega), if_neg (by omega), if_neg (by omega)]
          simp only [if_true, if_pos h, if_pos (show c < m + 1 by omega), show (c ≤ m) = True by simp; omega, show (c ≤ m + 1) = True by simp; omega]
        · by_cases h2 : c = r + 1
          · subst h2
            rw [if_neg (by omega), if_neg (by omega), if_neg (by omega), if_neg (by omega)]
            simp only [if_neg h1, if_true, if_pos h, if_pos (show r < m + 1 by omega)]
          · rw [if_neg (by omega), if_neg (by omega), if_neg (by omega), if_neg (by omega)]
            simp only [if_neg h1, if_neg h2]
            by_cases h3 : r = c + 1
            · simp only [if_pos h3, if_pos (show c < m by omega), if_pos (show c < m + 1 by omega)]
            · simp only [if_neg h3]
      · subst h
        rcases eq_or_ne c r with h1 | h1
        · subst h1
          rw [if_neg (by omega), if_neg (by omega), if_neg (by omega), if_pos ⟨rfl, rfl⟩]
          simp only [if_true, lt_irrefl, if_false, le_refl, and_true, Nat.lt_succ_self, Nat.le_succ]
          ring
        · by_cases h2 : c = r + 1
          · subst h2
            rw [if_neg (by omega), if_pos ⟨rfl, rfl⟩]
            simp
          · rw [if_neg (by omega), if_neg (by omega), if_neg (by omega), if_neg (by omega)]
            simp only [if_neg h1, if_neg h2]
            by_cases h3 : r = c + 1
            · simp only [if_pos h3, if_pos (show c < r by omega), if_pos (show c < r + 1 by omega)]
            · simp only [if_neg h3]
      · by_cases hr : r = m + 1
        · subst hr
          rcases eq_or_ne c (m + 1) with h1 | h1
          · subst h1
            rw [if_neg (by omega), if_neg (by omega), if_pos ⟨rfl, rfl⟩]
            simp
          · by_cases h2 : c = m + 1 + 1
            · subst h2
              rw [if_neg (by omega), if_neg (by omega), if_neg (by omega), if_neg (by omega)]
              simp
            · by_cases h3 : c = m
              · subst h3
                rw [if_pos ⟨rfl, rfl⟩]
                simp
                intro h; omega
              · rw [if_neg (by omega), if_neg (by omega), if_neg (by omega), if_neg (by omega)]
                simp only [if_neg h1, if_neg h2]
                rw [if_neg (by omega), if_neg (by omega)]
        · rw [if_neg (by omega), if_neg (by omega), if_neg (by omega), if_neg (by omega)]
          rcases eq_or_ne c r with h1 | h1
          · subst h1
            simp only [if_true]
            rw [if_neg (by omega), if_neg (by omega), if_neg (by omega), if_neg (by omega)]
          · simp only [if_neg h1]
            by_cases h2 : c = r + 1
            · simp only [if_pos h2]; rw [if_neg (by omega), if_neg (by omega)]
            · simp only [if_neg h2]
              by_cases h3 : r = c + 1
              · simp only [if_pos h3]; rw [if_neg (by omega), if_neg (by omega)]
              · simp only [if_neg h3]
    · intro r
      simp only [asmRhs]
      by_cases h1 : r = m + 1
      · subst h1
        rw [Function.update_self, e4, asmRhs]
        simp
      · rw [Function.update_of_ne h1]
        by_cases h2 : r = m
        · subst h2
          rw [Function.update_self, e4, asmRhs]
          simp only [lt_irrefl, if_false, le_refl, and_true, Nat.lt_succ_self, if_true, Nat.le_succ]
          ring
        · rw [Function.update_of_ne h2, e4, asmRhs]
          have c1 : (r < m) = (r < m + 1) := by simp; omega
          have c2 : (0 < r ∧ r ≤ m) = (0 < r ∧ r ≤ m + 1) := by simp; omega
          simp only [c1, c2]

/-- The complete matrix. -/
def sysMat (x : ℕ → ℝ) (n : ℕ) (dl dr : Option ℝ) (r c : ℕ) : ℝ :=
  if r = n - 1 ∧ dr.isSome then (if c = r then 1 else 0)
  else if r = 0 ∧ dl.isSome then (if c = r then 1 else 0) else asm x (n - 1) r c

def sysRhs (x f : ℕ → ℝ) (n : ℕ) (dl dr : Option ℝ) (r : ℕ) : ℝ :=
  if r = n - 1 ∧ dr.isSome then dr.getD 0
  else if r = 0 ∧ dl.isSome then dl.getD 0 else asmRhs x f (n - 1) r

theorem system_spec (x f : ℕ → ℝ) (n : ℕ) (hn : 2 ≤ n) (dl dr : Option ℝ) :
    ∃ M rhs, cubicSystem x f n dl dr = some (M, rhs) ∧ M.n = n ∧ M.band = 1 ∧
      (∀ r < n, ∀ c < n, dense M r c = sysMat x n dl dr r c) ∧ ∀ r < n, rhs r = sysRhs x f n dl dr r := by
  have hc : BandMatrix.create n 1 (0 : ℝ) = some ⟨n, 1, fun _ => 0⟩ := by rw [BandMatrix.create, if_neg (by omega)]
  have h0 : ∀ r c, dense (⟨n, 1, fun _ => 0⟩ : BandMatrix ℝ) r c = 0 := by
    intro r c
    by_cases h : InBand (⟨n, 1, fun _ => 0⟩ : BandMatrix ℝ) r c
    · rw [dense_band _ h]
    · rw [dense_off _ h]
  obtain ⟨M, rhs, e, e1, e2, e3, e4⟩ := fold_spec x f n ⟨n, 1, fun _ => 0⟩ rfl rfl h0 (n - 1) (by omega)
  have hL : ∃ M' rhs', clampLeft dl (M, rhs) = some (M', rhs') ∧ M'.n = n ∧ M'.band = 1 ∧
      (∀ r < n, ∀ c < n, dense M' r c = if r = 0 ∧ dl.isSome then (if c = r then 1 else 0) else asm x (n - 1) r c) ∧
      ∀ r < n, rhs' r = if r = 0 ∧ dl.isSome then dl.getD 0 else asmRhs x f (n - 1) r := by
    cases dl with
    | none => exact ⟨M, rhs, rfl, e1, e2, by simpa using fun r _ c _ => e3 r c, by simpa using fun r _ => e4 r⟩
    | some v =>
      obtain ⟨M1, u1, n1, b1, d1⟩ := upd_spec M 0 0 (fun _ => 1) ⟨by omega, by omega, by omega, by omega⟩
      obtain ⟨M2, u2, n2, b2, d2⟩ := upd_spec M1 0 1 (fun _ => 0) ⟨by omega, by omega, by omega, by omega⟩
      refine ⟨M2, _, by simp only [clampLeft, u1, u2, Option.bind_eq_bind, Option.bind_some]; rfl, by omega, by omega, ?_, ?_⟩
      · intro r _ c _
        rw [d2, d1, e3]
        by_cases hr : r = 0
        · subst hr
          by_cases c0 : c = 0
          · simp [c0]
          · by_cases c1 : c = 1
            · simp [c1]
            · simp [c0, c1, asm]
        · simp [hr]
      · intro r _
        by_cases hr : r = 0
        · subst hr; simp
        · simp [hr, e4]
  obtain ⟨M', rhs', e', e1', e2', e3', e4'⟩ := hL
  have hR : ∃ M'' rhs'', clampRight n dr (M', rhs') = some (M'', rhs'') ∧ M''.n = n ∧ M''.band = 1 ∧
      (∀ r < n, ∀ c < n, dense M'' r c = sysMat x n dl dr r c) ∧ ∀ r < n, rhs'' r = sysRhs x f n dl dr r := by
    cases dr with
    | none =>
      refine ⟨M', rhs', rfl, e1', e2', ?_, ?_⟩
      · intro r hr c hc; rw [e3' r hr c hc, sysMat]; simp
      · intro r hr; rw [e4' r hr, sysRhs]; simp
    | some v =>
      obtain ⟨M1, u1, n1, b1, d1⟩ := upd_spec M' (n - 1) (n - 1) (fun _ => 1) ⟨by omega, by omega, by omega, by omega⟩
      obtain ⟨M2, u2, n2, b2, d2⟩ := upd_spec M1 (n - 1) (n - 2) (fun _ => 0) ⟨by omega, by omega, by omega, by omega⟩
      refine ⟨M2, _, by simp only [clampRight, u1, u2, Option.bind_eq_bind, Option.bind_some]; rfl, by omega, by omega, ?_, ?_⟩
      · intro r hr c hc
        rw [d2, d1, e3' r hr c hc, sysMat]
        by_cases hr : r = n - 1
        · subst hr
          by_cases c0 : c = n - 1
          · subst c0
            rw [if_neg (by omega), if_pos ⟨rfl, rfl⟩]; simp
          · by_cases c1 : c = n - 2
            · subst c1
              rw [if_pos ⟨rfl, rfl⟩, if_pos ⟨rfl, rfl⟩, if_neg c0]
            · rw [if_neg (by omega), if_neg (by omega), if_neg (by omega), if_pos ⟨rfl, rfl⟩, if_neg c0, asm, if_neg c0,
                if_neg (by omega), if_neg (by omega)]
        · simp [hr]
      · intro r h'
        rw [sysRhs]
        by_cases hr : r = n - 1
        · subst hr; simp
        · rw [Function.update_of_ne hr, e4' r h']; simp [hr]
  obtain ⟨M'', rhs'', e'', e1'', e2'', e3'', e4''⟩ := hR
  refine ⟨M'', rhs'', ?_, e1'', e2'', e3'', e4''⟩
  simp only [cubicSystem, hc, Option.bind_eq_bind, Option.bind_some, e, e', e'']

theorem hinv_pos {x : ℕ → ℝ} {n : ℕ} (hg : Grid x n) {i : ℕ} (hi : i + 1 < n) : 0 < hinv x i := by
  rw [hinv]; exact one_div_pos.2 (sub_pos.2 (hg i (i + 1) (by omega) hi))

/-- Sum over a row of a tridiagonal matrix. -/
theorem tri_sum (n r : ℕ) (hr : r < n) (a : ℕ → ℝ) (h0 : ∀ c, c ≠ r → c + 1 ≠ r → c ≠ r + 1 → a c = 0) :
    ∑ c ∈ Finset.range n, a c = (if 0 < r then a (r - 1) else 0) + a r + if r + 1 < n then a (r + 1) else 0 := by
  have h : ∀ c, a c = (if 0 < r ∧ c = r - 1 then a (r - 1) else 0) + (if c = r then a r else 0) + if c = r + 1 then a (r + 1) else 0 := by
    intro c
    by_cases h1 : c = r
    · subst h1; rw [if_neg (by omega), if_pos rfl, if_neg (by omega)]; ring
    · by_cases h2 : c + 1 = r
      · rw [if_pos ⟨by omega, by omega⟩, if_neg h1, if_neg (by omega), show r - 1 = c by omega]; ring
      · by_cases h3 : c = r + 1
        · rw [if_neg (by omega), if_neg h1, if_pos h3, h3]; ring
        · rw [h0 c h1 h2 h3, if_neg (by omega), if_neg h1, if_neg h3]; ring
  rw [Finset.sum_congr rfl (fun c _ => h c), Finset.sum_add_distrib, Finset.sum_add_distrib, Finset.sum_ite_eq', Finset.sum_ite_eq']
  simp only [Finset.mem_range, if_pos hr]
  congr 2
  by_cases h1 : 0 < r
  · simp only [h1, true_and, if_true]
    rw [Finset.sum_ite_eq', if_pos (Finset.mem_range.2 (by omega))]
  · simp [h1]

/-- Strict diagonal dominance gives non-vanishing leading minors. -/
theorem minors_of_dominant (M : BandMatrix ℝ) (hd : ∀ r < M.n, ∑ c ∈ (Finset.range M.n).erase r, |dense M r c| < |dense M r r|) :
    ∀ k, 1 ≤ k → k ≤ M.n → (leading M k).det ≠ 0 := by
  intro k _ hk
  apply det_ne_zero_of_sum_row_lt_diag
  intro r
  have h := hd r (by omega)
  simp only [leading, Real.norm_eq_abs]
  refine lt_of_le_of_lt ?_ h
  rw [← Finset.sum_image (f := fun c => |dense M r c|) (g := fun j : Fin k => (j : ℕ)) (fun a _ b _ h => Fin.ext h)]
  apply Finset.sum_le_sum_of_subset_of_nonneg
  · intro c hc
    rw [Finset.mem_image] at hc
    obtain ⟨j, hj, rfl⟩ := hc
    rw [Finset.mem_erase] at hj ⊢
    exact ⟨fun h => hj.1 (Fin.ext h), Finset.mem_range.2 (by omega)⟩
  · intros; exact abs_nonneg _

/-- Off-diagonal sum of a row with three entries. -/
theorem off_sum (n r : ℕ) (hr : r < n) (a : ℕ → ℝ) (h0 : ∀ c, c ≠ r → c + 1 ≠ r → c ≠ r + 1 → a c = 0) :
    ∑ c ∈ (Finset.range n).erase r, |a c| = (if 0 < r then |a (r - 1)| else 0) + if r + 1 < n then |a (r + 1)| else 0 := by
  have h1 := Finset.add_sum_erase (Finset.range n) (fun c => |a c|) (Finset.mem_range.2 hr)
  have h2 := tri_sum n r hr (fun c => |a c|) (fun c a1 a2 a3 => by rw [h0 c a1 a2 a3, abs_zero])
  rw [h2] at h1
  linarith

theorem sysMat_off (x : ℕ → ℝ) (n : ℕ) (dl dr : Option ℝ) (r c : ℕ) (h1 : c ≠ r) (h2 : c + 1 ≠ r) (h3 : c ≠ r + 1) :
    sysMat x n dl dr r c = 0 := by
  simp only [sysMat, asm, if_neg h1, if_neg h3, if_neg (show ¬ r = c + 1 by omega)]
  split_ifs <;> rfl

theorem sys_dominant {x : ℕ → ℝ} {n : ℕ} (hg : Grid x n) (hn : 2 ≤ n) (dl dr : Option ℝ) (r : ℕ) (hr : r < n) :
    ∑ c ∈ (Finset.range n).erase r, |sysMat x n dl dr r c| < |sysMat x n dl dr r r| := by
  rw [off_sum n r hr _ (sysMat_off x n dl dr r)]
  simp only [sysMat]
  by_cases hR : r = n - 1 ∧ dr.isSome
  · simp only [if_pos hR]
    rw [if_neg (show ¬ (r + 1 < n) by omega)]
    by_cases h0 : 0 < r
    · simp [h0, show ¬ r - 1 = r by omega]
    · simp [h0]
  · simp only [if_neg hR]
    by_cases hL : r = 0 ∧ dl.isSome
    · simp only [if_pos hL]
      simp [hL.1]
    · simp only [if_neg hL]
      simp only [asm, if_true]
      have e1 : ∀ h : 0 < r, |if r - 1 = r then 2 * ((if r < n - 1 then hinv x r else 0) + if 0 < r ∧ r ≤ n - 1 then hinv x (r - 1) else 0)
          else if r - 1 = r + 1 then if r < n - 1 then hinv x r else 0
          else if r = r - 1 + 1 then if r - 1 < n - 1 then hinv x (r - 1) else 0 else 0| = hinv x (r - 1) := by
        intro h
        rw [if_neg (by omega), if_neg (by omega), if_pos (by omega), if_pos (by omega)]
        exact abs_of_pos (hinv_pos hg (by omega))
      have e2 : ∀ h : r + 1 < n, |if r + 1 = r then 2 * ((if r < n - 1 then hinv x r else 0) + if 0 < r ∧ r ≤ n - 1 then hinv x (r - 1) else 0)
          else if r < n - 1 then hinv x r else 0| = hinv x r := by
        intro h
        rw [if_neg (by omega), if_pos (by omega)]
        exact abs_of_pos (hinv_pos hg (by omega))
      by_cases h0 : 0 < r
      · rw [if_pos h0, e1 h0]
        have p1 := hinv_pos hg (show r - 1 + 1 < n by omega)
        by_cases h1 : r + 1 < n
        · rw [if_pos h1, e2 h1, if_pos (by omega), if_pos ⟨h0, by omega⟩]
          have p2 := hinv_pos hg h1
          rw [abs_of_pos (by positivity)]; linarith
        · rw [if_neg h1, if_neg (by omega), if_pos ⟨h0, by omega⟩]
          rw [abs_of_pos (by linarith)]; linarith
      · have h1 : r + 1 < n := by omega
        rw [if_neg h0, if_pos h1, e2 h1, if_pos (by omega), if_neg (by omega)]
        have p2 := hinv_pos hg h1
        rw [abs_of_pos (by linarith)]; linarith

/-! ## Specification of the boundary conditions and of the smoothness -/

/-- Second derivative on the segment i, i+1 at its left and right ends. -/
def curvL (x f d : ℕ → ℝ) (i : ℕ) : ℝ := (evalCubic (x i) (x i) (x (i + 1)) (f i) (f (i + 1)) (d i) (d (i + 1))).der2
def curvR (x f d : ℕ → ℝ) (i : ℕ) : ℝ := (evalCubic (x (i + 1)) (x i) (x (i + 1)) (f i) (f (i + 1)) (d i) (d (i + 1))).der2

/-- Condition at one end: the prescribed slope, or vanishing second derivative if none is prescribed. -/
def EndCond (b : Option ℝ) (slope curv : ℝ) : Prop :=
  match b with | some v => slope = v | none => curv = 0

/-- Continuity of the second derivative at the interior nodes, and the conditions at the two ends: the prescribed slope, or
vanishing second derivative. -/
structure Smooth (x f d : ℕ → ℝ) (n : ℕ) (dl dr : Option ℝ) : Prop where
  interior : ∀ i, i + 2 < n → curvR x f d i = curvL x f d (i + 1)
  left : EndCond dl (d 0) (curvL x f d 0)
  right : EndCond dr (d (n - 1)) (curvR x f d (n - 2))

theorem curv_eq {x : ℕ → ℝ} {n : ℕ} (hg : Grid x n) (f d : ℕ → ℝ) {i : ℕ} (hi : i + 1 < n) :
    curvL x f d i = 2 * (3 * slope2 x f i - hinv x i * (2 * d i + d (i + 1))) ∧
    curvR x f d i = 2 * (hinv x i * (d i + 2 * d (i + 1)) - 3 * slope2 x f i) := by
  have hne : x (i + 1) - x i ≠ 0 := sub_ne_zero.2 (hg i (i + 1) (by omega) hi).ne'
  rw [curvL, curvR, slope2, hinv]
  constructor
  · simp only [evalCubic, sub_self, zero_div]; ring
  · simp only [evalCubic, div_self hne]; ring

/-- The linear system expresses the smoothness. -/
theorem solves_iff {x : ℕ → ℝ} {n : ℕ} (hg : Grid x n) (hn : 2 ≤ n) (f d : ℕ → ℝ) (dl dr : Option ℝ) :
    (∀ i < n, ∑ j ∈ Finset.range n, sysMat x n dl dr i j * d j = sysRhs x f n dl dr i) ↔ Smooth x f d n dl dr := by
  have row : ∀ i < n, ∑ j ∈ Finset.range n, sysMat x n dl dr i j * d j = (if 0 < i then sysMat x n dl dr i (i - 1) * d (i - 1) else 0) +
      sysMat x n dl dr i i * d i + if i + 1 < n then sysMat x n dl dr i (i + 1) * d (i + 1) else 0 := by
    intro i hi
    exact tri_sum n i hi (fun j => sysMat x n dl dr i j * d j) (fun c h1 h2 h3 => by rw [sysMat_off x n dl dr i c h1 h2 h3, zero_mul])
  have first : (∑ j ∈ Finset.range n, sysMat x n dl dr 0 j * d j = sysRhs x f n dl dr 0) ↔
      EndCond dl (d 0) (curvL x f d 0) := by
    have r0 : ¬ (0 = n - 1 ∧ dr.isSome = true) := by omega
    rw [row 0 (by omega), if_neg (lt_irrefl _), if_pos (by omega), sysRhs, sysMat, sysMat]
    simp only [if_neg r0]
    cases dl with
    | some v => simp [EndCond]
    | none =>
      rw [EndCond]
      simp only [(curv_eq hg f d (show 0 + 1 < n by omega)).1]
      simp only [Option.isSome_none, and_false, if_false, asm, asmRhs, if_true, lt_irrefl, false_and, add_zero,
        if_pos (show 0 < n - 1 by omega), zero_add, Bool.false_eq_true, one_ne_zero]
      constructor <;> intro h <;> linarith
  have last : (∑ j ∈ Finset.range n, sysMat x n dl dr (n - 1) j * d j = sysRhs x f n dl dr (n - 1)) ↔
      EndCond dr (d (n - 1)) (curvR x f d (n - 2)) := by
    rw [row (n - 1) (by omega), if_pos (by omega), if_neg (show ¬ (n - 1 + 1 < n) by omega), sysRhs, sysMat, sysMat]
    cases dr with
    | some v => simp [EndCond, show ¬ n - 1 - 1 = n - 1 by omega]
    | none =>
      rw [EndCond]
      simp only [(curv_eq hg f d (show n - 2 + 1 < n by omega)).2]
      simp only [Option.isSome_none, and_false, if_false, Bool.false_eq_true]
      have l0 : ¬ (n - 1 = 0 ∧ dl.isSome = true) := by omega
      simp only [if_neg l0]
      rw [asm, asm, asmRhs, if_neg (by omega), if_neg (by omega),
        if_pos (by omega), if_pos (by omega), if_pos rfl, if_neg (lt_irrefl _), if_pos ⟨by omega, le_rfl⟩, if_neg (lt_irrefl _),
        if_pos ⟨by omega, le_rfl⟩]
      rw [show n - 1 - 1 = n - 2 by omega, show n - 2 + 1 = n - 1 by omega]
      constructor <;> intro h <;> linarith
  have mid : ∀ i, i + 2 < n → ((∑ j ∈ Finset.range n, sysMat x n dl dr (i + 1) j * d j = sysRhs x f n dl dr (i + 1)) ↔
      curvR x f d i = curvL x f d (i + 1)) := by
    intro i hi
    rw [row (i + 1) (by omega), (curv_eq hg f d (show i + 1 < n by omega)).2, (curv_eq hg f d (show i + 1 + 1 < n by omega)).1,
      if_pos (by omega), if_pos (by omega)]
    have r0 : ¬ (i + 1 = n - 1 ∧ dr.isSome = true) := by omega
    have l0 : ¬ (i + 1 = 0 ∧ dl.isSome = true) := by omega
    simp only [sysMat, sysRhs, if_neg r0, if_neg l0]
    rw [asm, asm, asm, asmRhs, if_neg (by omega), if_neg (by omega), if_pos (by omega),
      if_pos (by omega), if_pos rfl, if_pos (by omega), if_pos ⟨by omega, by omega⟩, if_neg (by omega), if_pos rfl,
      if_pos (by omega)]
    have c0 : 0 < i + 1 ∧ i + 1 ≤ n - 1 := by omega
    simp only [if_pos c0, show i + 1 - 1 = i by omega]
    constructor <;> intro h <;> linarith
  constructor
  · intro h
    exact ⟨fun i hi => (mid i hi).1 (h (i + 1) (by omega)), first.1 (h 0 (by omega)), last.1 (h (n - 1) (by omega))⟩
  · rintro ⟨h1, h2, h3⟩ i hi
    by_cases i0 : i = 0
    · subst i0; exact first.2 h2
    · by_cases i1 : i = n - 1
      · subst i1; exact last.2 h3
      · have := (mid (i - 1) (by omega)).2 (h1 (i - 1) (by omega))
        rwa [show i - 1 + 1 = i by omega] at this

/-- The solution of the linear system exists and is the only one with the required smoothness. -/
theorem solve_spec {x : ℕ → ℝ} {n : ℕ} (hg : Grid x n) (hn : 2 ≤ n) (f : ℕ → ℝ) (dl dr : Option ℝ) :
    ∃ s, cubicSystem x f n dl dr = some s ∧ Smooth x f (solveBand s.1 s.2) n dl dr ∧
      ∀ d, Smooth x f d n dl dr → ∀ i < n, d i = solveBand s.1 s.2 i := by
  obtain ⟨M, rhs, e, e1, e2, e3, e4⟩ := system_spec x f n hn dl dr
  have hm : ∀ k, 1 ≤ k → k ≤ M.n → (leading M k).det ≠ 0 := by
    apply minors_of_dominant
    intro r hr
    rw [e1] at hr ⊢
    have := sys_dominant hg hn dl dr r hr
    rw [e3 r hr r hr]
    refine lt_of_eq_of_lt ?_ this
    apply Finset.sum_congr rfl
    intro c hc
    rw [e3 r hr c (Finset.mem_range.1 (Finset.mem_of_mem_erase hc))]
  have conv : ∀ d : ℕ → ℝ, Solves M d rhs ↔ Smooth x f d n dl dr := by
    intro d
    rw [← solves_iff hg hn, Solves, e1]
    apply forall_congr'; intro i
    apply forall_congr'; intro hi
    rw [e4 i hi, Finset.sum_congr rfl (fun c hc => by rw [e3 i hi c (Finset.mem_range.1 hc)])]
  refine ⟨(M, rhs), e, (conv _).1 (C34_solveBand M (by omega) rhs hm), ?_⟩
  intro d hd i hi
  exact (C34_unique M (by omega) rhs d hm ((conv d).2 hd) i (by omega)).symm

end
end Verif.Spline
