import Verif.Spline.ConstructProps

/-! C72: quintic splines from values and slopes (/repo/src/math_spline.cpp:470-504, 1389-1402). Exact real arithmetic. -/
namespace Verif.Spline

open Verif.BSpline (Grid)
open Verif.Band Verif.Band.BandMatrix

noncomputable section

/-! ## Model -/

/-- math_spline.cpp:482-487: the segment to the left of node i. -/
def quinticLeft (x f d : ℕ → ℝ) (i : ℕ) (s : BandMatrix ℝ × (ℕ → ℝ)) : Option (BandMatrix ℝ × (ℕ → ℝ)) := do
  let hi := 1 / (x i - x (i - 1))
  let m ← upd s.1 i i (· + hi * 3)
  let m ← upd m (i - 1) i (fun _ => -hi)
  return (m, Function.update s.2 i (s.2 i - (20 * (f i - f (i - 1)) * hi - 12 * d i - 8 * d (i - 1)) * hi * hi))

/-- math_spline.cpp:488-493: the segment to the right of node i. -/
def quinticRight (x f d : ℕ → ℝ) (i : ℕ) (s : BandMatrix ℝ × (ℕ → ℝ)) : Option (BandMatrix ℝ × (ℕ → ℝ)) := do
  let hi := 1 / (x (i + 1) - x i)
  let m ← upd s.1 i i (· + hi * 3)
  let m ← upd m (i + 1) i (fun _ => -hi)
  return (m, Function.update s.2 i (s.2 i + (20 * (f (i + 1) - f i) * hi - 12 * d i - 8 * d (i + 1)) * hi * hi))

/-- math_spline.cpp:481-494: body of the loop over nodes. -/
def quinticStep (x f d : ℕ → ℝ) (n : ℕ) (s : BandMatrix ℝ × (ℕ → ℝ)) (i : ℕ) : Option (BandMatrix ℝ × (ℕ → ℝ)) :=
  (if i > 0 then quinticLeft x f d i s else some s).bind fun s =>
  if i < n - 1 then quinticRight x f d i s else some s

/-- math_spline.cpp:496-502: boundary conditions. -/
def quinticEnds (x f d : ℕ → ℝ) (n : ℕ) (s : BandMatrix ℝ × (ℕ → ℝ)) : Option (BandMatrix ℝ × (ℕ → ℝ)) := do
  let hi := 1 / (x 1 - x 0)
  let m ← upd s.1 0 1 (fun _ => -2 * hi)
  let rhs := Function.update s.2 0 ((30 * (f 1 - f 0) * hi - 14 * d 1 - 16 * d 0) * hi * hi)
  let hi := 1 / (x (n - 1) - x (n - 2))
  let m ← upd m (n - 1) (n - 2) (fun _ => -2 * hi)
  return (m, Function.update rhs (n - 1) ((-30 * (f (n - 1) - f (n - 2)) * hi + 14 * d (n - 2) + 16 * d (n - 1)) * hi * hi))

/-- math_spline.cpp:473-504: second derivatives at the nodes from the values and first derivatives. `none`: assertion. -/
def constructQuinticSpline (x f d : ℕ → ℝ) (n : ℕ) : Option (ℕ → ℝ) :=
  if n < 2 then some (fun _ => 0) else do
  let mat ← BandMatrix.create n 1 0
  let s ← (List.range n).foldlM (quinticStep x f d n) (mat, fun _ => 0)
  let s ← quinticEnds x f d n s
  return solveBand s.1 s.2

/-! ## Assembly -/

/-- The contributions of the segment i..i+1 to the right-hand sides. -/
def qR (x f d : ℕ → ℝ) (i : ℕ) : ℝ := (20 * (f (i + 1) - f i) * hinv x i - 12 * d i - 8 * d (i + 1)) * hinv x i * hinv x i
def qL (x f d : ℕ → ℝ) (i : ℕ) : ℝ := (20 * (f (i + 1) - f i) * hinv x i - 12 * d (i + 1) - 8 * d i) * hinv x i * hinv x i

def qAsm (x : ℕ → ℝ) (n m r c : ℕ) : ℝ :=
  if c = r then (if r < m then (if 0 < r then hinv x (r - 1) * 3 else 0) + (if r + 1 < n then hinv x r * 3 else 0) else 0)
  else if c = r + 1 then (if c < m then -hinv x r else 0)
  else if r = c + 1 then (if c < m ∧ r < n then -hinv x c else 0) else 0

def qRhs (x f d : ℕ → ℝ) (n m r : ℕ) : ℝ :=
  if r < m then (if 0 < r then -qL x f d (r - 1) else 0) + (if r + 1 < n then qR x f d r else 0) else 0

theorem quintic_fold (x f d : ℕ → ℝ) (n : ℕ) (M0 : BandMatrix ℝ) (hn : M0.n = n) (hb : M0.band = 1)
    (h0 : ∀ r c, dense M0 r c = 0) (m : ℕ) (hm : m ≤ n) :
    ∃ M rhs, (List.range m).foldlM (quinticStep x f d n) (M0, fun _ => 0) = some (M, rhs) ∧ M.n = n ∧ M.band = 1 ∧
      (∀ r c, dense M r c = qAsm x n m r c) ∧ ∀ r, rhs r = qRhs x f d n m r := by
  induction m with
  | zero =>
    refine ⟨M0, fun _ => 0, rfl, hn, hb, ?_, ?_⟩
    · intro r c; rw [h0, qAsm]; simp
    · intro r; rw [qRhs]; simp
  | succ m ih =>
    obtain ⟨M, rhs, e, e1, e2, e3, e4⟩ := ih (by omega)
    rw [List.range_succ, List.foldlM_append, e]
    have hL : ∃ M1 rhs1, (if m > 0 then quinticLeft x f d m (M, rhs) else some (M, rhs)) = some (M1, rhs1) ∧ M1.n = n ∧ M1.band = 1 ∧
        (∀ r c, dense M1 r c = if r = m ∧ c = m then (if 0 < m then hinv x (m - 1) * 3 else 0)
          else if r + 1 = m ∧ c = m then -hinv x r else dense M r c) ∧
        ∀ r, rhs1 r = if r = m then (if 0 < m then -qL x f d (m - 1) else 0) else rhs r := by
      by_cases m0 : 0 < m
      · rw [if_pos m0]
        obtain ⟨M1, u1, n1, b1, d1⟩ := upd_spec M m m (· + hinv x (m - 1) * 3) ⟨by omega, by omega, by omega, by omega⟩
        obtain ⟨M2, u2, n2, b2, d2⟩ := upd_spec M1 (m - 1) m (fun _ => -hinv x (m - 1)) ⟨by omega, by omega, by omega, by omega⟩
        have eh : 1 / (x m - x (m - 1)) = hinv x (m - 1) := by rw [hinv, show m - 1 + 1 = m by omega]
        have es : quinticLeft x f d m (M, rhs) = some (M2, Function.update rhs m (rhs m - qL x f d (m - 1))) := by
          simp only [quinticLeft, eh, u1, u2, Option.bind_eq_bind, Option.bind_some, Option.pure_def, qL, show m - 1 + 1 = m by omega]
        refine ⟨M2, _, es, by omega, by omega, ?_, ?_⟩
        · intro r c
          rw [d2, d1, e3, e3]
          by_cases hc : c = m
          · subst hc
            by_cases hr : r = c
            · subst hr
              rw [if_neg (by omega), if_pos ⟨rfl, rfl⟩, if_pos ⟨rfl, rfl⟩, qAsm, if_pos rfl, if_neg (lt_irrefl _), if_pos m0]
              ring
            · by_cases hr2 : r + 1 = c
              · rw [if_pos ⟨by omega, rfl⟩, if_neg (by omega), if_pos ⟨hr2, rfl⟩, show c - 1 = r by omega]
              · rw [if_neg (by omega), if_neg (by omega), if_neg (by omega), if_neg (by omega)]
          · rw [if_neg (by omega), if_neg (by omega), if_neg (by omega), if_neg (by omega)]
        · intro r
          by_cases hr : r = m
          · subst hr
            rw [Function.update_self, if_pos rfl, if_pos m0, e4, qRhs, if_neg (lt_irrefl _)]; ring
          · rw [Function.update_of_ne hr, if_neg hr]
      · have m0' : m = 0 := by omega
        subst m0'
        rw [if_neg m0]
        refine ⟨M, rhs, rfl, e1, e2, ?_, ?_⟩
        · intro r c
          by_cases h : r = 0 ∧ c = 0
          · rw [if_pos h, if_neg m0, e3, qAsm]; simp [h.1, h.2]
          · rw [if_neg h, if_neg (by omega)]
        · intro r
          by_cases h : r = 0
          · rw [if_pos h, if_neg m0, e4, qRhs]; simp
          · rw [if_neg h]
    obtain ⟨M1, rhs1, u, n1, b1, d1, r1⟩ := hL
    have hR : ∃ M2 rhs2, (if m < n - 1 then quinticRight x f d m (M1, rhs1) else some (M1, rhs1)) = some (M2, rhs2) ∧ M2.n = n ∧ M2.band = 1 ∧
        (∀ r c, dense M2 r c = if r = m ∧ c = m then dense M1 m m + (if m + 1 < n then hinv x m * 3 else 0)
          else if r = m + 1 ∧ c = m ∧ r < n then -hinv x m else dense M1 r c) ∧
        ∀ r, rhs2 r = if r = m then rhs1 m + (if m + 1 < n then qR x f d m else 0) else rhs1 r := by
      by_cases m0 : m + 1 < n
      · rw [if_pos (show m < n - 1 by omega)]
        obtain ⟨M2, u2, n2, b2, d2⟩ := upd_spec M1 m m (· + hinv x m * 3) ⟨by omega, by omega, by omega, by omega⟩
        obtain ⟨M3, u3, n3, b3, d3⟩ := upd_spec M2 (m + 1) m (fun _ => -hinv x m) ⟨by omega, by omega, by omega, by omega⟩
        have es : quinticRight x f d m (M1, rhs1) = some (M3, Function.update rhs1 m (rhs1 m + qR x f d m)) := by
          simp only [hinv] at u2 u3
          simp only [quinticRight, u2, u3, Option.bind_eq_bind, Option.bind_some, Option.pure_def, qR, hinv]
        refine ⟨M3, _, es, by omega, by omega, ?_, ?_⟩
        · intro r c
          rw [d3, d2]
          by_cases hc : c = m
          · subst hc
            by_cases hr : r = c
            · subst hr
              rw [if_neg (by omega), if_pos ⟨rfl, rfl⟩, if_pos ⟨rfl, rfl⟩, if_pos m0]
            · by_cases hr2 : r = c + 1
              · rw [if_pos ⟨hr2, rfl⟩, if_neg (by omega), if_pos ⟨hr2, rfl, by omega⟩]
              · rw [if_neg (by omega), if_neg (by omega), if_neg (by omega), if_neg (by omega)]
          · rw [if_neg (by omega), if_neg (by omega), if_neg (by omega), if_neg (by omega)]
        · intro r
          by_cases hr : r = m
          · subst hr
            rw [Function.update_self, if_pos rfl, if_pos m0]
          · rw [Function.update_of_ne hr, if_neg hr]
      · rw [if_neg (show ¬ m < n - 1 by omega)]
        refine ⟨M1, rhs1, rfl, n1, b1, ?_, ?_⟩
        · intro r c
          by_cases h : r = m ∧ c = m
          · rw [if_pos h, if_neg m0, h.1, h.2]; ring
          · rw [if_neg h, if_neg (by omega)]
        · intro r
          by_cases h : r = m
          · rw [if_pos h, if_neg m0, h]; ring
          · rw [if_neg h]
    obtain ⟨M2, rhs2, u', n2, b2, d2, r2⟩ := hR
    have es : quinticStep x f d n (M, rhs) m = some (M2, rhs2) := by
      rw [quinticStep, u, Option.bind_some, u']
    refine ⟨M2, rhs2, by simp only [List.foldlM_cons, List.foldlM_nil, Option.bind_eq_bind, Option.bind_some, es]; rfl, n2, b2, ?_, ?_⟩
    · intro r c
      simp only [d2, d1, e3, qAsm]
      by_cases h1 : c = r
      · subst h1
        by_cases h2 : c = m
        · subst h2; simp (disch := omega) only [if_pos, if_neg, and_self, and_true, if_true]
        · by_cases h3 : c < m
          · simp (disch := omega) only [if_pos, if_neg, and_self, and_true, if_true]
          · simp (disch := omega) only [if_pos, if_neg, and_self, and_true, if_true]
      · by_cases h2 : c = r + 1
        · subst h2
          rcases Nat.lt_trichotomy (r + 1) m with h3 | h3 | h3 <;> simp (disch := omega) only [if_pos, if_neg, and_self, and_true, if_true]
        · by_cases h3 : r = c + 1
          · subst h3
            rcases Nat.lt_trichotomy c m with h4 | h4 | h4
            · simp (disch := omega) only [if_pos, if_neg, and_self, and_true, if_true]
            · subst h4
              by_cases h5 : c + 1 < n <;> simp (disch := omega) only [if_pos, if_neg, true_and, and_true, if_true]
            · simp (disch := omega) only [if_pos, if_neg, and_self, and_true]
          · simp (disch := omega) only [if_pos, if_neg, and_self, and_true]
    · intro r
      simp only [r2, r1, e4, qRhs]
      rcases Nat.lt_trichotomy r m with h | h | h
      · simp (disch := omega) only [if_pos, if_neg]
      · subst h; simp (disch := omega) only [if_pos, if_true]
      · simp (disch := omega) only [if_neg]

/-- The complete system. -/
def qSys (x : ℕ → ℝ) (n r c : ℕ) : ℝ :=
  if r = n - 1 ∧ c = n - 2 then -2 * hinv x (n - 2) else if r = 0 ∧ c = 1 then -2 * hinv x 0 else qAsm x n n r c

def qSysRhs (x f d : ℕ → ℝ) (n r : ℕ) : ℝ :=
  if r = n - 1 then (-30 * (f (n - 1) - f (n - 2)) * hinv x (n - 2) + 14 * d (n - 2) + 16 * d (n - 1)) * hinv x (n - 2) * hinv x (n - 2)
  else if r = 0 then (30 * (f 1 - f 0) * hinv x 0 - 14 * d 1 - 16 * d 0) * hinv x 0 * hinv x 0 else qRhs x f d n n r

theorem quintic_system (x f d : ℕ → ℝ) (n : ℕ) (hn : 2 ≤ n) :
    ∃ M rhs, constructQuinticSpline x f d n = some (solveBand M rhs) ∧ M.n = n ∧ M.band = 1 ∧
      (∀ r < n, ∀ c < n, dense M r c = qSys x n r c) ∧ ∀ r < n, rhs r = qSysRhs x f d n r := by
  have hc : BandMatrix.create n 1 (0 : ℝ) = some ⟨n, 1, fun _ => 0⟩ := by rw [BandMatrix.create, if_neg (by omega)]
  have h0 : ∀ r c, dense (⟨n, 1, fun _ => 0⟩ : BandMatrix ℝ) r c = 0 := by
    intro r c
    by_cases h : InBand (⟨n, 1, fun _ => 0⟩ : BandMatrix ℝ) r c
    · rw [dense_band _ h]
    · rw [dense_off _ h]
  obtain ⟨M, rhs, e, e1, e2, e3, e4⟩ := quintic_fold x f d n ⟨n, 1, fun _ => 0⟩ rfl rfl h0 n le_rfl
  obtain ⟨M1, u1, n1, b1, d1⟩ := upd_spec M 0 1 (fun _ => -2 * hinv x 0) ⟨by omega, by omega, by omega, by omega⟩
  obtain ⟨M2, u2, n2, b2, d2⟩ := upd_spec M1 (n - 1) (n - 2) (fun _ => -2 * hinv x (n - 2)) ⟨by omega, by omega, by omega, by omega⟩
  have eh : 1 / (x (n - 1) - x (n - 2)) = hinv x (n - 2) := by rw [hinv, show n - 2 + 1 = n - 1 by omega]
  have eh0 : 1 / (x 1 - x 0) = hinv x 0 := rfl
  have es : quinticEnds x f d n (M, rhs) = some (M2, Function.update (Function.update rhs 0
      ((30 * (f 1 - f 0) * hinv x 0 - 14 * d 1 - 16 * d 0) * hinv x 0 * hinv x 0)) (n - 1)
      ((-30 * (f (n - 1) - f (n - 2)) * hinv x (n - 2) + 14 * d (n - 2) + 16 * d (n - 1)) * hinv x (n - 2) * hinv x (n - 2))) := by
    simp only [quinticEnds, eh, eh0, u1, u2, Option.bind_eq_bind, Option.bind_some, Option.pure_def]
  refine ⟨M2, Function.update (Function.update rhs 0
      ((30 * (f 1 - f 0) * hinv x 0 - 14 * d 1 - 16 * d 0) * hinv x 0 * hinv x 0)) (n - 1)
      ((-30 * (f (n - 1) - f (n - 2)) * hinv x (n - 2) + 14 * d (n - 2) + 16 * d (n - 1)) * hinv x (n - 2) * hinv x (n - 2)),
    ?_, by omega, by omega, ?_, ?_⟩
  · rw [constructQuinticSpline, if_neg (by omega), hc]
    simp only [Option.bind_eq_bind, Option.bind_some, e, es, Option.pure_def]
  · intro r _ c _
    rw [d2, d1, e3, qSys]
  · intro r _
    rw [qSysRhs]
    by_cases h1 : r = n - 1
    · subst h1; simp
    · rw [Function.update_of_ne h1, if_neg h1]
      by_cases h2 : r = 0
      · subst h2; simp
      · rw [Function.update_of_ne h2, if_neg h2, e4]

/-- Rows of the system. -/
theorem qSys_off (x : ℕ → ℝ) (n : ℕ) (hn : 2 ≤ n) (r c : ℕ) (h1 : c ≠ r) (h2 : c + 1 ≠ r) (h3 : c ≠ r + 1) : qSys x n r c = 0 := by
  rw [qSys, if_neg (by omega), if_neg (by omega), qAsm, if_neg h1, if_neg h3, if_neg (by omega)]

theorem qSys_row (x : ℕ → ℝ) (n : ℕ) (hn : 2 ≤ n) :
    (qSys x n 0 0 = 3 * hinv x 0 ∧ qSys x n 0 1 = -2 * hinv x 0) ∧
    (qSys x n (n - 1) (n - 1) = 3 * hinv x (n - 2) ∧ qSys x n (n - 1) (n - 2) = -2 * hinv x (n - 2)) ∧
    ∀ i, i + 2 < n → qSys x n (i + 1) i = -hinv x i ∧ qSys x n (i + 1) (i + 1) = 3 * (hinv x i + hinv x (i + 1)) ∧
      qSys x n (i + 1) (i + 2) = -hinv x (i + 1) := by
  refine ⟨⟨?_, ?_⟩, ⟨?_, ?_⟩, fun i hi => ⟨?_, ?_, ?_⟩⟩
  · rw [qSys, if_neg (by omega), if_neg (by omega), qAsm, if_pos rfl, if_pos (by omega), if_neg (by omega), if_pos (by omega)]; ring
  · rw [qSys, if_neg (by omega), if_pos (by omega)]
  · rw [qSys, if_neg (by omega), if_neg (by omega), qAsm, if_pos rfl, if_pos (by omega), if_pos (by omega), if_neg (by omega),
      show n - 1 - 1 = n - 2 by omega]; ring
  · rw [qSys, if_pos (by omega)]
  · rw [qSys, if_neg (by omega), if_neg (by omega), qAsm, if_neg (by omega), if_neg (by omega), if_pos rfl, if_pos (by omega)]
  · rw [qSys, if_neg (by omega), if_neg (by omega), qAsm, if_pos rfl, if_pos (by omega), if_pos (by omega), if_pos (by omega),
      Nat.add_sub_cancel]; ring
  · rw [qSys, if_neg (by omega), if_neg (by omega), qAsm, if_neg (by omega), if_pos rfl, if_pos (by omega)]

theorem qSys_dominant {x : ℕ → ℝ} {n : ℕ} (hg : Grid x n) (hn : 2 ≤ n) (r : ℕ) (hr : r < n) :
    ∑ c ∈ (Finset.range n).erase r, |qSys x n r c| < |qSys x n r r| := by
  rw [off_sum n r hr _ (qSys_off x n hn r)]
  obtain ⟨⟨a1, a2⟩, ⟨b1, b2⟩, c⟩ := qSys_row x n hn
  by_cases h0 : r = 0
  · subst h0
    have p := hinv_pos hg (show 0 + 1 < n by omega)
    rw [if_neg (lt_irrefl _), if_pos (by omega), a1, a2, abs_of_neg (by linarith), abs_of_pos (by linarith)]
    linarith
  · by_cases h1 : r = n - 1
    · subst h1
      have p := hinv_pos hg (show n - 2 + 1 < n by omega)
      rw [if_pos (by omega), if_neg (by omega), show n - 1 - 1 = n - 2 by omega, b1, b2, abs_of_neg (by linarith),
        abs_of_pos (by linarith)]
      linarith
    · obtain ⟨i, rfl⟩ : ∃ i, r = i + 1 := ⟨r - 1, by omega⟩
      obtain ⟨c1, c2, c3⟩ := c i (by omega)
      have p := hinv_pos hg (show i + 1 < n by omega)
      have q := hinv_pos hg (show i + 1 + 1 < n by omega)
      rw [if_pos (by omega), if_pos (by omega), Nat.add_sub_cancel, c1, c2, c3, abs_of_neg (by linarith),
        abs_of_neg (by linarith), abs_of_pos (by linarith)]
      linarith

/-! ## Third and fourth derivatives at the ends of a segment -/

def third0 (H F dl dh el eh : ℝ) : ℝ := (60 * F / H - 36 * dl - 24 * dh) / H ^ 2 + (3 * eh - 9 * el) / H
def third1 (H F dl dh el eh : ℝ) : ℝ := (60 * F / H - 36 * dh - 24 * dl) / H ^ 2 + (9 * eh - 3 * el) / H
def fourth0 (H F dl dh el eh : ℝ) : ℝ := 24 * (-15 * F + 8 * H * dl + 7 * H * dh + 3 / 2 * H ^ 2 * el - H ^ 2 * eh) / H ^ 4
def fourth1 (H F dl dh el eh : ℝ) : ℝ := 24 * (15 * F - 8 * H * dh - 7 * H * dl + 3 / 2 * H ^ 2 * eh - H ^ 2 * el) / H ^ 4

/-- Conditions on the second derivatives e at the nodes. -/
structure QSmooth (x f d e : ℕ → ℝ) (n : ℕ) : Prop where
  interior : ∀ i, i + 2 < n →
    third1 (x (i + 1) - x i) (f (i + 1) - f i) (d i) (d (i + 1)) (e i) (e (i + 1)) =
    third0 (x (i + 2) - x (i + 1)) (f (i + 2) - f (i + 1)) (d (i + 1)) (d (i + 2)) (e (i + 1)) (e (i + 2))
  left : fourth0 (x 1 - x 0) (f 1 - f 0) (d 0) (d 1) (e 0) (e 1) = 0
  right : fourth1 (x (n - 1) - x (n - 2)) (f (n - 1) - f (n - 2)) (d (n - 2)) (d (n - 1)) (e (n - 2)) (e (n - 1)) = 0

theorem qsolves_iff {x : ℕ → ℝ} {n : ℕ} (hg : Grid x n) (hn : 2 ≤ n) (f d e : ℕ → ℝ) :
    (∀ r < n, ∑ c ∈ Finset.range n, qSys x n r c * e c = qSysRhs x f d n r) ↔ QSmooth x f d e n := by
  have row : ∀ r < n, ∑ c ∈ Finset.range n, qSys x n r c * e c =
      (if 0 < r then qSys x n r (r - 1) * e (r - 1) else 0) + qSys x n r r * e r + if r + 1 < n then qSys x n r (r + 1) * e (r + 1) else 0 :=
    fun r hr => tri_sum n r hr (fun c => qSys x n r c * e c) (fun c h1 h2 h3 => by rw [qSys_off x n hn r c h1 h2 h3, zero_mul])
  obtain ⟨⟨a1, a2⟩, ⟨b1, b2⟩, c⟩ := qSys_row x n hn
  have first : (∑ c ∈ Finset.range n, qSys x n 0 c * e c = qSysRhs x f d n 0) ↔
      fourth0 (x 1 - x 0) (f 1 - f 0) (d 0) (d 1) (e 0) (e 1) = 0 := by
    have p : 0 < x 1 - x 0 := sub_pos.2 (hg 0 1 (by omega) (by omega))
    rw [row 0 (by omega), if_neg (lt_irrefl _), if_pos (by omega), zero_add, a1, a2, qSysRhs, if_neg (by omega), if_pos rfl]
    simp only [hinv, fourth0, zero_add]
    generalize x 1 - x 0 = H at p
    generalize f 1 - f 0 = F
    rw [div_eq_zero_iff, or_iff_left (by positivity)]
    constructor
    · intro h; field_simp at h; linarith
    · intro h; field_simp; linarith
  have last : (∑ c ∈ Finset.range n, qSys x n (n - 1) c * e c = qSysRhs x f d n (n - 1)) ↔
      fourth1 (x (n - 1) - x (n - 2)) (f (n - 1) - f (n - 2)) (d (n - 2)) (d (n - 1)) (e (n - 2)) (e (n - 1)) = 0 := by
    have p : 0 < x (n - 1) - x (n - 2) := sub_pos.2 (hg (n - 2) (n - 1) (by omega) (by omega))
    rw [row (n - 1) (by omega), if_pos (by omega), if_neg (by omega), show n - 1 - 1 = n - 2 by omega, add_zero, b1, b2, qSysRhs, if_pos rfl]
    simp only [hinv, fourth1, show n - 2 + 1 = n - 1 by omega]
    generalize x (n - 1) - x (n - 2) = H at p
    generalize f (n - 1) - f (n - 2) = F
    rw [div_eq_zero_iff, or_iff_left (by positivity)]
    constructor
    · intro h; field_simp at h; linarith
    · intro h; field_simp; linarith
  have mid : ∀ i, i + 2 < n → ((∑ c ∈ Finset.range n, qSys x n (i + 1) c * e c = qSysRhs x f d n (i + 1)) ↔
      third1 (x (i + 1) - x i) (f (i + 1) - f i) (d i) (d (i + 1)) (e i) (e (i + 1)) =
      third0 (x (i + 2) - x (i + 1)) (f (i + 2) - f (i + 1)) (d (i + 1)) (d (i + 2)) (e (i + 1)) (e (i + 2))) := by
    intro i hi
    obtain ⟨c1, c2, c3⟩ := c i hi
    rw [row (i + 1) (by omega), if_pos (by omega), if_pos (by omega), Nat.add_sub_cancel, c1, c2, c3, qSysRhs, if_neg (by omega),
      if_neg (by omega), qRhs, if_pos (by omega), if_pos (by omega), if_pos (by omega), Nat.add_sub_cancel]
    simp only [qL, qR, hinv, third0, third1, div_eq_mul_inv, one_mul, show i + 1 + 1 = i + 2 by omega]
    generalize x (i + 1) - x i = H
    generalize x (i + 2) - x (i + 1) = K
    constructor <;> intro h
    · linear_combination 3 * h
    · linear_combination h / 3
  constructor
  · intro h
    exact ⟨fun i hi => (mid i hi).1 (h (i + 1) (by omega)), first.1 (h 0 (by omega)), last.1 (h (n - 1) (by omega))⟩
  · rintro ⟨h1, h2, h3⟩ i hi
    by_cases i0 : i = 0
    · subst i0; exact first.2 h2
    · by_cases i1 : i = n - 1
      · subst i1; exact last.2 h3
      · have := (mid (i - 1) (by omega)).2 (h1 (i - 1) (by omega))
        rwa [show i - 1 + 1 = i by omega] at this

theorem quintic_solve {x : ℕ → ℝ} {n : ℕ} (hg : Grid x n) (hn : 2 ≤ n) (f d : ℕ → ℝ) :
    ∃ e, constructQuinticSpline x f d n = some e ∧ QSmooth x f d e n ∧ ∀ e', QSmooth x f d e' n → ∀ i < n, e' i = e i := by
  obtain ⟨M, rhs, e, e1, e2, e3, e4⟩ := quintic_system x f d n hn
  have hm : ∀ k, 1 ≤ k → k ≤ M.n → (leading M k).det ≠ 0 := by
    apply minors_of_dominant
    intro r hr
    rw [e1] at hr ⊢
    have := qSys_dominant hg hn r hr
    rw [e3 r hr r hr]
    refine lt_of_eq_of_lt ?_ this
    apply Finset.sum_congr rfl
    intro c hc
    rw [e3 r hr c (Finset.mem_range.1 (Finset.mem_of_mem_erase hc))]
  have conv : ∀ v : ℕ → ℝ, Solves M v rhs ↔ QSmooth x f d v n := by
    intro v
    rw [← qsolves_iff hg hn, Solves, e1]
    apply forall_congr'; intro i
    apply forall_congr'; intro hi
    rw [e4 i hi, Finset.sum_congr rfl (fun c hc => by rw [e3 i hi c (Finset.mem_range.1 hc)])]
  refine ⟨_, e, (conv _).1 (C34_solveBand M (by omega) rhs hm), ?_⟩
  intro v hv i hi
  exact (C34_unique M (by omega) rhs v hm ((conv v).2 hv) i (by omega)).symm

/-! ## C72 -/

open Polynomial in
/-- Specification: G is a spline of degree 5 through the points (x i, f i) with slopes d i: on each segment it is a
polynomial P i of degree at most 5; the second and third derivatives of adjacent polynomials agree at the common node; the
fourth derivative vanishes at both ends of the grid. -/
structure IsQuinticSpline (x f d : ℕ → ℝ) (n : ℕ) (G : ℝ → ℝ) : Prop where
  pieces : ∃ P : ℕ → ℝ[X], (∀ i, i + 1 < n → (P i).natDegree ≤ 5 ∧ (∀ t, x i ≤ t → t ≤ x (i + 1) → G t = (P i).eval t) ∧
      (P i).eval (x i) = f i ∧ (P i).eval (x (i + 1)) = f (i + 1) ∧
      (derivative (P i)).eval (x i) = d i ∧ (derivative (P i)).eval (x (i + 1)) = d (i + 1)) ∧
    (∀ i, i + 2 < n → (derivative^[2] (P i)).eval (x (i + 1)) = (derivative^[2] (P (i + 1))).eval (x (i + 1)) ∧
      (derivative^[3] (P i)).eval (x (i + 1)) = (derivative^[3] (P (i + 1))).eval (x (i + 1))) ∧
    (derivative^[4] (P 0)).eval (x 0) = 0 ∧ (derivative^[4] (P (n - 2))).eval (x (n - 1)) = 0

open Polynomial in
theorem poly5_form (p : ℝ[X]) (hp : p.natDegree ≤ 5) :
    p = C (p.coeff 0) + C (p.coeff 1) * X + C (p.coeff 2) * X ^ 2 + C (p.coeff 3) * X ^ 3 + C (p.coeff 4) * X ^ 4 + C (p.coeff 5) * X ^ 5 := by
  conv_lhs => rw [p.as_sum_range' 6 (by omega)]
  simp [Finset.sum_range_succ, ← C_mul_X_pow_eq_monomial]

open Polynomial in
theorem poly5_derivs (c0 c1 c2 c3 c4 c5 : ℝ) :
    derivative (C c0 + C c1 * X + C c2 * X ^ 2 + C c3 * X ^ 3 + C c4 * X ^ 4 + C c5 * X ^ 5) =
      C c1 + C (2 * c2) * X + C (3 * c3) * X ^ 2 + C (4 * c4) * X ^ 3 + C (5 * c5) * X ^ 4 ∧
    derivative (C c1 + C (2 * c2) * X + C (3 * c3) * X ^ 2 + C (4 * c4) * X ^ 3 + C (5 * c5) * X ^ 4) =
      C (2 * c2) + C (6 * c3) * X + C (12 * c4) * X ^ 2 + C (20 * c5) * X ^ 3 ∧
    derivative (C (2 * c2) + C (6 * c3) * X + C (12 * c4) * X ^ 2 + C (20 * c5) * X ^ 3) =
      C (6 * c3) + C (24 * c4) * X + C (60 * c5) * X ^ 2 ∧
    derivative (C (6 * c3) + C (24 * c4) * X + C (60 * c5) * X ^ 2) = C (24 * c4) + C (120 * c5) * X := by
  have h : ∀ (a b : ℝ), C (a * b) = (C a * C b : ℝ[X]) := fun a b => C_mul
  refine ⟨?_, ?_, ?_, ?_⟩ <;>
  · simp only [derivative_add, derivative_C_mul, derivative_C, derivative_X, derivative_X_pow]
    simp only [h, map_ofNat]
    push_cast
    try simp only [map_ofNat]
    ring

open Polynomial in
theorem poly5_eval (p : ℝ[X]) (hp : p.natDegree ≤ 5) (t : ℝ) :
    p.eval t = p.coeff 0 + p.coeff 1 * t + p.coeff 2 * t ^ 2 + p.coeff 3 * t ^ 3 + p.coeff 4 * t ^ 4 + p.coeff 5 * t ^ 5 ∧
    (derivative p).eval t = p.coeff 1 + 2 * p.coeff 2 * t + 3 * p.coeff 3 * t ^ 2 + 4 * p.coeff 4 * t ^ 3 + 5 * p.coeff 5 * t ^ 4 ∧
    (derivative^[2] p).eval t = 2 * p.coeff 2 + 6 * p.coeff 3 * t + 12 * p.coeff 4 * t ^ 2 + 20 * p.coeff 5 * t ^ 3 ∧
    (derivative^[3] p).eval t = 6 * p.coeff 3 + 24 * p.coeff 4 * t + 60 * p.coeff 5 * t ^ 2 ∧
    (derivative^[4] p).eval t = 24 * p.coeff 4 + 120 * p.coeff 5 * t := by
  have e := poly5_form p hp
  obtain ⟨e1, e2, e3, e4⟩ := poly5_derivs (p.coeff 0) (p.coeff 1) (p.coeff 2) (p.coeff 3) (p.coeff 4) (p.coeff 5)
  rw [← e] at e1
  rw [← e1] at e2
  rw [← e2] at e3
  rw [← e3] at e4
  have i2 : derivative^[2] p = derivative (derivative p) := rfl
  have i3 : derivative^[3] p = derivative (derivative (derivative p)) := rfl
  have i4 : derivative^[4] p = derivative (derivative (derivative (derivative p))) := rfl
  rw [i2, i3, i4, e4, e3, e2, e1]
  refine ⟨?_, by simp, by simp, by simp, by simp⟩
  conv_lhs => rw [e]
  simp

open Polynomial in
theorem hermite5_of_poly (p : ℝ[X]) (hp : p.natDegree ≤ 5) (a b : ℝ) (hab : a ≠ b) :
    (∀ t, evalQuintic t a b (p.eval a) (p.eval b) ((derivative p).eval a) ((derivative p).eval b)
      ((derivative^[2] p).eval a) ((derivative^[2] p).eval b) =
      ⟨p.eval t, (derivative p).eval t, (derivative^[2] p).eval t, (derivative^[3] p).eval t⟩) ∧
    (derivative^[3] p).eval a = third0 (b - a) (p.eval b - p.eval a) ((derivative p).eval a) ((derivative p).eval b)
      ((derivative^[2] p).eval a) ((derivative^[2] p).eval b) ∧
    (derivative^[3] p).eval b = third1 (b - a) (p.eval b - p.eval a) ((derivative p).eval a) ((derivative p).eval b)
      ((derivative^[2] p).eval a) ((derivative^[2] p).eval b) ∧
    (derivative^[4] p).eval a = fourth0 (b - a) (p.eval b - p.eval a) ((derivative p).eval a) ((derivative p).eval b)
      ((derivative^[2] p).eval a) ((derivative^[2] p).eval b) ∧
    (derivative^[4] p).eval b = fourth1 (b - a) (p.eval b - p.eval a) ((derivative p).eval a) ((derivative p).eval b)
      ((derivative^[2] p).eval a) ((derivative^[2] p).eval b) := by
  obtain ⟨a0, a1, a2, a3, a4⟩ := poly5_eval p hp a
  obtain ⟨b0, b1, b2, b3, b4⟩ := poly5_eval p hp b
  rw [a0, a1, a2, a3, a4, b0, b1, b2, b3, b4]
  have hne : b - a ≠ 0 := sub_ne_zero.2 hab.symm
  obtain ⟨u, hu⟩ : ∃ u, u = b - a := ⟨_, rfl⟩
  have hb : b = a + u := by rw [hu]; ring
  rw [← hu] at hne
  refine ⟨?_, ?_, ?_, ?_, ?_⟩
  · intro t
    obtain ⟨t0, t1, t2, t3, t4⟩ := poly5_eval p hp t
    have := quintic_poly t a b (p.eval a) (p.eval b) ((derivative p).eval a) ((derivative p).eval b)
      ((derivative^[2] p).eval a) ((derivative^[2] p).eval b) hab
    simp only at this
    rw [a0, a1, a2, b0, b1, b2] at this
    rw [this, t0, t1, t2, t3, ← hu]
    subst hb
    ext
    · simp only; field_simp; ring
    · simp only; field_simp; ring
    · simp only; field_simp; ring
    · simp only; field_simp; ring
  · subst hb; rw [third0]; simp only [add_sub_cancel_left]; field_simp; ring
  · subst hb; rw [third1]; simp only [add_sub_cancel_left]; field_simp; ring
  · subst hb; rw [fourth0]; simp only [add_sub_cancel_left]; field_simp; ring
  · subst hb; rw [fourth1]; simp only [add_sub_cancel_left]; field_simp; ring

open Polynomial in
/-- The polynomial on a segment with given values and derivatives at the ends. -/
theorem quintic_polyJet (xl xh fl fh dl dh el eh : ℝ) (h : xl ≠ xh) :
    ∃ p : ℝ[X], p.natDegree ≤ 5 ∧ p.eval xl = fl ∧ p.eval xh = fh ∧ (derivative p).eval xl = dl ∧ (derivative p).eval xh = dh ∧
      (derivative^[2] p).eval xl = el ∧ (derivative^[2] p).eval xh = eh := by
  have hne : xh - xl ≠ 0 := sub_ne_zero.2 h.symm
  obtain ⟨H, hH⟩ : ∃ H, H = xh - xl := ⟨_, rfl⟩
  have hb : xh = xl + H := by rw [hH]; ring
  rw [← hH] at hne
  set a := fh - fl - H * dl - H ^ 2 / 2 * el
  set b := H * (dh - dl - H * el)
  set c := H ^ 2 * (eh - el)
  refine ⟨C fl + C dl * (X - C xl) + C (el / 2) * (X - C xl) ^ 2 + C ((10 * a - 4 * b + c / 2) / H ^ 3) * (X - C xl) ^ 3 +
    C ((-15 * a + 7 * b - c) / H ^ 4) * (X - C xl) ^ 4 + C ((6 * a - 3 * b + c / 2) / H ^ 5) * (X - C xl) ^ 5, by compute_degree, ?_⟩
  subst hb
  refine ⟨by simp, ?_, by simp [derivative_pow], ?_, by simp [derivative_pow, Function.iterate_succ], ?_⟩
  · simp [a, b, c]; field_simp; ring
  · simp [derivative_pow, a, b, c]; field_simp; ring
  · simp [derivative_pow, Function.iterate_succ, a, b, c]; field_simp; ring

open Polynomial in
/-- C72: for all strictly increasing nodes, values and slopes, the construction succeeds; the spline has the given values and
slopes at the nodes, three continuous derivatives inside the grid and vanishing fourth derivative at the ends of the grid,
and it is the only spline of degree 5 with these properties. -/
theorem C72_quintic (x f d : ℕ → ℝ) (n : ℕ) (hg : Grid x n) (hn : 2 ≤ n) :
    ∃ e, constructQuinticSpline x f d n = some e ∧ ∃ S : ℝ → Jet3, (∀ t, QuinticSpline.evalDeriv x f d e n t = some (S t)) ∧
      Interpolates x f d n 5 S ∧ IsQuinticSpline x f d n (fun t => (S t).val) ∧
      (∀ t, x 0 < t → t < x (n - 1) → HasDerivAt (fun t => (S t).der) (S t).der2 t ∧ HasDerivAt (fun t => (S t).der2) (S t).der3 t ∧
        ContinuousAt (fun t => (S t).der3) t) ∧
      ∀ G, IsQuinticSpline x f d n G → ∀ t, x 0 ≤ t → t ≤ x (n - 1) → G t = (S t).val := by
  obtain ⟨e, he, hq, hu⟩ := quintic_solve hg hn f d
  refine ⟨e, he, ?_⟩
  obtain ⟨S, hS, hI⟩ := C69_quintic x f d e n hg (by omega)
  obtain ⟨S', hS', hp⟩ := getS (quintic_piece hg (by omega) f d e)
  obtain rfl : S' = S := by funext t; exact Option.some.inj ((hS' t).symm.trans (hS t))
  -- polynomials on the segments
  have ex : ∀ i, ∃ p : ℝ[X], i + 1 < n → p.natDegree ≤ 5 ∧ p.eval (x i) = f i ∧ p.eval (x (i + 1)) = f (i + 1) ∧
      (derivative p).eval (x i) = d i ∧ (derivative p).eval (x (i + 1)) = d (i + 1) ∧
      (derivative^[2] p).eval (x i) = e i ∧ (derivative^[2] p).eval (x (i + 1)) = e (i + 1) := by
    intro i
    by_cases hi : i + 1 < n
    · obtain ⟨p, hp⟩ := quintic_polyJet (x i) (x (i + 1)) (f i) (f (i + 1)) (d i) (d (i + 1)) (e i) (e (i + 1)) (hg _ _ (by omega) hi).ne
      exact ⟨p, fun _ => hp⟩
    · exact ⟨0, fun h => absurd h hi⟩
  choose P hP using ex
  have jet : ∀ i, i + 1 < n → ∀ t, evalQuintic t (x i) (x (i + 1)) (f i) (f (i + 1)) (d i) (d (i + 1)) (e i) (e (i + 1)) =
      ⟨(P i).eval t, (derivative (P i)).eval t, (derivative^[2] (P i)).eval t, (derivative^[3] (P i)).eval t⟩ := by
    intro i hi t
    obtain ⟨p1, p2, p3, p4, p5, p6, p7⟩ := hP i hi
    have := (hermite5_of_poly (P i) p1 (x i) (x (i + 1)) (hg _ _ (by omega) hi).ne).1 t
    rwa [p2, p3, p4, p5, p6, p7] at this
  have piece : ∀ i, i + 1 < n → ∀ t, quinticPiece x f d e n (i + 1) t =
      ⟨(P i).eval t, (derivative (P i)).eval t, (derivative^[2] (P i)).eval t, (derivative^[3] (P i)).eval t⟩ := by
    intro i hi t
    rw [quinticPiece, if_neg (by omega), if_neg (by omega), Nat.add_sub_cancel, jet i hi]
  have thirds : ∀ i, i + 2 < n → (derivative^[3] (P i)).eval (x (i + 1)) = (derivative^[3] (P (i + 1))).eval (x (i + 1)) := by
    intro i hi
    obtain ⟨p1, p2, p3, p4, p5, p6, p7⟩ := hP i (by omega)
    obtain ⟨q1, q2, q3, q4, q5, q6, q7⟩ := hP (i + 1) (by omega)
    rw [(hermite5_of_poly (P i) p1 (x i) (x (i + 1)) (hg _ _ (by omega) (by omega)).ne).2.2.1,
      (hermite5_of_poly (P (i + 1)) q1 (x (i + 1)) (x (i + 1 + 1)) (hg _ _ (by omega) (by omega)).ne).2.1,
      p2, p3, p4, p5, p6, p7, q2, q3, q4, q5, q6, q7]
    exact hq.interior i hi
  have node : ∀ t, ∀ i, 0 < i → i + 1 < n → t = x i →
      quinticPiece x f d e n i t = quinticPiece x f d e n (i + 1) t := by
    rintro t i h0 hi rfl
    obtain ⟨j, rfl⟩ : ∃ j, i = j + 1 := ⟨i - 1, by omega⟩
    obtain ⟨p1, p2, p3, p4, p5, p6, p7⟩ := hP j (by omega)
    obtain ⟨q1, q2, q3, q4, q5, q6, q7⟩ := hP (j + 1) (by omega)
    rw [piece j (by omega), piece (j + 1) (by omega), p3, p5, p7, q2, q4, q6, thirds j (by omega)]
  have inside : ∀ t, x 0 < t → t < x (n - 1) → ∀ i < n, t = x i → 0 < i ∧ i + 1 < n := by
    intro t h0 h1 i hi e
    constructor
    · by_contra hc
      have : i = 0 := by omega
      subst this; rw [e] at h0; exact lt_irrefl _ h0
    · by_contra hc
      have : i = n - 1 := by omega
      subst this; rw [e] at h1; exact lt_irrefl _ h1
  have av : ∀ t, ∀ i < n, t = x i → (quinticPiece x f d e n i t).val = (quinticPiece x f d e n (i + 1) t).val := by
    rintro t i hi rfl; have := quintic_node hg f d e hi; rw [this.1.1, this.2.1]
  refine ⟨S', hS, hI.1, ?_, ?_, ?_⟩
  · refine ⟨P, ?_, ?_, ?_, ?_⟩
    · intro i hi
      obtain ⟨p1, p2, p3, p4, p5, p6, p7⟩ := hP i hi
      refine ⟨p1, fun t t0 t1 => ?_, p2, p3, p4, p5⟩
      show (S' t).val = _
      rw [agree hg hp Jet3.val (av t) (k := i + 1) ⟨by omega, fun _ => t0, fun _ => t1⟩, piece i hi]
    · intro i hi
      obtain ⟨p1, p2, p3, p4, p5, p6, p7⟩ := hP i (by omega)
      obtain ⟨q1, q2, q3, q4, q5, q6, q7⟩ := hP (i + 1) (by omega)
      exact ⟨by rw [p7, q6], thirds i hi⟩
    · obtain ⟨p1, p2, p3, p4, p5, p6, p7⟩ := hP 0 (by omega)
      rw [(hermite5_of_poly (P 0) p1 (x 0) (x (0 + 1)) (hg _ _ (by omega) (by omega)).ne).2.2.2.1, p2, p3, p4, p5, p6, p7]
      exact hq.left
    · obtain ⟨p1, p2, p3, p4, p5, p6, p7⟩ := hP (n - 2) (by omega)
      have e1 : n - 1 = n - 2 + 1 := by omega
      rw [e1, (hermite5_of_poly (P (n - 2)) p1 (x (n - 2)) (x (n - 2 + 1)) (hg _ _ (by omega) (by omega)).ne).2.2.2.2, p2, p3, p4, p5, p6, p7]
      have := hq.right
      rwa [e1] at this
  · intro t h0 h1
    have nd := fun i hi e' => node t i (inside t h0 h1 i hi e').1 (inside t h0 h1 i hi e').2 e'
    have ks : ∀ k, InPiece x n k t → k ≤ n := fun k hk => hk.1
    refine ⟨?_, ?_, ?_⟩
    · refine glue hg (by omega) hp Jet3.der (fun i hi e' => by rw [nd i hi e']) ?_
      intro k hk
      rw [agree hg hp Jet3.der2 (fun i hi e' => by rw [nd i hi e']) hk]
      exact (quinticPiece_hasDeriv hg f d e k hk.1 t).2.1
    · refine glue hg (by omega) hp Jet3.der2 (fun i hi e' => by rw [nd i hi e']) ?_
      intro k hk
      rw [agree hg hp Jet3.der3 (fun i hi e' => by rw [nd i hi e']) hk]
      exact (quinticPiece_hasDeriv hg f d e k hk.1 t).2.2
    · refine glue_continuous hg (by omega) hp Jet3.der3 (fun i hi e' => by rw [nd i hi e']) ?_
      intro k hk
      have k0 : k ≠ 0 := by
        rintro rfl
        have := hk.2.2 (by omega); linarith
      have k1 : k ≠ n := by
        rintro rfl
        have := hk.2.1 (by omega); linarith
      obtain ⟨j, rfl⟩ : ∃ j, k = j + 1 := ⟨k - 1, by omega⟩
      have hk' := hk.1
      simp only [piece j (by omega)]
      exact (derivative^[3] (P j)).continuous.continuousAt
  · intro G hG t h0 h1
    obtain ⟨Q, g1, g2, g3, g4⟩ := hG.pieces
    obtain ⟨i, hi, ht1, ht2⟩ := segment_of hg hn h0 h1
    set v : ℕ → ℝ := fun i => if i + 1 < n then (derivative^[2] (Q i)).eval (x i) else (derivative^[2] (Q (n - 2))).eval (x (n - 1)) with hv
    have vL : ∀ i, i + 1 < n → (derivative^[2] (Q i)).eval (x i) = v i := fun i hi => by simp only [hv]; rw [if_pos hi]
    have vR : ∀ i, i + 1 < n → (derivative^[2] (Q i)).eval (x (i + 1)) = v (i + 1) := by
      intro i hi
      simp only [hv]
      by_cases hh : i + 1 + 1 < n
      · rw [if_pos hh, (g2 i (by omega)).1]
      · rw [if_neg hh, show n - 2 = i by omega, show n - 1 = i + 1 by omega]
    have hs : QSmooth x f d v n := by
      refine ⟨?_, ?_, ?_⟩
      · intro i hi
        obtain ⟨p1, _, p2, p3, p4, p5⟩ := g1 i (by omega)
        obtain ⟨q1, _, q2, q3, q4, q5⟩ := g1 (i + 1) (by omega)
        have := (g2 i hi).2
        rw [(hermite5_of_poly (Q i) p1 (x i) (x (i + 1)) (hg _ _ (by omega) (by omega)).ne).2.2.1,
          (hermite5_of_poly (Q (i + 1)) q1 (x (i + 1)) (x (i + 1 + 1)) (hg _ _ (by omega) (by omega)).ne).2.1,
          p2, p3, p4, p5, q2, q3, q4, q5, vL i (by omega), vR i (by omega), vL (i + 1) (by omega), vR (i + 1) (by omega)] at this
        exact this
      · obtain ⟨p1, _, p2, p3, p4, p5⟩ := g1 0 (by omega)
        rw [(hermite5_of_poly (Q 0) p1 (x 0) (x (0 + 1)) (hg _ _ (by omega) (by omega)).ne).2.2.2.1, p2, p3, p4, p5,
          vL 0 (by omega), vR 0 (by omega)] at g3
        exact g3
      · obtain ⟨p1, _, p2, p3, p4, p5⟩ := g1 (n - 2) (by omega)
        have e1 : n - 1 = n - 2 + 1 := by omega
        rw [e1, (hermite5_of_poly (Q (n - 2)) p1 (x (n - 2)) (x (n - 2 + 1)) (hg _ _ (by omega) (by omega)).ne).2.2.2.2, p2, p3, p4, p5,
          vL (n - 2) (by omega), vR (n - 2) (by omega)] at g4
        rw [e1]; exact g4
    have hve := hu v hs
    obtain ⟨p1, gv, p2, p3, p4, p5⟩ := g1 i hi
    rw [gv t ht1 ht2, agree hg hp Jet3.val (av t) (k := i + 1) ⟨by omega, fun _ => ht1, fun _ => ht2⟩]
    rw [quinticPiece, if_neg (by omega), if_neg (by omega), Nat.add_sub_cancel]
    have := (hermite5_of_poly (Q i) p1 (x i) (x (i + 1)) (hg _ _ (by omega) (by omega)).ne).1 t
    rw [p2, p3, p4, p5, vL i hi, vR i hi, hve i (by omega), hve (i + 1) (by omega)] at this
    rw [this]

/-- C72 is not vacuous: three nodes of the function t^3, which is reproduced. -/
example : ∃ e, constructQuinticSpline (fun i => (i : ℝ)) (fun i => (i : ℝ) ^ 3) (fun i => 3 * (i : ℝ) ^ 2) 3 = some e ∧
    ∃ S : ℝ → Jet3, (∀ t, QuinticSpline.evalDeriv (fun i => (i : ℝ)) (fun i => (i : ℝ) ^ 3) (fun i => 3 * (i : ℝ) ^ 2) e 3 t = some (S t)) ∧
      (S (3 / 2)).val = 27 / 8 := by
  have hg : Grid (fun i => (i : ℝ)) 3 := fun i j hij _ => by simpa using hij
  obtain ⟨e, he, S, hS, _, _, _, hu⟩ := C72_quintic _ (fun i => (i : ℝ) ^ 3) (fun i => 3 * (i : ℝ) ^ 2) 3 hg (by omega)
  refine ⟨e, he, S, hS, ?_⟩
  have := hu (fun t => t ^ 3) ⟨fun _ => Polynomial.X ^ 3, ?_, ?_, ?_, ?_⟩ (3 / 2) (by norm_num) (by norm_num)
  · rw [← this]; norm_num
  · intro i hi
    refine ⟨by simp, fun t _ _ => by simp, by simp, by simp, by norm_num, by norm_num⟩
  · intro i _; exact ⟨rfl, rfl⟩
  · simp [Function.iterate_succ]
  · simp [Function.iterate_succ]

end
end Verif.Spline
