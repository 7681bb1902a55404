import Mathlib.Algebra.Order.Field.GeomSum
import Mathlib.Analysis.SpecialFunctions.Log.Basic
import Mathlib.Tactic

/-! Model of the grid generators, /repo/src/math_spline.cpp:4226-4320, exact real arithmetic; C35, C36. -/
namespace Verif.GridGen

noncomputable section

/-- std::vector<double>: size and elements (those beyond size are meaningless). -/
structure Vec where
  size : ℕ
  at' : ℕ → ℝ

/-- `std::vector<double> v(n)`: zeros. -/
def Vec.zeros (n : ℕ) : Vec := ⟨n, fun _ => 0⟩

/-- Assignment of an element; the index must be within range (otherwise undefined behaviour = none). -/
def Vec.set (v : Vec) (i : ℕ) (x : ℝ) : Option Vec := if i < v.size then some ⟨v.size, Function.update v.at' i x⟩ else none

/-- `for(k=lo; k<hi; k++) body` (none = exception or undefined behaviour). -/
def loop (lo hi : ℕ) (body : ℕ → Vec → Option Vec) (v : Vec) : Option Vec :=
  (List.range' lo (hi - lo)).foldlM (fun v k => body k v) v

/-- math_spline.cpp:4226-4236 (NaN arguments are not represented: all comparisons with them are false in the code, so they
are not rejected). -/
def createUniformGrid (nnodes : ℕ) (xmin xmax : ℝ) : Option Vec :=
  if nnodes < 2 ∨ xmax ≤ xmin then none else do
    let g ← loop 1 (nnodes - 1) (fun k g => g.set k ((xmin * ((nnodes - 1 - k : ℕ) : ℝ) + xmax * k) / ((nnodes - 1 : ℕ) : ℝ)))
      (Vec.zeros nnodes)
    let g ← g.set 0 xmin
    g.set (nnodes - 1) xmax

/-- math_spline.cpp:4238-4249. -/
def createExpGrid (nnodes : ℕ) (xmin xmax : ℝ) : Option Vec :=
  if nnodes < 2 ∨ xmin ≤ 0 ∨ xmax ≤ xmin then none else do
    let logmin := Real.log xmin
    let logmax := Real.log xmax
    let g ← (Vec.zeros nnodes).set 0 xmin
    let g ← g.set (nnodes - 1) xmax
    loop 1 (nnodes - 1) (fun k g => g.set k (Real.exp (logmin + k * (logmax - logmin) / ((nnodes - 1 : ℕ) : ℝ)))) g

/-- math_spline.cpp:4256-4259: GridSpacingFinder::value. -/
def spacing (ratio n A : ℝ) : ℝ :=
  if |A| < 1 / 10 ^ 8 then n - ratio + 1 / 2 * A * n * (n - 1)
  else (Real.exp (A * n) - 1) / (Real.exp A - 1) - ratio

/-- math_spline.cpp:4265-4290. `root n ratio` is the number returned by findRoot (none if it throws); `fcmp` is the test at
4277 (relative difference of at most 1e-12 between the two positive numbers). -/
def createNonuniformGrid (root : ℕ → ℝ → Option ℝ) (fcmp : ℝ → ℝ → Bool) (nnodes : ℕ) (xmin xmax : ℝ) (zeroelem : Bool) :
    Option Vec :=
  if nnodes < 2 ∨ xmin ≤ 0 ∨ xmax ≤ xmin then none else do
    let ratio := xmax / xmin
    let g := Vec.zeros nnodes
    let indexstart := if zeroelem then 1 else 0
    let g ← if zeroelem then g.set 0 0 else some g
    let n := if zeroelem then nnodes - 1 else nnodes
    if fcmp n ratio then
      loop 0 n (fun i g => g.set (i + indexstart) (xmin + (xmax - xmin) * i / ((n - 1 : ℕ) : ℝ))) g
    else do
      let A ← root n ratio
      let B := xmin / (Real.exp A - 1)
      let g ← loop 0 n (fun i g => g.set (i + indexstart) (B * (Real.exp (A * (i + 1)) - 1))) g
      g.set (n - 1 + indexstart) xmax

/-- math_spline.cpp:4292-4306. -/
def mirrorGrid (input : Vec) : Option Vec :=
  if input.size = 0 ∨ input.at' 0 ≠ 0 then none else do
    let size := input.size
    let out ← (Vec.zeros (size * 2 - 1)).set (size - 1) 0
    loop 1 size (fun i out =>
      if input.at' i ≤ input.at' (i - 1) then none else do
        let out ← out.set (size - 1 - i) (-input.at' i)
        out.set (size - 1 + i) (input.at' i)) out

/-- math_spline.cpp:4314-4319: the even case of createSymmetricGrid, in place on the grid `tmp` of createNonuniformGrid. -/
def symmetrize (nnodes : ℕ) (tmp : Vec) : Option Vec := do
  let tmp ← loop 0 (nnodes / 2) (fun i t => t.set (nnodes - 1 - i) (t.at' (nnodes - 1 - 2 * i))) tmp
  loop 0 (nnodes / 2) (fun i t => t.set i (-t.at' (nnodes - 1 - i))) tmp

/-- math_spline.cpp:4308-4322 (the test isFinite(xmax) is the parameter `finite`). -/
def createSymmetricGrid (root : ℕ → ℝ → Option ℝ) (fcmp : ℝ → ℝ → Bool) (finite : Bool) (nnodes : ℕ) (xmin xmax : ℝ) :
    Option Vec :=
  if finite then
    if nnodes % 2 = 1 then do
      let g ← createNonuniformGrid root fcmp (nnodes / 2 + 1) xmin xmax true
      mirrorGrid g
    else do
      let g ← createNonuniformGrid root fcmp nnodes (xmin * (1 / 2)) xmax true
      symmetrize nnodes g
  else createUniformGrid nnodes (-xmin * (1 / 2) * ((nnodes - 1 : ℕ) : ℝ)) (xmin * (1 / 2) * ((nnodes - 1 : ℕ) : ℝ))

/-! ## Specification -/

def Vec.Increasing (v : Vec) : Prop := ∀ i, i + 1 < v.size → v.at' i < v.at' (i + 1)

def Vec.Antisymmetric (v : Vec) : Prop := ∀ i < v.size, v.at' (v.size - 1 - i) = -v.at' i

/-! ## Lemmas -/

/-- The loop with independent writes at shifted positions. -/
theorem loop_fill (lo hi s : ℕ) (f : ℕ → ℝ) (v : Vec) (h : hi + s ≤ v.size ∨ hi ≤ lo) :
    loop lo hi (fun k g => g.set (k + s) (f k)) v =
      some ⟨v.size, fun p => if lo + s ≤ p ∧ p < hi + s then f (p - s) else v.at' p⟩ := by
  obtain ⟨d, hd⟩ : ∃ d, hi - lo = d := ⟨_, rfl⟩
  rw [loop, hd]
  induction d generalizing lo v with
  | zero =>
    simp only [List.range'_zero, List.foldlM_nil]
    have : (fun p => if lo + s ≤ p ∧ p < hi + s then f (p - s) else v.at' p) = v.at' := by
      funext p; rw [if_neg (by omega)]
    rw [this]; rfl
  | succ d ih =>
    rw [List.range'_succ, List.foldlM_cons, Vec.set, if_pos (by omega)]
    simp only [Option.bind_eq_bind, Option.bind_some]
    rw [ih (lo + 1) _ (by simp only; omega) (by omega)]
    congr 2
    funext p
    simp only
    by_cases h1 : p = lo + s
    · rw [if_neg (by omega), if_pos (by omega), h1, Function.update_self, Nat.add_sub_cancel]
    · rw [Function.update_of_ne h1]
      by_cases h2 : lo + s ≤ p ∧ p < hi + s
      · rw [if_pos (by omega), if_pos h2]
      · rw [if_neg (by omega), if_neg h2]

/-! ## C35 -/

/-- C35: exactly when the parameters are valid a uniform grid is returned; it has the requested number of nodes, is strictly
increasing, its ends are exactly xmin and xmax, and the nodes are equally spaced. -/
theorem C35_uniform (n : ℕ) (xmin xmax : ℝ) :
    ((2 ≤ n ∧ xmin < xmax) ↔ (createUniformGrid n xmin xmax).isSome) ∧
    ∀ g, createUniformGrid n xmin xmax = some g → g.size = n ∧ g.at' 0 = xmin ∧ g.at' (n - 1) = xmax ∧ g.Increasing ∧
      ∀ k < n, g.at' k = xmin + (xmax - xmin) / (n - 1) * k := by
  by_cases h : 2 ≤ n ∧ xmin < xmax
  · obtain ⟨h1, h2⟩ := h
    have hn : (0 : ℝ) < (n : ℝ) - 1 := by
      have : (2 : ℝ) ≤ n := by exact_mod_cast h1
      linarith
    have hn1 : ((n - 1 : ℕ) : ℝ) = (n : ℝ) - 1 := by rw [Nat.cast_sub (by omega)]; simp
    have e : createUniformGrid n xmin xmax = some ⟨n, Function.update (Function.update (fun p => if 1 ≤ p ∧ p < n - 1 then
        (xmin * ((n - 1 - p : ℕ) : ℝ) + xmax * p) / ((n - 1 : ℕ) : ℝ) else 0) 0 xmin) (n - 1) xmax⟩ := by
      have l := loop_fill 1 (n - 1) 0 (fun k => (xmin * ((n - 1 - k : ℕ) : ℝ) + xmax * k) / ((n - 1 : ℕ) : ℝ)) (Vec.zeros n)
        (by simp only [Vec.zeros]; omega)
      simp only [Nat.add_zero, Nat.sub_zero] at l
      rw [createUniformGrid, if_neg (by push Not; exact ⟨h1, h2⟩), l]
      simp only [Option.bind_eq_bind, Option.bind_some, Vec.set, Vec.zeros]
      rw [if_pos (by omega)]
      simp only [Option.bind_some]
      rw [if_pos (by omega)]
    refine ⟨⟨fun _ => by rw [e]; rfl, fun _ => ⟨h1, h2⟩⟩, ?_⟩
    intro g hg
    rw [e] at hg
    obtain rfl := Option.some.inj hg
    have key : ∀ k < n, Function.update (Function.update (fun p => if 1 ≤ p ∧ p < n - 1 then
        (xmin * ((n - 1 - p : ℕ) : ℝ) + xmax * p) / ((n - 1 : ℕ) : ℝ) else 0) 0 xmin) (n - 1) xmax k =
        xmin + (xmax - xmin) / (n - 1) * k := by
      intro k hk
      by_cases k1 : k = n - 1
      · rw [k1, Function.update_self, hn1, div_mul_cancel₀ _ hn.ne']; ring
      · rw [Function.update_of_ne k1]
        by_cases k0 : k = 0
        · rw [k0, Function.update_self]; simp
        · rw [Function.update_of_ne k0, if_pos (by omega), hn1, Nat.cast_sub (by omega), hn1]
          field_simp; ring
    refine ⟨rfl, ?_, ?_, ?_, key⟩
    · simp only; rw [key 0 (by omega)]; simp
    · simp only; rw [key (n - 1) (by omega), hn1, div_mul_cancel₀ _ hn.ne']; ring
    · intro i hi
      simp only at hi ⊢
      rw [key i (by omega), key (i + 1) hi]
      have : 0 < (xmax - xmin) / (n - 1) := div_pos (by linarith) hn
      push_cast
      nlinarith
  · have e : createUniformGrid n xmin xmax = none := by
      rw [createUniformGrid, if_pos]
      by_contra hc; push Not at hc; exact h ⟨hc.1, hc.2⟩
    rw [e]
    exact ⟨⟨fun h' => absurd h' h, fun h' => absurd h' (by simp)⟩, fun g hg => absurd hg (by simp)⟩

/-- C35: the exponential grid. -/
theorem C35_exp (n : ℕ) (xmin xmax : ℝ) :
    ((2 ≤ n ∧ 0 < xmin ∧ xmin < xmax) ↔ (createExpGrid n xmin xmax).isSome) ∧
    ∀ g, createExpGrid n xmin xmax = some g → g.size = n ∧ g.at' 0 = xmin ∧ g.at' (n - 1) = xmax ∧ g.Increasing ∧
      ∀ k < n, Real.log (g.at' k) = Real.log xmin + (Real.log xmax - Real.log xmin) / (n - 1) * k := by
  by_cases h : 2 ≤ n ∧ 0 < xmin ∧ xmin < xmax
  · obtain ⟨h1, h0, h2⟩ := h
    have hn : (0 : ℝ) < (n : ℝ) - 1 := by
      have : (2 : ℝ) ≤ n := by exact_mod_cast h1
      linarith
    have hn1 : ((n - 1 : ℕ) : ℝ) = (n : ℝ) - 1 := by rw [Nat.cast_sub (by omega)]; simp
    obtain ⟨D, hD⟩ : ∃ D : ℕ → ℝ, D = fun (p : ℕ) => if 1 ≤ p ∧ p < n - 1 then
        Real.exp (Real.log xmin + p * (Real.log xmax - Real.log xmin) / ((n - 1 : ℕ) : ℝ)) else
        Function.update (Function.update (fun _ => (0 : ℝ)) 0 xmin) (n - 1) xmax p := ⟨_, rfl⟩
    have e : createExpGrid n xmin xmax = some ⟨n, D⟩ := by
      have l := loop_fill 1 (n - 1) 0 (fun k => Real.exp (Real.log xmin + k * (Real.log xmax - Real.log xmin) / ((n - 1 : ℕ) : ℝ)))
        ⟨n, Function.update (Function.update (fun _ => 0) 0 xmin) (n - 1) xmax⟩ (by simp only; omega)
      simp only [Nat.add_zero, Nat.sub_zero] at l
      rw [createExpGrid, if_neg (by push Not; exact ⟨h1, h0, h2⟩)]
      have s0 : (Vec.zeros n).set 0 xmin = some ⟨n, Function.update (fun _ => 0) 0 xmin⟩ := if_pos (show 0 < n by omega)
      have s1 : (⟨n, Function.update (fun _ => 0) 0 xmin⟩ : Vec).set (n - 1) xmax =
        some ⟨n, Function.update (Function.update (fun _ => 0) 0 xmin) (n - 1) xmax⟩ := if_pos (show n - 1 < n by omega)
      simp only [Option.bind_eq_bind, s0, Option.bind_some, s1]
      rw [l, hD]
    refine ⟨⟨fun _ => by rw [e]; rfl, fun _ => ⟨h1, h0, h2⟩⟩, ?_⟩
    intro g hg
    rw [e] at hg
    obtain rfl := Option.some.inj hg
    have d0 : D 0 = xmin := by
      rw [hD]; simp only
      rw [if_neg (by omega), Function.update_of_ne (by omega), Function.update_self]
    have d1 : D (n - 1) = xmax := by
      rw [hD]; simp only
      rw [if_neg (by omega), Function.update_self]
    have key : ∀ k < n, D k = Real.exp (Real.log xmin + (Real.log xmax - Real.log xmin) / (n - 1) * k) := by
      intro k hk
      by_cases k1 : k = n - 1
      · rw [k1, d1, hn1, div_mul_cancel₀ _ hn.ne']
        rw [add_sub_cancel, Real.exp_log (by linarith)]
      · by_cases k0 : k = 0
        · rw [k0, d0]; simp [Real.exp_log h0]
        · rw [hD]; simp only
          rw [if_pos (by omega), hn1]
          congr 2; ring
    refine ⟨rfl, d0, d1, ?_, fun k hk => by simp only; rw [key k hk, Real.log_exp]⟩
    intro i hi
    simp only at hi ⊢
    rw [key i (by omega), key (i + 1) hi]
    apply Real.exp_lt_exp.2
    have hl := Real.log_lt_log h0 h2
    have : 0 < (Real.log xmax - Real.log xmin) / (n - 1) := div_pos (by linarith) hn
    push_cast
    nlinarith
  · have e : createExpGrid n xmin xmax = none := by
      rw [createExpGrid, if_pos]
      by_contra hc; push Not at hc; exact h ⟨hc.1, hc.2⟩
    rw [e]
    exact ⟨⟨fun h' => absurd h' h, fun h' => absurd h' (by simp)⟩, fun g hg => absurd hg (by simp)⟩

/-- Non-vacuity. -/
example : (createUniformGrid 5 (-1) 3).isSome ∧ (createExpGrid 5 1 3).isSome :=
  ⟨(C35_uniform 5 (-1) 3).1.1 (by norm_num), (C35_exp 5 1 3).1.1 (by norm_num)⟩

/-! Nonuniform grid -/

theorem nonuniform_eq (root : ℕ → ℝ → Option ℝ) (fcmp : ℝ → ℝ → Bool) (nnodes n s : ℕ) (xmin xmax A : ℝ) (zeroelem : Bool)
    (h2 : 2 ≤ nnodes) (h0 : 0 < xmin) (hm : xmin < xmax) (hs : s = if zeroelem then 1 else 0) (hn : nnodes = n + s)
    (hf : fcmp n (xmax / xmin) = false) (hA : root n (xmax / xmin) = some A) :
    createNonuniformGrid root fcmp nnodes xmin xmax zeroelem = some ⟨nnodes, fun p =>
      if p = n - 1 + s then xmax else if s ≤ p ∧ p < n + s then
        xmin / (Real.exp A - 1) * (Real.exp (A * ((p - s : ℕ) + 1)) - 1) else 0⟩ := by
  have l := loop_fill 0 n s (fun i => xmin / (Real.exp A - 1) * (Real.exp (A * (i + 1)) - 1)) (Vec.zeros nnodes)
    (by simp only [Vec.zeros]; omega)
  have l' := loop_fill 0 n s (fun i => xmin / (Real.exp A - 1) * (Real.exp (A * (i + 1)) - 1))
    ⟨nnodes, Function.update (Vec.zeros nnodes).at' 0 0⟩ (by simp only; omega)
  have z : Function.update (Vec.zeros nnodes).at' 0 0 = fun _ => 0 := by
    funext p; simp [Vec.zeros, Function.update_apply]
  rw [createNonuniformGrid, if_neg (by push Not; exact ⟨h2, h0, hm⟩)]
  cases zeroelem
  · simp only [Bool.false_eq_true, if_false] at hs ⊢
    subst hs
    simp only [Nat.add_zero] at hn
    subst hn
    simp only [Option.bind_eq_bind, Option.bind_some, hf, hA, Bool.false_eq_true, if_false]
    rw [l]
    simp only [Option.bind_some, Vec.set, Vec.zeros]
    rw [if_pos (by omega)]
    congr 2
    funext p
    rw [Function.update_apply]; try simp
  · simp only [if_true] at hs ⊢
    subst hs hn
    simp only [Nat.add_sub_cancel, Option.bind_eq_bind, hf, hA, Bool.false_eq_true, if_false]
    rw [Vec.set, if_pos (by simp only [Vec.zeros]; omega)]
    simp only [Option.bind_some]
    have : (Vec.zeros (n + 1)).size = n + 1 := rfl
    rw [this, l']
    simp only [Option.bind_some, Vec.set]
    rw [if_pos (by omega), z]
    congr 2
    funext p
    rw [Function.update_apply]; try simp

/-- C35 (nonuniform grid): whatever nonzero number A the root finder returns, the grid has the requested size, starts at xmin
(preceded by zero if requested), ends exactly at xmax, and is strictly increasing up to the last-but-one node. It is strictly
increasing as a whole if A is the exact root. -/
theorem C35_nonuniform (root : ℕ → ℝ → Option ℝ) (fcmp : ℝ → ℝ → Bool) (nnodes n s : ℕ) (xmin xmax A : ℝ) (zeroelem : Bool)
    (h0 : 0 < xmin) (hm : xmin < xmax) (hs : s = if zeroelem then 1 else 0) (hn : nnodes = n + s) (h2 : 2 ≤ n)
    (hf : fcmp n (xmax / xmin) = false) (hA : root n (xmax / xmin) = some A) (hA0 : A ≠ 0) :
    ∃ g, createNonuniformGrid root fcmp nnodes xmin xmax zeroelem = some g ∧ g.size = nnodes ∧
      (zeroelem → g.at' 0 = 0) ∧ g.at' s = xmin ∧ g.at' (nnodes - 1) = xmax ∧
      (∀ i, i + 2 < nnodes → g.at' i < g.at' (i + 1)) ∧
      ((Real.exp (A * n) - 1) / (Real.exp A - 1) = xmax / xmin → g.Increasing) := by
  refine ⟨_, nonuniform_eq root fcmp nnodes n s xmin xmax A zeroelem (by omega) h0 hm hs hn hf hA, rfl, ?_, ?_, ?_, ?_, ?_⟩
  all_goals try simp only
  · intro hz
    rw [if_pos hz] at hs
    rw [if_neg (by omega), if_neg (by omega)]
  · have he : Real.exp A - 1 ≠ 0 := by
      rw [sub_ne_zero]; intro h; exact hA0 (Real.exp_eq_one_iff A |>.1 h)
    rw [if_neg (by omega), if_pos (by omega), Nat.sub_self]
    simp; field_simp
  · rw [if_pos (by omega)]
  all_goals
    have he : Real.exp A - 1 ≠ 0 := by
      rw [sub_ne_zero]; intro h; exact hA0 (Real.exp_eq_one_iff A |>.1 h)
    have step : ∀ j : ℕ, xmin / (Real.exp A - 1) * (Real.exp (A * ((j : ℕ) + 1)) - 1) <
        xmin / (Real.exp A - 1) * (Real.exp (A * ((j + 1 : ℕ) + 1)) - 1) := by
      intro j
      have e : xmin / (Real.exp A - 1) * (Real.exp (A * ((j + 1 : ℕ) + 1)) - 1) -
          xmin / (Real.exp A - 1) * (Real.exp (A * ((j : ℕ) + 1)) - 1) = xmin * Real.exp (A * (j + 1)) := by
        have : Real.exp (A * ((j + 1 : ℕ) + 1)) = Real.exp (A * (j + 1)) * Real.exp A := by
          rw [← Real.exp_add]; congr 1; push_cast; ring
        rw [this]; field_simp; ring
      have : 0 < xmin * Real.exp (A * (j + 1)) := by positivity
      linarith
    have first : 0 < xmin / (Real.exp A - 1) * (Real.exp (A * ((0 : ℕ) + 1)) - 1) := by
      simp; field_simp; exact h0
  · intro i hi
    have hs1 : s ≤ 1 := by split_ifs at hs <;> omega
    rw [if_neg (show ¬ i = n - 1 + s by omega), if_neg (show ¬ i + 1 = n - 1 + s by omega),
      if_pos (show s ≤ i + 1 ∧ i + 1 < n + s by omega)]
    by_cases hsi : s ≤ i
    · rw [if_pos (show s ≤ i ∧ i < n + s by omega), show i + 1 - s = (i - s) + 1 by omega]; exact step (i - s)
    · rw [if_neg (show ¬ (s ≤ i ∧ i < n + s) by omega), show i + 1 - s = 0 by omega]; exact first
  · intro hr i hi
    simp only at hi ⊢
    have last : xmin / (Real.exp A - 1) * (Real.exp (A * ((n - 1 : ℕ) + 1)) - 1) = xmax := by
      have : ((n - 1 : ℕ) : ℝ) + 1 = n := by rw [Nat.cast_sub (by omega)]; simp
      rw [this]
      have hx := h0.ne'
      rw [div_eq_div_iff he hx] at hr
      field_simp; linarith
    by_cases hl : i + 1 = n - 1 + s
    · rw [if_neg (by omega), if_pos hl, if_pos (by omega), ← last, show n - 1 = (i - s) + 1 by omega]
      exact step (i - s)
    · have hs1 : s ≤ 1 := by split_ifs at hs <;> omega
      rw [if_neg (show ¬ i = n - 1 + s by omega), if_neg hl, if_pos (show s ≤ i + 1 ∧ i + 1 < n + s by omega)]
      by_cases hsi : s ≤ i
      · rw [if_pos (show s ≤ i ∧ i < n + s by omega), show i + 1 - s = (i - s) + 1 by omega]; exact step (i - s)
      · rw [if_neg (show ¬ (s ≤ i ∧ i < n + s) by omega), show i + 1 - s = 0 by omega]; exact first

theorem geom_exp (n : ℕ) (A : ℝ) (hA : A ≠ 0) :
    (Real.exp (A * n) - 1) / (Real.exp A - 1) = ∑ i ∈ Finset.range n, Real.exp A ^ i := by
  have he : Real.exp A ≠ 1 := fun h => hA (Real.exp_eq_one_iff A |>.1 h)
  rw [geom_sum_eq he, ← Real.exp_nat_mul, mul_comm]

/-- C35: the interval given to the root finder brackets the root: the function is negative at its lower end and positive
at its upper end (for at least three nodes not counting the zero one). -/
theorem C35_bracket (n : ℕ) (ratio : ℝ) (hr : 1 < ratio) (hn : 3 ≤ n) :
    spacing ratio n (Real.log (1 - 1 / ratio)) < 0 ∧
    (1 / 10 ^ 8 ≤ Real.log ratio / (n - 2) → 0 < spacing ratio n (Real.log ratio / (n - 2))) := by
  have hn2 : (0 : ℝ) < (n : ℝ) - 2 := by
    have : (3 : ℝ) ≤ n := by exact_mod_cast hn
    linarith
  constructor
  · have q0 : 0 < 1 - 1 / ratio := by
      rw [sub_pos, div_lt_one (by linarith)]; exact hr
    have q1 : 1 - 1 / ratio < 1 := by
      have : 0 < 1 / ratio := by positivity
      linarith
    have hA : Real.log (1 - 1 / ratio) ≠ 0 := (Real.log_neg q0 q1).ne
    have hs : ∑ i ∈ Finset.range n, (1 - 1 / ratio) ^ i < ratio := by
      rw [geom_sum_eq q1.ne]
      have : (0 : ℝ) < (1 - 1 / ratio) ^ n := by positivity
      have e : ((1 - 1 / ratio) ^ n - 1) / (1 - 1 / ratio - 1) = ratio * (1 - (1 - 1 / ratio) ^ n) := by
        field_simp; ring
      rw [e]; nlinarith
    rw [spacing]
    split_ifs with h
    · have hb : (n : ℝ) + 1 / 2 * Real.log (1 - 1 / ratio) * n * (n - 1) ≤ ∑ i ∈ Finset.range n, (1 - 1 / ratio) ^ i := by
        have : ∀ m : ℕ, (m : ℝ) + 1 / 2 * Real.log (1 - 1 / ratio) * m * (m - 1) ≤ ∑ i ∈ Finset.range m, (1 - 1 / ratio) ^ i := by
          intro m
          induction m with
          | zero => simp
          | succ m ih =>
            rw [Finset.sum_range_succ]
            have : Real.log (1 - 1 / ratio) * m + 1 ≤ (1 - 1 / ratio) ^ m := by
              have := Real.add_one_le_exp (m * Real.log (1 - 1 / ratio))
              rw [Real.exp_nat_mul, Real.exp_log q0] at this
              linarith
            push_cast; nlinarith
        exact this n
      linarith
    · rw [geom_exp n _ hA, Real.exp_log q0]; linarith
  · intro hA
    have hA0 : 0 < Real.log ratio / (n - 2) := lt_of_lt_of_le (by norm_num) hA
    rw [spacing, if_neg (by rw [abs_of_pos hA0]; exact not_lt.2 hA), geom_exp n _ hA0.ne']
    have e : Real.exp (Real.log ratio / (n - 2)) ^ (n - 2) = ratio := by
      rw [← Real.exp_nat_mul]
      have : ((n - 2 : ℕ) : ℝ) = (n : ℝ) - 2 := by rw [Nat.cast_sub (by omega)]; simp
      rw [this, mul_div_cancel₀ _ hn2.ne', Real.exp_log (by linarith)]
    have : Real.exp (Real.log ratio / (n - 2)) ^ (n - 2) + 1 ≤ ∑ i ∈ Finset.range n, Real.exp (Real.log ratio / (n - 2)) ^ i := by
      have hsub : ({n - 2, 0} : Finset ℕ) ⊆ Finset.range n := by
        intro i hi; simp at hi; rw [Finset.mem_range]; omega
      calc _ = ∑ i ∈ ({n - 2, 0} : Finset ℕ), Real.exp (Real.log ratio / (n - 2)) ^ i := by
            rw [Finset.sum_pair (by omega)]; simp
        _ ≤ _ := Finset.sum_le_sum_of_subset_of_nonneg hsub (fun i _ _ => by positivity)
    rw [e] at this
    linarith

/-! ## C36 -/

/-- The state of the loop of mirrorGrid after nodes 1..k-1. -/
theorem mirror_loop (input : Vec) (hs : 1 ≤ input.size) (d lo : ℕ) (hd : input.size = lo + d) (h1 : 1 ≤ lo) (v : Vec)
    (hv : v.size = input.size * 2 - 1)
    (hlo : ∀ i < lo, v.at' (input.size - 1 - i) = -input.at' i ∧ v.at' (input.size - 1 + i) = input.at' i) :
    ((∀ i, lo ≤ i → i < input.size → input.at' (i - 1) < input.at' i) →
      ∃ g, loop lo input.size (fun i out =>
      if input.at' i ≤ input.at' (i - 1) then none else do
        let out ← out.set (input.size - 1 - i) (-input.at' i)
        out.set (input.size - 1 + i) (input.at' i)) v = some g ∧ g.size = input.size * 2 - 1 ∧
        ∀ i < input.size, g.at' (input.size - 1 - i) = -input.at' i ∧ g.at' (input.size - 1 + i) = input.at' i) ∧
    ((loop lo input.size (fun i out =>
      if input.at' i ≤ input.at' (i - 1) then none else do
        let out ← out.set (input.size - 1 - i) (-input.at' i)
        out.set (input.size - 1 + i) (input.at' i)) v).isSome →
      (∀ i, lo ≤ i → i < input.size → input.at' (i - 1) < input.at' i)) := by
  have hd' : input.size - lo = d := by omega
  induction d generalizing lo v with
  | zero =>
    rw [loop, hd']
    simp only [List.range'_zero, List.foldlM_nil]
    exact ⟨fun _ => ⟨v, rfl, hv, fun i hi => hlo i (by omega)⟩, fun _ i a b => absurd b (by omega)⟩
  | succ d ih =>
    have hl : ∀ (f : ℕ → Vec → Option Vec), loop lo input.size f v = (f lo v).bind (loop (lo + 1) input.size f) := by
      intro f
      rw [loop, hd', List.range'_succ, List.foldlM_cons]
      have : input.size - (lo + 1) = d := by omega
      simp only [Option.bind_eq_bind]
      congr 1
      funext w
      rw [loop, this]
    rw [hl]
    by_cases hc : input.at' lo ≤ input.at' (lo - 1)
    · rw [if_pos hc]
      refine ⟨fun h => absurd (h lo (le_refl _) (by omega)) (not_lt.2 hc), fun h => absurd h (by simp)⟩
    · rw [if_neg hc]
      simp only [Vec.set, Option.bind_eq_bind]
      rw [if_pos (show input.size - 1 - lo < v.size by omega)]
      simp only [Option.bind_some]
      rw [if_pos (show input.size - 1 + lo < v.size by omega)]
      simp only [Option.bind_some]
      have hnew : ∀ i < lo + 1, (Function.update (Function.update v.at' (input.size - 1 - lo) (-input.at' lo))
          (input.size - 1 + lo) (input.at' lo)) (input.size - 1 - i) = -input.at' i ∧
          (Function.update (Function.update v.at' (input.size - 1 - lo) (-input.at' lo))
          (input.size - 1 + lo) (input.at' lo)) (input.size - 1 + i) = input.at' i := by
        intro i hi
        by_cases e : i = lo
        · subst e
          rw [Function.update_of_ne (by omega), Function.update_self, Function.update_self]
          exact ⟨rfl, rfl⟩
        · rw [Function.update_of_ne (by omega), Function.update_of_ne (by omega), Function.update_of_ne (by omega),
            Function.update_of_ne (by omega)]
          exact hlo i (by omega)
      have := ih (lo + 1) (by omega) (by omega) ⟨v.size, Function.update (Function.update v.at' (input.size - 1 - lo) (-input.at' lo))
          (input.size - 1 + lo) (input.at' lo)⟩ hv hnew (by omega)
      simp only [Vec.set, Option.bind_eq_bind] at this
      refine ⟨fun h => this.1 (fun i a b => h i (by omega) b), fun h i a b => ?_⟩
      by_cases e : i = lo
      · subst e; exact not_le.1 hc
      · exact this.2 h i (by omega) b

/-- C36: mirrorGrid accepts exactly the strictly increasing grids starting with zero; the result is strictly increasing,
antisymmetric, has 2n-1 nodes and its upper half is the input. -/
theorem C36_mirror (input : Vec) :
    ((mirrorGrid input).isSome ↔ 1 ≤ input.size ∧ input.at' 0 = 0 ∧ input.Increasing) ∧
    ∀ g, mirrorGrid input = some g → g.size = 2 * input.size - 1 ∧ g.Increasing ∧ g.Antisymmetric ∧
      ∀ i < input.size, g.at' (input.size - 1 + i) = input.at' i := by
  by_cases h : 1 ≤ input.size ∧ input.at' 0 = 0
  · obtain ⟨h1, h0⟩ := h
    obtain ⟨v0, hv0⟩ : ∃ v0 : Vec, v0 = ⟨input.size * 2 - 1, Function.update (fun _ => (0 : ℝ)) (input.size - 1) 0⟩ := ⟨_, rfl⟩
    have em : mirrorGrid input = loop 1 input.size (fun i out =>
      if input.at' i ≤ input.at' (i - 1) then none else do
        let out ← out.set (input.size - 1 - i) (-input.at' i)
        out.set (input.size - 1 + i) (input.at' i)) v0 := by
      rw [mirrorGrid, if_neg (by push Not; exact ⟨by omega, h0⟩)]
      simp only
      rw [Vec.set, if_pos (show input.size - 1 < (Vec.zeros (input.size * 2 - 1)).size by simp only [Vec.zeros]; omega), hv0]
      rfl
    have inv := mirror_loop input h1 (input.size - 1) 1 (by omega) (le_refl _) v0 (by rw [hv0]) (by
      intro i hi
      have : i = 0 := by omega
      subst this
      rw [hv0, h0]; simp)
    rw [← em] at inv
    have inc : (∀ i, 1 ≤ i → i < input.size → input.at' (i - 1) < input.at' i) ↔ input.Increasing := by
      constructor
      · intro h i hi
        have := h (i + 1) (by omega) hi
        rwa [Nat.add_sub_cancel] at this
      · intro h i a b
        have := h (i - 1) (by omega)
        rwa [Nat.sub_add_cancel a] at this
    rw [inc] at inv
    constructor
    · constructor
      · intro h; exact ⟨h1, h0, inv.2 h⟩
      · intro h
        obtain ⟨g, hg, _⟩ := inv.1 h.2.2
        rw [hg]; rfl
    · intro g hg
      have hin := inv.2 (by rw [hg]; rfl)
      obtain ⟨g', hg', hsz, hval⟩ := inv.1 hin
      rw [hg] at hg'
      obtain rfl := Option.some.inj hg'
      refine ⟨by omega, ?_, ?_, fun i hi => (hval i hi).2⟩
      · intro i hi
        rw [hsz] at hi
        by_cases hl : i < input.size - 1
        · obtain ⟨j, hj, rfl⟩ : ∃ j, j + 1 < input.size ∧ i = input.size - 1 - (j + 1) := ⟨input.size - 1 - i - 1, by omega, by omega⟩
          have a := (hval (j + 1) (by omega)).1
          have b := (hval j (by omega)).1
          rw [a, show input.size - 1 - (j + 1) + 1 = input.size - 1 - j by omega, b]
          have := hin j (by omega)
          linarith
        · obtain ⟨j, rfl⟩ : ∃ j, i = input.size - 1 + j := ⟨i - (input.size - 1), by omega⟩
          rw [(hval j (by omega)).2, show input.size - 1 + j + 1 = input.size - 1 + (j + 1) by omega,
            (hval (j + 1) (by omega)).2]
          exact hin j (by omega)
      · intro i hi
        rw [hsz] at hi ⊢
        by_cases hl : i ≤ input.size - 1
        · obtain ⟨j, hj, rfl⟩ : ∃ j, j < input.size ∧ i = input.size - 1 - j := ⟨input.size - 1 - i, by omega, by omega⟩
          rw [show input.size * 2 - 1 - 1 - (input.size - 1 - j) = input.size - 1 + j by omega, (hval j hj).1, (hval j hj).2]
          ring
        · obtain ⟨j, hj, rfl⟩ : ∃ j, j < input.size ∧ i = input.size - 1 + j := ⟨i - (input.size - 1), by omega, by omega⟩
          rw [show input.size * 2 - 1 - 1 - (input.size - 1 + j) = input.size - 1 - j by omega, (hval j hj).1, (hval j hj).2]
  · have e : mirrorGrid input = none := by
      rw [mirrorGrid, if_pos]
      by_contra hc; push Not at hc; exact h ⟨by omega, hc.2⟩
    rw [e]
    exact ⟨⟨fun h' => absurd h' (by simp), fun h' => absurd ⟨h'.1, h'.2.1⟩ h⟩, fun g hg => absurd hg (by simp)⟩

theorem sym_loop1 (n : ℕ) (d lo : ℕ) (hd : n / 2 = lo + d) (v w : Vec) (hv : v.size = n) (hw : w.size = n)
    (hval : ∀ p < n, w.at' p = if n - 1 - p < lo then v.at' (2 * p - (n - 1)) else v.at' p) :
    ∃ g, loop lo (n / 2) (fun i t => t.set (n - 1 - i) (t.at' (n - 1 - 2 * i))) w = some g ∧ g.size = n ∧
      ∀ p < n, g.at' p = if n - 1 - p < n / 2 then v.at' (2 * p - (n - 1)) else v.at' p := by
  have hd' : n / 2 - lo = d := by omega
  induction d generalizing lo w with
  | zero =>
    rw [loop, hd']
    refine ⟨w, rfl, hw, ?_⟩
    intro p hp; rw [hval p hp, show lo = n / 2 by omega]
  | succ d ih =>
    have hl : ∀ (f : ℕ → Vec → Option Vec), loop lo (n / 2) f w = (f lo w).bind (loop (lo + 1) (n / 2) f) := by
      intro f
      rw [loop, hd', List.range'_succ, List.foldlM_cons]
      have : n / 2 - (lo + 1) = d := by omega
      simp only [Option.bind_eq_bind]
      congr 1
      funext w
      rw [loop, this]
    rw [hl, Vec.set, if_pos (by omega)]
    simp only [Option.bind_some]
    refine ih (lo + 1) (by omega) _ (by exact hw) ?_ ?_
    · intro p hp
      simp only [Function.update_apply]
      by_cases e : p = n - 1 - lo
      · rw [if_pos e, if_pos (by omega), hval _ (by omega), if_neg (by omega)]
        congr 1; omega
      · rw [if_neg e, hval p hp]
        by_cases e2 : n - 1 - p < lo
        · rw [if_pos e2, if_pos (by omega)]
        · rw [if_neg e2, if_neg (by omega)]
    · omega

theorem sym_loop2 (n : ℕ) (hn : n % 2 = 0) (d lo : ℕ) (hd : n / 2 = lo + d) (v w : Vec) (hw : w.size = n)
    (hval : ∀ p < n, w.at' p = if p < lo then -v.at' (n - 1 - p) else v.at' p) :
    ∃ g, loop lo (n / 2) (fun i t => t.set i (-t.at' (n - 1 - i))) w = some g ∧ g.size = n ∧
      ∀ p < n, g.at' p = if p < n / 2 then -v.at' (n - 1 - p) else v.at' p := by
  have hd' : n / 2 - lo = d := by omega
  induction d generalizing lo w with
  | zero =>
    rw [loop, hd']
    refine ⟨w, rfl, hw, ?_⟩
    intro p hp; rw [hval p hp, show lo = n / 2 by omega]
  | succ d ih =>
    have hl : ∀ (f : ℕ → Vec → Option Vec), loop lo (n / 2) f w = (f lo w).bind (loop (lo + 1) (n / 2) f) := by
      intro f
      rw [loop, hd', List.range'_succ, List.foldlM_cons]
      have : n / 2 - (lo + 1) = d := by omega
      simp only [Option.bind_eq_bind]
      congr 1
      funext w
      rw [loop, this]
    rw [hl, Vec.set, if_pos (by omega)]
    simp only [Option.bind_some]
    refine ih (lo + 1) (by omega) _ (by exact hw) ?_ ?_
    · intro p hp
      simp only [Function.update_apply]
      by_cases e : p = lo
      · rw [if_pos e, if_pos (by omega), hval _ (by omega), if_neg (by omega), e]
      · rw [if_neg e, hval p hp]
        by_cases e2 : p < lo
        · rw [if_pos e2, if_pos (by omega)]
        · rw [if_neg e2, if_neg (by omega)]
    · omega

/-- C36 (even number of nodes): the in-place rearrangement of an increasing grid that starts with 0 gives a strictly increasing
antisymmetric grid of the same size and the same last node; its positive nodes are the odd-numbered nodes of the input, so
the central interval is twice the first interval of the input. -/
theorem C36_symmetric_even (n : ℕ) (hn : n % 2 = 0) (h2 : 2 ≤ n) (tmp : Vec) (hs : tmp.size = n) (h0 : tmp.at' 0 = 0)
    (hinc : tmp.Increasing) :
    ∃ g, symmetrize n tmp = some g ∧ g.size = n ∧ g.Increasing ∧ g.Antisymmetric ∧ g.at' (n - 1) = tmp.at' (n - 1) ∧
      g.at' (n / 2) - g.at' (n / 2 - 1) = 2 * tmp.at' 1 := by
  obtain ⟨t, ht, hts, htv⟩ := sym_loop1 n (n / 2) 0 (by omega) tmp tmp hs hs (by intro p hp; rw [if_neg (by omega)])
  obtain ⟨g, hg, hgs, hgv⟩ := sym_loop2 n hn (n / 2) 0 (by omega) t t hts (by intro p hp; rw [if_neg (by omega)])
  have mono : ∀ a b, a < b → b < n → tmp.at' a < tmp.at' b := by
    intro a b hab hb
    obtain ⟨d, rfl⟩ : ∃ d, b = a + 1 + d := ⟨b - a - 1, by omega⟩
    induction d with
    | zero => exact hinc a (by omega)
    | succ d ih => exact lt_trans (ih (by omega) (by omega)) (hinc (a + 1 + d) (by omega))
  have up : ∀ p, n / 2 ≤ p → p < n → g.at' p = tmp.at' (2 * p - (n - 1)) := by
    intro p h1 h3
    rw [hgv p h3, if_neg (by omega), htv p h3, if_pos (by omega)]
  have lowp : ∀ p, p < n / 2 → g.at' p = -g.at' (n - 1 - p) := by
    intro p h1
    rw [hgv p (by omega), if_pos h1, hgv (n - 1 - p) (by omega), if_neg (by omega)]
  refine ⟨g, ?_, hgs, ?_, ?_, ?_, ?_⟩
  · rw [symmetrize, ht]; exact hg
  · intro i hi
    rw [hgs] at hi
    by_cases c1 : i + 1 < n / 2
    · rw [lowp i (by omega), lowp (i + 1) c1, up _ (by omega) (by omega), up _ (by omega) (by omega)]
      have := mono (2 * (n - 1 - (i + 1)) - (n - 1)) (2 * (n - 1 - i) - (n - 1)) (by omega) (by omega)
      linarith
    · by_cases c2 : i + 1 = n / 2
      · rw [lowp i (by omega), up _ (by omega) (by omega), up _ (by omega) (by omega)]
        have a := mono 0 (2 * (n - 1 - i) - (n - 1)) (by omega) (by omega)
        have b := mono 0 (2 * (i + 1) - (n - 1)) (by omega) (by omega)
        linarith
      · rw [up _ (by omega) (by omega), up _ (by omega) (by omega)]
        exact mono _ _ (by omega) (by omega)
  · intro i hi
    rw [hgs] at hi ⊢
    by_cases c : i < n / 2
    · rw [lowp i c, neg_neg]
    · rw [lowp (n - 1 - i) (by omega), show n - 1 - (n - 1 - i) = i by omega]
  · rw [up _ (by omega) (by omega)]; congr 1; omega
  · rw [lowp (n / 2 - 1) (by omega), up (n / 2) (by omega) (by omega), up _ (by omega) (by omega),
      show 2 * (n / 2) - (n - 1) = 1 by omega, show 2 * (n - 1 - (n / 2 - 1)) - (n - 1) = 1 by omega]
    ring

/-- C36: createSymmetricGrid with finite xmax: whenever createNonuniformGrid yields an increasing grid starting at zero
(theorem C35_nonuniform), the result has the requested number of nodes, is increasing, antisymmetric and ends at xmax. -/
theorem C36_symmetric (root : ℕ → ℝ → Option ℝ) (fcmp : ℝ → ℝ → Bool) (n : ℕ) (h2 : 2 ≤ n) (xmin xmax : ℝ) (g0 : Vec)
    (hg0 : createNonuniformGrid root fcmp (if n % 2 = 1 then n / 2 + 1 else n) (if n % 2 = 1 then xmin else xmin * (1 / 2)) xmax true
      = some g0) (hs : g0.size = if n % 2 = 1 then n / 2 + 1 else n) (hz : g0.at' 0 = 0) (hinc : g0.Increasing)
    (hlast : g0.at' (g0.size - 1) = xmax) :
    ∃ g, createSymmetricGrid root fcmp true n xmin xmax = some g ∧ g.size = n ∧ g.Increasing ∧ g.Antisymmetric ∧
      g.at' (n - 1) = xmax := by
  rw [createSymmetricGrid]
  simp only [if_true]
  by_cases ho : n % 2 = 1
  · simp only [if_pos ho] at hg0 hs ⊢
    rw [hg0]
    simp only [Option.bind_eq_bind, Option.bind_some]
    obtain ⟨a, b⟩ := C36_mirror g0
    obtain ⟨g, hg⟩ := Option.isSome_iff_exists.1 (a.2 ⟨by omega, hz, hinc⟩)
    obtain ⟨b1, b2, b3, b4⟩ := b g hg
    refine ⟨g, hg, by omega, b2, b3, ?_⟩
    rw [← hlast, ← b4 (g0.size - 1) (by omega)]
    congr 1; omega
  · simp only [if_neg ho] at hg0 hs ⊢
    rw [hg0]
    simp only [Option.bind_eq_bind, Option.bind_some]
    obtain ⟨g, a, b, c, d, e, _⟩ := C36_symmetric_even n (by omega) h2 g0 hs hz hinc
    exact ⟨g, a, b, c, d, by rw [e, ← hlast, hs]⟩

/-- C36: with infinite xmax the grid is uniform with spacing xmin, and antisymmetric. -/
theorem C36_symmetric_infinite (root : ℕ → ℝ → Option ℝ) (fcmp : ℝ → ℝ → Bool) (n : ℕ) (h2 : 2 ≤ n) (xmin xmax : ℝ)
    (h0 : 0 < xmin) :
    ∃ g, createSymmetricGrid root fcmp false n xmin xmax = some g ∧ g.size = n ∧ g.Increasing ∧ g.Antisymmetric ∧
      ∀ i, i + 1 < n → g.at' (i + 1) - g.at' i = xmin := by
  have hn : (0 : ℝ) < (n : ℝ) - 1 := by
    have : (2 : ℝ) ≤ n := by exact_mod_cast h2
    linarith
  have hn1 : ((n - 1 : ℕ) : ℝ) = (n : ℝ) - 1 := by rw [Nat.cast_sub (by omega)]; simp
  rw [createSymmetricGrid]
  simp only [Bool.false_eq_true, if_false]
  obtain ⟨a, b⟩ := C35_uniform n (-xmin * (1 / 2) * ((n - 1 : ℕ) : ℝ)) (xmin * (1 / 2) * ((n - 1 : ℕ) : ℝ))
  obtain ⟨g, hg⟩ := Option.isSome_iff_exists.1 (a.1 ⟨h2, by rw [hn1]; nlinarith [mul_pos h0 hn]⟩)
  obtain ⟨b1, b2, b3, b4, b5⟩ := b g hg
  have b6 : ∀ k < n, g.at' k = xmin * (k - 1 / 2 * ((n : ℝ) - 1)) := by
    intro k hk; rw [b5 k hk, hn1]; field_simp; ring
  refine ⟨g, hg, b1, b4, ?_, ?_⟩
  · intro i hi
    rw [b1] at hi ⊢
    rw [b6 i hi, b6 (n - 1 - i) (by omega), Nat.cast_sub (by omega), hn1]; ring
  · intro i hi
    rw [b6 i (by omega), b6 (i + 1) hi]; push_cast; ring

/-- Non-vacuity of C35_nonuniform and C36_symmetric: with the exact root A = log 2, n = 3 nodes and ratio (2^3-1)/(2-1) = 7,
the grid 0, 1, 3, 7 is produced, and its mirrored version. -/
example : ∃ g, createSymmetricGrid (fun _ _ => some (Real.log 2)) (fun _ _ => false) true 7 1 7 = some g ∧ g.size = 7 ∧
    g.Increasing ∧ g.Antisymmetric ∧ g.at' 6 = 7 := by
  have hl : Real.log 2 ≠ 0 := (Real.log_pos (by norm_num)).ne'
  obtain ⟨g, hg, hs, hz, _, hm, _, hi⟩ := C35_nonuniform (fun _ _ => some (Real.log 2)) (fun _ _ => false) 4 3 1 1 7 (Real.log 2)
    true (by norm_num) (by norm_num) (by simp) rfl (by norm_num) rfl rfl hl
  have hx : Real.exp (Real.log 2 * (3 : ℕ)) = 8 := by
    rw [mul_comm, Real.exp_nat_mul, Real.exp_log (by norm_num)]; norm_num
  exact C36_symmetric _ _ 7 (by norm_num) 1 7 g (by simpa using hg) (by simpa using hs) (hz rfl)
    (hi (by rw [hx, Real.exp_log (by norm_num)]; norm_num)) (by rw [hs]; exact hm)

end
end Verif.GridGen
