import Mathlib.Analysis.Normed.Group.Basic
import Mathlib.Analysis.Normed.Group.Constructions
import Mathlib.Analysis.Real.Pi.Bounds
import Mathlib.Algebra.Polynomial.Derivative
import Mathlib.Tactic.Linarith
import Mathlib.Tactic.Ring
import Mathlib.Tactic.FieldSimp

/-!
# Solvers for linear second-order ODE systems: common part

`src/math_ode.h:45-72, 167-250`, `src/math_ode.cpp:498-926`.  The solvers `Ode2SolverGL3<NDIM>` and
`Ode2SolverGL4<NDIM>` keep, for each of `numVectors` vectors, `W = 5` (6) blocks of `NDIM` numbers
(position, velocity and interpolation coefficients) in one flat array.  This file models the
array, its initialisation and the loop over vectors.  Numbers are real.
-/

namespace Verif.Ode.GL

/-- `IOde2System` (math_ode.h:45-72): `eval(t, a, b)` fills the two matrices of the right-hand side
`x'' = A(t) x + B(t) x'` (flattened row-major arrays in the code, two-index functions here). -/
structure Sys (n : ℕ) where
  A : ℝ → Fin n → Fin n → ℝ
  B : ℝ → Fin n → Fin n → ℝ

/-- The accumulation loop computing `rhs` (math_ode.cpp:645-647 and its repetitions). -/
def rhs {n : ℕ} (a b : Fin n → Fin n → ℝ) (xh dh : Fin n → ℝ) : Fin n → ℝ :=
  fun d => ∑ j, (a d j * xh j + b d j * dh j)

/-- The `W` consecutive sub-arrays of length `NDIM` belonging to one vector
(pointers `x, xdot, p, q, r[, s]`, math_ode.cpp:616-619, 821-824). -/
abbrev Blk (W n : ℕ) := Fin W → Fin n → ℝ

/-- Reading the sub-arrays of the vector `vec` from the flat array `state`:
`x = &state[vec * W*NDIM]`, and the others follow with a stride `NDIM`. -/
def block (W n : ℕ) (mem : ℕ → ℝ) (vec : ℕ) : Blk W n := fun c d => mem (vec * (W * n) + c * n + d)

/-- Writing all sub-arrays of the vector `vec` back to the flat array (the assignments to
`p[d], q[d], r[d], x[d], xdot[d]` in the final loop over `d`, math_ode.cpp:680-690, 899-911). -/
def writeBlk (W n : ℕ) (mem : ℕ → ℝ) (vec : ℕ) (b : Blk W n) : ℕ → ℝ := fun a =>
  if h : vec * (W * n) ≤ a ∧ a < vec * (W * n) + W * n ∧ 0 < n ∧ 0 < W then
    b ⟨(a - vec * (W * n)) / n, by
        rw [Nat.div_lt_iff_lt_mul h.2.2.1]; omega⟩
      ⟨(a - vec * (W * n)) % n, Nat.mod_lt _ h.2.2.1⟩
  else mem a

/-- The data of a solver object: the flat array `state`, the current time, the flag `newstep`. -/
structure Solver where
  mem : ℕ → ℝ
  time : ℝ
  newstep : Bool

/-- `Ode2SolverGLk::init` (math_ode.cpp:510-519, 706-715): the array is filled with zeros
(`state.assign`), then `2*NDIM` numbers of each of the `m` vectors are copied from `stateNew` to the
beginning of the vector's part of the array; `timeNew = none` stands for NAN (time not changed). -/
def init (W n m : ℕ) (s : Solver) (stateNew : ℕ → ℝ) (timeNew : Option ℝ) : Solver where
  mem := (List.range m).foldl (fun mem vec a =>
    if vec * (W * n) ≤ a ∧ a < vec * (W * n) + 2 * n then stateNew (vec * (2 * n) + (a - vec * (W * n)))
    else mem a) (fun _ => 0)
  time := timeNew.getD s.time
  newstep := true

/-- The loop over vectors in `doStep` (math_ode.cpp:615-691, 820-912), with the processing of a
single vector given by `stepBlk`; each vector's part of the array is read and then overwritten. -/
def stepAll (W n m : ℕ) (stepBlk : Blk W n → Blk W n) (mem : ℕ → ℝ) : ℕ → ℝ :=
  (List.range m).foldl (fun mem vec => writeBlk W n mem vec (stepBlk (block W n mem vec))) mem

/-- `doStep(dt)` up to the processing of a single vector, which may depend on the flag `newstep`,
the current time and `dt`; at the end `time += dt; newstep = false` (math_ode.cpp:692-693, 914-915). -/
def doStep (W n m : ℕ) (stepBlk : Bool → ℝ → ℝ → Blk W n → Blk W n) (s : Solver) (dt : ℝ) : Solver where
  mem := stepAll W n m (stepBlk s.newstep s.time dt) s.mem
  time := s.time + dt
  newstep := false

/-- The polynomial part of the velocity/position interpolation is supplied by the two solvers;
this is the common index arithmetic of `getSol` (math_ode.cpp:521-538, 717-734).  `none` stands for
the exception `out_of_range`.  -/
noncomputable def getSol (W n m : ℕ) (pos vel : Blk W n → Fin n → ℝ → ℝ) (s : Solver) (t : ℝ) (i : ℕ) : Option ℝ :=
  let T := t - s.time
  let vec := i / (2 * n)
  if vec ≥ m then none
  else
    let i := i - vec * (2 * n)
    if T = 0 then some (s.mem (vec * (W * n) + i))
    else if h : 0 < n then
      let d := i % n
      let b := block W n s.mem vec
      if i = d then some (pos b ⟨d, Nat.mod_lt _ h⟩ T)
      else some (vel b ⟨d, Nat.mod_lt _ h⟩ T)
    else none   -- not reachable: the template is instantiated for NDIM = 1, 2, 3 only

/-! ### Facts about the array -/

theorem block_writeBlk_self (W n : ℕ) (mem : ℕ → ℝ) (vec : ℕ) (b : Blk W n) :
    block W n (writeBlk W n mem vec b) vec = b := by
  funext c d
  have hn : 0 < n := d.pos
  have hW : 0 < W := c.pos
  have hlt : c.1 * n + d.1 < W * n := by
    have h1 : (c.1 + 1) * n ≤ W * n := Nat.mul_le_mul_right _ c.2
    have := d.2
    nlinarith
  unfold block writeBlk
  rw [dif_pos ⟨by omega, by omega, hn, hW⟩]
  have e : vec * (W * n) + c.1 * n + d.1 - vec * (W * n) = d.1 + n * c.1 := by
    have : c.1 * n = n * c.1 := Nat.mul_comm _ _
    omega
  congr 1
  · congr 1
    show (vec * (W * n) + c.1 * n + d.1 - vec * (W * n)) / n = c.1
    rw [e, Nat.add_mul_div_left _ _ hn, Nat.div_eq_of_lt d.2, Nat.zero_add]
  · apply Fin.ext
    show (vec * (W * n) + c.1 * n + d.1 - vec * (W * n)) % n = d.1
    rw [e, Nat.add_mul_mod_self_left, Nat.mod_eq_of_lt d.2]

theorem writeBlk_other (W n : ℕ) (mem : ℕ → ℝ) (vec vec' : ℕ) (b : Blk W n) (hne : vec' ≠ vec)
    (k : ℕ) (hk : k < W * n) :
    writeBlk W n mem vec b (vec' * (W * n) + k) = mem (vec' * (W * n) + k) := by
  unfold writeBlk
  rw [dif_neg]
  rintro ⟨h1, h2, -, -⟩
  rcases Nat.lt_or_gt_of_ne hne with h | h
  · have : (vec' + 1) * (W * n) ≤ vec * (W * n) := Nat.mul_le_mul_right _ h
    rw [Nat.add_mul] at this; omega
  · have : (vec + 1) * (W * n) ≤ vec' * (W * n) := Nat.mul_le_mul_right _ h
    rw [Nat.add_mul] at this; omega

theorem idx_lt {W n : ℕ} (c : Fin W) (d : Fin n) : c.1 * n + d.1 < W * n := by
  have h1 : (c.1 + 1) * n ≤ W * n := Nat.mul_le_mul_right _ c.2
  have := d.2
  nlinarith

theorem block_writeBlk_other (W n : ℕ) (mem : ℕ → ℝ) (vec vec' : ℕ) (b : Blk W n) (hne : vec' ≠ vec) :
    block W n (writeBlk W n mem vec b) vec' = block W n mem vec' := by
  funext c d
  unfold block
  rw [Nat.add_assoc]
  exact writeBlk_other W n mem vec vec' b hne _ (idx_lt c d)

/-- The vectors are processed independently: the part of the array belonging to one vector after
the loop depends only on its contents before the loop. -/
theorem block_stepAll (W n m : ℕ) (f : Blk W n → Blk W n) (mem : ℕ → ℝ) (vec : ℕ) :
    block W n (stepAll W n m f mem) vec =
      if vec < m then f (block W n mem vec) else block W n mem vec := by
  unfold stepAll
  induction m with
  | zero => simp
  | succ m ih =>
    rw [List.range_succ, List.foldl_append, List.foldl_cons, List.foldl_nil]
    by_cases h : vec = m
    · subst h
      rw [block_writeBlk_self, ih, if_neg (lt_irrefl _), if_pos (Nat.lt_succ_self _)]
    · rw [block_writeBlk_other _ _ _ _ _ _ h, ih]
      by_cases h2 : vec < m
      · rw [if_pos h2, if_pos (by omega)]
      · rw [if_neg h2, if_neg (by omega)]

theorem init_mem (W n m : ℕ) (s : Solver) (y : ℕ → ℝ) (t : Option ℝ) (hW : 2 ≤ W) (vec : ℕ) (hv : vec < m)
    (k : ℕ) (hk : k < W * n) :
    (init W n m s y t).mem (vec * (W * n) + k) = if k < 2 * n then y (vec * (2 * n) + k) else 0 := by
  have h2 : 2 * n ≤ W * n := Nat.mul_le_mul_right _ hW
  have key : ∀ m, ((List.range m).foldl (fun mem vec a =>
      if vec * (W * n) ≤ a ∧ a < vec * (W * n) + 2 * n then y (vec * (2 * n) + (a - vec * (W * n)))
      else mem a) (fun _ => (0 : ℝ))) (vec * (W * n) + k) =
      if vec < m ∧ k < 2 * n then y (vec * (2 * n) + k) else 0 := by
    intro m
    induction m with
    | zero => simp
    | succ m ih =>
      rw [List.range_succ, List.foldl_append, List.foldl_cons, List.foldl_nil]
      show (if m * (W * n) ≤ vec * (W * n) + k ∧ vec * (W * n) + k < m * (W * n) + 2 * n then
        y (m * (2 * n) + (vec * (W * n) + k - m * (W * n))) else _) = _
      by_cases h : vec = m
      · subst h
        by_cases hk2 : k < 2 * n
        · rw [if_pos ⟨by omega, by omega⟩, if_pos ⟨by omega, hk2⟩]
          congr 1; omega
        · rw [if_neg (fun hh => hk2 (by omega)), ih, if_neg (fun hh => hk2 hh.2), if_neg (fun hh => hk2 hh.2)]
      · rw [if_neg, ih]
        · by_cases hk2 : vec < m ∧ k < 2 * n
          · rw [if_pos hk2, if_pos ⟨by omega, hk2.2⟩]
          · rw [if_neg hk2, if_neg (fun hh => hk2 ⟨by omega, hh.2⟩)]
        · rintro ⟨h1, h2'⟩
          rcases Nat.lt_or_gt_of_ne h with h | h
          · have : (vec + 1) * (W * n) ≤ m * (W * n) := Nat.mul_le_mul_right _ h
            rw [Nat.add_mul] at this; omega
          · have : (m + 1) * (W * n) ≤ vec * (W * n) := Nat.mul_le_mul_right _ h
            rw [Nat.add_mul] at this; omega
  refine (key m).trans ?_
  by_cases hk2 : k < 2 * n
  · rw [if_pos ⟨hv, hk2⟩, if_pos hk2]
  · rw [if_neg (fun hh => hk2 hh.2), if_neg hk2]

/-- What `getSol` returns for a valid element index, in terms of the blocks; the fast track at
`t = time` is the same as the interpolation, provided that the latter has the right value at 0. -/
theorem getSol_pos (W n m : ℕ) (pos vel : Blk W n → Fin n → ℝ → ℝ) (s : Solver) (t : ℝ) (vec : ℕ) (d : Fin n)
    (hv : vec < m) (hW : 2 ≤ W)
    (h0 : ∀ b : Blk W n, pos b d 0 = b ⟨0, by omega⟩ d) :
    getSol W n m pos vel s t (vec * (2 * n) + d) = some (pos (block W n s.mem vec) d (t - s.time)) := by
  have hn : 0 < n := d.pos
  have hd := d.2
  have ev : (vec * (2 * n) + d.1) / (2 * n) = vec := by
    rw [Nat.add_comm, Nat.mul_comm, Nat.add_mul_div_left _ _ (by omega), Nat.div_eq_of_lt (by omega), Nat.zero_add]
  have ei : vec * (2 * n) + d.1 - vec * (2 * n) = d.1 := by omega
  unfold getSol
  simp only [ev, ei]
  rw [if_neg (by omega)]
  by_cases hT : t - s.time = 0
  · rw [if_pos hT, hT, h0]
    simp [block]
  · rw [if_neg hT, dif_pos hn, if_pos (Nat.mod_eq_of_lt hd).symm]
    congr 2
    exact Fin.ext (Nat.mod_eq_of_lt hd)

theorem getSol_vel (W n m : ℕ) (pos vel : Blk W n → Fin n → ℝ → ℝ) (s : Solver) (t : ℝ) (vec : ℕ) (d : Fin n)
    (hv : vec < m) (hW : 2 ≤ W)
    (h0 : ∀ b : Blk W n, vel b d 0 = b ⟨1, by omega⟩ d) :
    getSol W n m pos vel s t (vec * (2 * n) + n + d) = some (vel (block W n s.mem vec) d (t - s.time)) := by
  have hn : 0 < n := d.pos
  have hd := d.2
  have ev : (vec * (2 * n) + n + d.1) / (2 * n) = vec := by
    rw [Nat.add_assoc, Nat.add_comm, Nat.mul_comm, Nat.add_mul_div_left _ _ (by omega), Nat.div_eq_of_lt (by omega),
      Nat.zero_add]
  have ei : vec * (2 * n) + n + d.1 - vec * (2 * n) = n + d.1 := by omega
  have em : (n + d.1) % n = d.1 := by rw [Nat.add_mod_left, Nat.mod_eq_of_lt hd]
  unfold getSol
  simp only [ev, ei]
  rw [if_neg (by omega)]
  by_cases hT : t - s.time = 0
  · rw [if_pos hT, hT, h0]
    simp [block, Nat.add_assoc]
  · rw [if_neg hT, dif_pos hn, if_neg (by rw [em]; omega)]
    congr 2
    exact Fin.ext em

theorem getSol_range (W n m : ℕ) (pos vel : Blk W n → Fin n → ℝ → ℝ) (s : Solver) (t : ℝ) (i : ℕ) (hn : 0 < n) :
    getSol W n m pos vel s t i = none ↔ 2 * n * m ≤ i := by
  have hiff : i / (2 * n) ≥ m ↔ 2 * n * m ≤ i := by
    show m ≤ i / (2 * n) ↔ _
    rw [Nat.le_div_iff_mul_le (by omega), Nat.mul_comm]
  rw [← hiff]
  unfold getSol
  by_cases h : i / (2 * n) ≥ m
  · simp [h]
  · simp only [h, if_false, iff_false]
    by_cases hT : t - s.time = 0
    · simp [hT]
    · rw [if_neg hT, dif_pos hn]
      split <;> simp

/-! ### Sequences of steps: independence of vectors and linearity -/

/-- The array after a sequence of steps, one vector at a time. -/
def runBlk {W n : ℕ} (stepBlk : Bool → ℝ → ℝ → Blk W n → Blk W n) : List ℝ → Bool → ℝ → Blk W n → Blk W n
  | [], _, _, b => b
  | dt :: l, new, t, b => runBlk stepBlk l false (t + dt) (stepBlk new t dt b)

theorem block_run (W n m : ℕ) (stepBlk : Bool → ℝ → ℝ → Blk W n → Blk W n) (dts : List ℝ) (s : Solver) (vec : ℕ)
    (hv : vec < m) :
    block W n (dts.foldl (doStep W n m stepBlk) s).mem vec =
      runBlk stepBlk dts s.newstep s.time (block W n s.mem vec) := by
  induction dts generalizing s with
  | nil => rfl
  | cons dt l ih =>
    rw [List.foldl_cons, ih]
    simp only [doStep, block_stepAll, if_pos hv, runBlk]

theorem time_run (W n m : ℕ) (stepBlk : Bool → ℝ → ℝ → Blk W n → Blk W n) (dts : List ℝ) (s : Solver) :
    (dts.foldl (doStep W n m stepBlk) s).time = s.time + dts.sum := by
  induction dts generalizing s with
  | nil => simp
  | cons dt l ih =>
    rw [List.foldl_cons, ih, List.sum_cons]
    simp only [doStep]; ring

theorem runBlk_linear {W n : ℕ} (stepBlk : Bool → ℝ → ℝ → Blk W n → Blk W n)
    (hlin : ∀ new t dt (a : ℝ) b b', stepBlk new t dt (a • b + b') = a • stepBlk new t dt b + stepBlk new t dt b')
    (dts : List ℝ) (new : Bool) (t a : ℝ) (b b' : Blk W n) :
    runBlk stepBlk dts new t (a • b + b') = a • runBlk stepBlk dts new t b + runBlk stepBlk dts new t b' := by
  induction dts generalizing new t b b' with
  | nil => rfl
  | cons dt l ih => simp only [runBlk]; rw [hlin, ih]

theorem block_init (W n m : ℕ) (s : Solver) (y : ℕ → ℝ) (t : Option ℝ) (hW : 2 ≤ W) (vec : ℕ) (hv : vec < m) :
    block W n (init W n m s y t).mem vec =
      fun c d => if c.1 * n + d.1 < 2 * n then y (vec * (2 * n) + (c.1 * n + d.1)) else 0 := by
  funext c d
  unfold block
  rw [Nat.add_assoc]
  exact init_mem W n m s y t hW vec hv _ (idx_lt c d)

theorem getSol_ge (W n m : ℕ) (pos vel : Blk W n → Fin n → ℝ → ℝ) (s : Solver) (t : ℝ) (i : ℕ) (hn : 0 < n)
    (hi : i < 2 * n * m) : ∃ y, getSol W n m pos vel s t i = some y := by
  cases h : getSol W n m pos vel s t i with
  | none => rw [getSol_range _ _ _ _ _ _ _ _ hn] at h; omega
  | some y => exact ⟨y, rfl⟩

/-- Splitting of an element index into the vector, position/velocity, and dimension. -/
theorem idx_cases {n m i : ℕ} (hn : 0 < n) (hi : i < 2 * n * m) :
    ∃ vec, vec < m ∧ ∃ d : Fin n, i = vec * (2 * n) + d ∨ i = vec * (2 * n) + n + d := by
  have h2 : 0 < 2 * n := by omega
  have e := Nat.div_add_mod i (2 * n)
  have hl := Nat.mod_lt i h2
  have hv : i / (2 * n) < m := by rw [Nat.div_lt_iff_lt_mul h2, Nat.mul_comm]; exact hi
  have ec : i / (2 * n) * (2 * n) = 2 * n * (i / (2 * n)) := Nat.mul_comm _ _
  refine ⟨i / (2 * n), hv, ?_⟩
  by_cases h : i % (2 * n) < n
  · exact ⟨⟨i % (2 * n), h⟩, Or.inl (by show i = _ + i % (2 * n); omega)⟩
  · exact ⟨⟨i % (2 * n) - n, by omega⟩, Or.inr (by show i = _ + n + (i % (2 * n) - n); omega)⟩

/-! ### Bounds for the right-hand side -/

theorem rhs_sub {n : ℕ} (a b : Fin n → Fin n → ℝ) (x y x' y' : Fin n → ℝ) :
    rhs a b x y - rhs a b x' y' = rhs a b (x - x') (y - y') := by
  funext d
  simp only [rhs, Pi.sub_apply, ← Finset.sum_sub_distrib]
  refine Finset.sum_congr rfl fun j _ => ?_
  ring

theorem rhs_add {n : ℕ} (a b : Fin n → Fin n → ℝ) (x y x' y' : Fin n → ℝ) :
    rhs a b (x + x') (y + y') = rhs a b x y + rhs a b x' y' := by
  funext d
  simp only [rhs, Pi.add_apply, ← Finset.sum_add_distrib]
  refine Finset.sum_congr rfl fun j _ => ?_
  ring

theorem rhs_smul {n : ℕ} (a b : Fin n → Fin n → ℝ) (c : ℝ) (x y : Fin n → ℝ) :
    rhs a b (c • x) (c • y) = c • rhs a b x y := by
  funext d
  simp only [rhs, Pi.smul_apply, smul_eq_mul, Finset.mul_sum]
  refine Finset.sum_congr rfl fun j _ => ?_
  ring

theorem rhs_norm {n : ℕ} (a b : Fin n → Fin n → ℝ) (α β : ℝ) (ha : ∀ d j, |a d j| ≤ α) (hb : ∀ d j, |b d j| ≤ β)
    (hα : 0 ≤ α) (hβ : 0 ≤ β) (x y : Fin n → ℝ) : ‖rhs a b x y‖ ≤ n * (α * ‖x‖ + β * ‖y‖) := by
  rw [pi_norm_le_iff_of_nonneg (by positivity)]
  intro d
  rw [Real.norm_eq_abs]
  calc |rhs a b x y d| ≤ ∑ j : Fin n, |a d j * x j + b d j * y j| := Finset.abs_sum_le_sum_abs _ _
    _ ≤ ∑ _j : Fin n, (α * ‖x‖ + β * ‖y‖) := by
        refine Finset.sum_le_sum fun j _ => ?_
        refine (abs_add_le _ _).trans ?_
        rw [abs_mul, abs_mul]
        have h1 : |x j| ≤ ‖x‖ := norm_le_pi_norm x j
        have h2 : |y j| ≤ ‖y‖ := norm_le_pi_norm y j
        exact add_le_add (mul_le_mul (ha d j) h1 (abs_nonneg _) hα) (mul_le_mul (hb d j) h2 (abs_nonneg _) hβ)
    _ = n * (α * ‖x‖ + β * ‖y‖) := by rw [Finset.sum_const, Finset.card_univ, Fintype.card_fin, nsmul_eq_mul]

end Verif.Ode.GL
