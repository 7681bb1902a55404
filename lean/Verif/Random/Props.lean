import Verif.Random.Bits
import Verif.Random.Sampling
import Mathlib.Tactic.Ring
import Mathlib.Tactic.LinearCombination
import Mathlib.Tactic.FieldSimp
import Mathlib.Tactic.Positivity
import Mathlib.Tactic.FinCases
import Mathlib.Data.Nat.Digits.Defs

/-! Property theorems about the random number generators (C19-C25). -/
namespace Verif.Random

/-! ### C20: parallel streams -/

/-- C20a. The jump function is exactly `2^64` steps of the generator, from every state. -/
theorem C20_jump_is_2pow64_steps (s : XState) : xoJump s = xoNext^[2^64] s := jump_eq s

/-- C20b. Full period: from every nonzero state the generator returns to it after exactly
`2^128-1` steps and not earlier. -/
theorem C20_full_period (s : XState) (hs : s ≠ (0, 0)) :
    xoNext^[2^128-1] s = s ∧ ∀ k, 0 < k → k < 2^128-1 → xoNext^[k] s ≠ s := by
  have hm := minimalPeriod_eq s hs
  have hN : NN = 2^128-1 := rfl
  refine ⟨?_, ?_⟩
  · have := Function.iterate_minimalPeriod (f := xoNext) (x := s)
    rwa [hm, hN] at this
  · intro k h0 hk hc
    have : Function.minimalPeriod xoNext s ∣ k := Function.IsPeriodicPt.minimalPeriod_dvd hc
    rw [hm, hN] at this
    exact absurd (Nat.le_of_dvd h0 this) (by omega)

example : ((1, 0) : XState) ≠ (0, 0) := by decide

theorem iterate_inj_of_lt (s : XState) (hs : s ≠ (0, 0)) (a b : Nat) (ha : a < 2^128-1) (hb : b < 2^128-1)
    (h : xoNext^[a] s = xoNext^[b] s) : a = b := by
  have hm := minimalPeriod_eq s hs
  exact Function.iterate_injOn_Iio_minimalPeriod (f := xoNext) (x := s)
    (by rw [Set.mem_Iio, hm]; exact ha) (by rw [Set.mem_Iio, hm]; exact hb) h

theorem threadStates_get' (J : Nat) (hJ : J = 2^64) (s : XState) (n i : Nat) (h : i < n) :
    (threadStates s n)[i]? = some (xoNext^[(i+1) * J] s) := by
  have hj : ∀ s, xoJump s = xoNext^[J] s := fun s => by rw [hJ]; exact jump_eq s
  clear hJ
  induction n generalizing s i with
  | zero => omega
  | succ n ih =>
    cases i with
    | zero => simp only [threadStates, List.getElem?_cons_zero, hj, Nat.zero_add, Nat.one_mul]
    | succ i =>
      simp only [threadStates, List.getElem?_cons_succ]
      rw [ih _ _ (by omega), hj, ← Function.iterate_add_apply]
      rw [show (i+1+1) * J = (i+1) * J + J by ring]

theorem threadStates_get (s : XState) (n i : Nat) (h : i < n) :
    (threadStates s n)[i]? = some (xoNext^[(i+1) * 2^64] s) := threadStates_get' _ rfl s n i h

theorem threadStates_length (s : XState) (n : Nat) : (threadStates s n).length = n := by
  induction n generalizing s with
  | zero => rfl
  | succ n ih => simp [threadStates, ih]

/-- The initial state computed by `randomize` before the jumps. -/
def initialState (time seed : W) : XState :=
  let seed := if seed = 0 then time else seed
  (smMix (seed + smGamma), smMix (seed + smGamma + smGamma))

/-- C20c. Whatever the seed (or the clock), the initial state is not the degenerate zero state. -/
theorem C20_initial_state_nonzero (time seed : W) : initialState time seed ≠ (0, 0) := by
  intro h
  unfold initialState at h
  simp only [Prod.mk.injEq] at h
  have := smMix_inj _ _ (h.1.trans h.2.symm)
  generalize (if seed = 0 then time else seed) + smGamma = c at this
  have h2 : c - c = c + smGamma - c := by rw [← this]
  rw [BitVec.sub_self, BitVec.add_comm, BitVec.add_sub_cancel] at h2
  exact absurd h2 (by decide)

/-- C20d. For every seed, any number of threads `n < 2^64`, any two different threads, and any
positions below `2^64` in their sequences, the generator states are different: the subsequences
of `2^64` numbers assigned to the threads are disjoint pieces of one full cycle.
(`maxThreads` is an `int` in the code, hence below `2^31`.) -/
theorem C20_streams_disjoint (time seed : W) (n : Nat) (hn : n < 2^64) (i j : Nat) (hij : i ≠ j)
    (si sj : XState) (hi : (randomize time seed n)[i]? = some si)
    (hj : (randomize time seed n)[j]? = some sj)
    (a b : Nat) (ha : a < 2^64) (hb : b < 2^64) :
    xoNext^[a] si ≠ xoNext^[b] sj := by
  have hr : randomize time seed n = threadStates (initialState time seed) n := rfl
  have lenr : (randomize time seed n).length = n := by rw [hr, threadStates_length]
  have hin : i < n := by rw [← lenr]; exact (List.getElem?_eq_some_iff.1 hi).1
  have hjn : j < n := by rw [← lenr]; exact (List.getElem?_eq_some_iff.1 hj).1
  rw [hr, threadStates_get _ _ _ hin] at hi
  rw [hr, threadStates_get _ _ _ hjn] at hj
  have e1 := Option.some.inj hi
  have e2 := Option.some.inj hj
  subst e1; subst e2
  rw [← Function.iterate_add_apply, ← Function.iterate_add_apply]
  intro hc
  have hs := C20_initial_state_nonzero time seed
  -- positions lie in [2^64, (n+1) 2^64); shift by 2^64
  have shift : ∀ k c : Nat, c + (k+1) * 2^64 = (c + k * 2^64) + 2^64 := by intros; ring
  rw [shift, shift, Function.iterate_add_apply, Function.iterate_add_apply xoNext (b + j * 2^64)] at hc
  have hs' : xoNext^[2^64] (initialState time seed) ≠ (0, 0) := by
    intro h0
    have hfix : ∀ k, xoNext^[k] ((0,0) : XState) = (0,0) := by
      intro k; induction k with
      | zero => rfl
      | succ k ih => rw [Function.iterate_succ_apply', ih]; decide
    have h1 := (C20_full_period _ hs).1
    rw [show (2^128-1 : Nat) = (2^128-1-2^64) + 2^64 by norm_num, Function.iterate_add_apply, h0, hfix] at h1
    exact hs h1.symm
  have bnd : ∀ k c : Nat, k < n → c < 2^64 → c + k * 2^64 < 2^128-1 := by
    intro k c hk hc'
    have : (k+1) * 2^64 ≤ (2^64-1) * 2^64 := Nat.mul_le_mul_right _ (by omega)
    have e : (2^64-1) * 2^64 < 2^128 - 1 := by norm_num
    have e' : (k+1) * 2^64 = k * 2^64 + 2^64 := by ring
    omega
  have := iterate_inj_of_lt _ hs' _ _ (bnd i a hin ha) (bnd j b hjn hb) hc
  apply hij
  omega

-- the hypotheses of C20_streams_disjoint are met by 8 threads and the default seed
example : (randomize 0 42 8).length = 8 ∧ (8 : Nat) < 2^64 := by
  refine ⟨?_, by norm_num⟩; exact threadStates_length _ _

/-! ### C21: thread-private streams -/

/-- Numbers a thread should see: outputs of successive states of its own generator. -/
def ownStream (s : XState) (k : Nat) : List W := (List.range k).map fun i => xoOut (xoNext^[i] s)

/-- C21 is FALSE of the code: with two threads and the default seed, the first
number drawn by thread 1 depends on whether thread 0 has already drawn one. -/
theorem C21_interference_witness :
    ∃ outA stA outB stB,
      runSched (randomCall 2) (flatten (randomize 0 42 2)) [1, 0] = some (outA, stA) ∧
      runSched (randomCall 2) (flatten (randomize 0 42 2)) [0, 1] = some (outB, stB) ∧
      seenBy 1 outA ≠ seenBy 1 outB := by
  have hA : (runSched (randomCall 2) (flatten (randomize 0 42 2)) [1, 0]).isSome = true := by decide +kernel
  have hB : (runSched (randomCall 2) (flatten (randomize 0 42 2)) [0, 1]).isSome = true := by decide +kernel
  obtain ⟨⟨oa, sa⟩, ha⟩ := Option.isSome_iff_exists.1 hA
  obtain ⟨⟨ob, sb⟩, hb⟩ := Option.isSome_iff_exists.1 hB
  refine ⟨oa, sa, ob, sb, ha, hb, ?_⟩
  have key : (runSched (randomCall 2) (flatten (randomize 0 42 2)) [1, 0]).map (fun p => seenBy 1 p.1) ≠
    (runSched (randomCall 2) (flatten (randomize 0 42 2)) [0, 1]).map (fun p => seenBy 1 p.1) := by
    decide +kernel
  rw [ha, hb] at key
  simpa using key

/-- The negation of C21, stated as the refuted claim: it is not true that what each thread sees is
independent of the interleaving (same multiset of calls, different order). -/
theorem C21_refuted : ¬ ∀ (n : Nat) (seed time : W) (sched sched' : List Nat), sched.Perm sched' →
    ∀ out st out' st', runSched (randomCall n) (flatten (randomize time seed n)) sched = some (out, st) →
      runSched (randomCall n) (flatten (randomize time seed n)) sched' = some (out', st') →
      ∀ t, seenBy t out = seenBy t out' := by
  intro h
  obtain ⟨oa, sa, ob, sb, ha, hb, hne⟩ := C21_interference_witness
  exact hne (h 2 42 0 [1,0] [0,1] (List.Perm.swap 0 1 []) oa sa ob sb ha hb 1)

/-- How general the interference is: for any contents of the array and any number of threads `≥ 2`,
a call by thread 0 changes the next number of thread 1 unless the update happens to map the second
word of generator 0 to itself. -/
theorem C21_interference_generic (n : Nat) (hn : 2 ≤ n) (a b c : W) (rest : List W) :
    ∃ w₀ st', randomCall n (a :: b :: c :: rest) 0 = some (w₀, st') ∧
      (randomCall n st' 1).map (·.1) = some ((xoNext (a, b)).2 + c) ∧
      (randomCall n (a :: b :: c :: rest) 1).map (·.1) = some (b + c) := by
  have h1 : min 1 (n-1) = 1 := by omega
  refine ⟨xoOut (a,b), (xoNext (a,b)).1 :: (xoNext (a,b)).2 :: c :: rest, ?_, ?_, ?_⟩
  · simp [randomCall]
  · simp [randomCall, h1, xoOut]
  · simp [randomCall, h1, xoOut]

/-- C21 (partial): with one generator (`maxThreads = 1`: no OpenMP, or one thread) the numbers are
the successive outputs of the xoroshiro128+ generator. Missing: any number of threads (false, above). -/
theorem C21_single_thread_partial (s : XState) (k : Nat) :
    runSched (randomCall 1) (flatten [s]) (List.replicate k 0) =
      some ((ownStream s k).map (fun w => (0, w)), flatten [xoNext^[k] s]) := by
  induction k generalizing s with
  | zero => simp [runSched, ownStream]
  | succ k ih =>
    have h : randomCall 1 (flatten [s]) 0 = some (xoOut s, flatten [xoNext s]) := by
      simp [randomCall, flatten]
    rw [List.replicate_succ, runSched, h]
    simp only
    rw [ih]
    simp only [ownStream, List.range_succ_eq_map, List.map_cons, List.map_map, Function.iterate_zero, id,
      Function.iterate_succ_apply, Option.some.injEq, Prod.mk.injEq, List.cons.injEq, and_true, true_and]
    rfl

example : runSched (randomCall 1) (flatten (randomize 0 42 1)) [0, 0, 0] ≠ none := by decide +kernel

theorem flatten_length (l : List XState) : (flatten l).length = 2 * l.length := by
  induction l with
  | nil => rfl
  | cons x l ih => simp only [flatten, List.flatMap_cons, List.length_append, List.length_cons,
      List.length_nil] at *; omega

theorem flatten_get (l : List XState) (i : Nat) :
    (flatten l)[2*i]? = (l[i]?).map (·.1) ∧ (flatten l)[2*i+1]? = (l[i]?).map (·.2) := by
  induction l generalizing i with
  | nil => simp [flatten]
  | cons x l ih =>
    have e : flatten (x :: l) = x.1 :: x.2 :: flatten l := rfl
    cases i with
    | zero => simp [e]
    | succ i =>
      rw [e, show 2*(i+1) = 2*i+1+1 by ring, List.getElem?_cons_succ, List.getElem?_cons_succ,
        show 2*i+1+1+1 = (2*i+1)+1+1 by ring, List.getElem?_cons_succ, List.getElem?_cons_succ,
        List.getElem?_cons_succ]
      exact ih i

theorem flatten_set (l : List XState) (i : Nat) (s : XState) :
    ((flatten l).set (2*i) s.1).set (2*i+1) s.2 = flatten (l.set i s) := by
  induction l generalizing i with
  | nil => simp [flatten]
  | cons x l ih =>
    have e : ∀ y l, flatten (y :: l) = y.1 :: y.2 :: flatten l := fun _ _ => rfl
    cases i with
    | zero => simp [e]
    | succ i =>
      rw [e, List.set_cons_succ, e, show 2*(i+1) = 2*i+1+1 by ring]
      simp only [List.set_cons_succ]
      rw [ih i]

theorem repaired_step (l : List XState) (t : Nat) (ht : t < l.length) :
    randomCallRepaired l.length (flatten l) t =
      some (xoOut l[t], flatten (l.set t (xoNext l[t]))) := by
  have h1 : min t (l.length - 1) = t := by omega
  have hg : l[t]? = some l[t] := List.getElem?_eq_getElem ht
  simp only [randomCallRepaired, h1, (flatten_get l t).1, (flatten_get l t).2, hg, Option.map_some]
  rw [flatten_set]

/-- With the index multiplied by two (a window per thread, as documented), for every number of threads
and *every* interleaving the run succeeds and each thread sees exactly its own generator's stream. -/
theorem C21_repaired_private (l : List XState) (sched : List Nat) (hs : ∀ t ∈ sched, t < l.length) :
    ∃ out st, runSched (randomCallRepaired l.length) (flatten l) sched = some (out, st) ∧
      ∀ t (ht : t < l.length), seenBy t out = ownStream l[t] (sched.count t) := by
  induction sched generalizing l with
  | nil => exact ⟨[], flatten l, rfl, fun t ht => by simp [seenBy, ownStream]⟩
  | cons u us ih =>
    have hu : u < l.length := hs u (by simp)
    obtain ⟨out, st, hr, hsee⟩ := ih (l.set u (xoNext l[u])) (by
      intro t ht; rw [List.length_set]; exact hs t (by simp [ht]))
    refine ⟨(u, xoOut l[u]) :: out, st, ?_, ?_⟩
    · rw [runSched, repaired_step l u hu]
      simp only
      rw [List.length_set] at hr
      rw [hr]
    · intro t ht
      have := hsee t (by rw [List.length_set]; exact ht)
      by_cases hut : u = t
      · subst hut
        rw [List.getElem_set_self] at this
        simp only [seenBy, List.filter_cons, beq_self_eq_true, if_true, List.map_cons, List.count_cons_self]
        rw [show List.map (fun x => x.2) (List.filter (fun p => p.1 == u) out) = seenBy u out from rfl, this]
        simp only [ownStream, List.range_succ_eq_map, List.map_cons, List.map_map, Function.iterate_zero, id]
        rfl
      · rw [List.getElem_set_ne hut] at this
        have hb : (u == t) = false := by simpa using hut
        simp only [seenBy, List.filter_cons, hb, List.count_cons_of_ne hut]
        exact this

example : ∀ t ∈ [0, 1, 1, 0, 2], t < (randomize 0 42 3).length := by decide +kernel

/-! ### C19: range of the uniform random numbers -/

theorem log2_bounds (n : Nat) (h : n ≠ 0) : 2^n.log2 ≤ n ∧ n < 2^(n.log2+1) :=
  ⟨Nat.log2_self_le h, Nat.lt_log2_self⟩

theorem roundToDouble_lt (n : Nat) (h : n < 2^63) : roundToDouble n ≤ 2^63 := by
  unfold roundToDouble
  split
  · omega
  · rename_i hn
    have hn0 : n ≠ 0 := by omega
    obtain ⟨hl, hu⟩ := log2_bounds n hn0
    have hL : n.log2 < 63 := by
      by_contra hc
      have : 2^63 ≤ 2^n.log2 := Nat.pow_le_pow_right (by norm_num) (by omega)
      omega
    have hL2 : 53 ≤ n.log2 := by
      by_contra hc
      have : 2^(n.log2+1) ≤ 2^53 := Nat.pow_le_pow_right (by norm_num) (by omega)
      omega
    simp only
    have hq : n / 2^(n.log2-52) < 2^53 := by
      rw [Nat.div_lt_iff_lt_mul (by positivity), ← pow_add]
      rw [show 53 + (n.log2-52) = n.log2+1 by omega]; exact hu
    have : (if n % 2^(n.log2-52) < 2^(n.log2-52-1) then n / 2^(n.log2-52)
        else if 2^(n.log2-52-1) < n % 2^(n.log2-52) then n / 2^(n.log2-52) + 1
        else if n / 2^(n.log2-52) % 2 = 0 then n / 2^(n.log2-52) else n / 2^(n.log2-52) + 1) ≤ 2^53 := by
      split_ifs <;> omega
    calc _ ≤ 2^53 * 2^(n.log2-52) := Nat.mul_le_mul_right _ this
      _ = 2^(53 + (n.log2-52)) := by rw [pow_add]
      _ ≤ 2^63 := Nat.pow_le_pow_right (by norm_num) (by omega)

theorem roundToDouble_high (n : Nat) (h : 2^63 ≤ n) (h2 : n < 2^64) :
    roundToDouble n = (if n % 2048 < 1024 then n / 2048 else if 1024 < n % 2048 then n / 2048 + 1
      else if n / 2048 % 2 = 0 then n / 2048 else n / 2048 + 1) * 2048 := by
  have hL : n.log2 = 63 := by
    rw [Nat.log2_eq_iff (by omega)]; exact ⟨h, by omega⟩
  unfold roundToDouble
  rw [if_neg (by omega)]
  simp only [hL]

/-- The documented range: `numerator / 2^64 ∈ [0,1)`, i.e. `numerator < 2^64`.
C19 (partial): every 64-bit output gives a number in the closed interval `[0,1]`, and it is below 1
exactly if the 64-bit word is below `2^64 - 1024`.
Missing: strictness (false, see `C19_refuted`). -/
theorem C19_range_partial (w : W) :
    randomNumerator w ≤ 2^64 ∧ (randomNumerator w < 2^64 ↔ w.toNat < 2^64 - 1024) := by
  have hw : w.toNat < 2^64 := w.isLt
  unfold randomNumerator
  by_cases h : w.toNat < 2^63
  · have := roundToDouble_lt _ h
    constructor
    · omega
    · constructor <;> intro <;> omega
  · rw [roundToDouble_high _ (by omega) hw]
    split_ifs <;> omega

example : randomNumerator 12345 = 12345 ∧ randomNumerator (BitVec.ofNat 64 (2^64-1025)) < 2^64 ∧
    randomNumerator (BitVec.ofNat 64 (2^64-1024)) = 2^64 := by decide +kernel

/-- The rounding function is the nearest representable number: error at most half a unit in the last
place (checks the model of the integer to double conversion for the top binade). -/
theorem roundToDouble_nearest (n : Nat) (h : 2^63 ≤ n) (h2 : n < 2^64) :
    roundToDouble n % 2048 = 0 ∧ n ≤ roundToDouble n + 1024 ∧ roundToDouble n ≤ n + 1024 := by
  rw [roundToDouble_high n h h2]
  split_ifs <;> refine ⟨by omega, by omega, by omega⟩

noncomputable instance : Fintype XState := inferInstanceAs (Fintype (W × W))

/-- every nonzero state is reached from every nonzero state -/
theorem reach (s t : XState) (hs : s ≠ (0,0)) (ht : t ≠ (0,0)) : ∃ k, xoNext^[k] s = t := by
  classical
  have hfix : ∀ k, xoNext^[k] ((0,0) : XState) = (0,0) := by
    intro k; induction k with
    | zero => rfl
    | succ k ih => rw [Function.iterate_succ_apply', ih]; decide
  have hnz : ∀ k, xoNext^[k] s ≠ (0,0) := by
    intro k hk
    have h1 : xoNext^[(2^128-1) * k] s = s := by
      have : Function.IsPeriodicPt xoNext (2^128-1) s := (C20_full_period s hs).1
      exact this.mul_const k
    rw [show (2^128-1) * k = ((2^128-1) * k - k) + k by
      rw [Nat.sub_add_cancel]; exact Nat.le_mul_of_pos_left _ (by norm_num),
      Function.iterate_add_apply, hk, hfix] at h1
    exact hs h1.symm
  let f : Fin (2^128-1) → {x : XState // x ≠ (0,0)} := fun k => ⟨xoNext^[k] s, hnz k⟩
  have hf : Function.Injective f := by
    intro a b hab
    have := congrArg Subtype.val hab
    exact Fin.ext (iterate_inj_of_lt s hs a b a.2 b.2 this)
  have hcard : Fintype.card (Fin (2^128-1)) = Fintype.card {x : XState // x ≠ (0,0)} := by
    rw [Fintype.card_fin, Fintype.card_subtype_compl (fun x : XState => x = (0,0))]
    rw [Fintype.card_subtype_eq]
    have : Fintype.card XState = 2^128 := by
      show Fintype.card (W × W) = _
      rw [Fintype.card_prod, card_W]; norm_num
    rw [this]
  have hsurj : Function.Surjective f := ((Fintype.bijective_iff_injective_and_card f).2 ⟨hf, hcard⟩).2
  obtain ⟨k, hk⟩ := hsurj ⟨t, ht⟩
  exact ⟨k, congrArg Subtype.val hk⟩

/-- C19 is FALSE of the code: from *every* seed, the default generator eventually returns exactly 1
(numerator `2^64`), because the conversion to double rounds up. -/
theorem C19_refuted (s : XState) (hs : s ≠ (0,0)) :
    ∃ k, randomNumerator (xoOut (xoNext^[k] s)) = 2^64 := by
  obtain ⟨k, hk⟩ := reach s (0xffffffffffffffff, 0) hs (by decide)
  exact ⟨k, by rw [hk]; decide +kernel⟩

/-- ... in particular after `randomize` with any seed, in thread 0 of any number of threads. -/
theorem C19_refuted_any_seed (time seed : W) :
    ∃ k, randomNumerator (xoOut (xoNext^[k] (initialState time seed))) = 2^64 :=
  C19_refuted _ (C20_initial_state_nonzero time seed)

/-- The same for the generator with a user-provided state (xorshift64*): some nonzero state gives 1. -/
theorem C19_refuted_user_state : ∃ x : W, x ≠ 0 ∧ randomNumerator (xsOut x) = 2^64 := by
  obtain ⟨x, hx⟩ := xsOut_surj 0xffffffffffffffff
  refine ⟨x, ?_, by rw [hx]; decide +kernel⟩
  rintro rfl
  exact absurd hx (by decide)

/-! ### C25: hash -/

theorem hashStep_inj_h (k h h' : W) (e : hashStep h k = hashStep h' k) : h = h' := by
  unfold hashStep at e
  have e1 := mul_inj _ 0x5f7a0ea7e59b19bd (by decide) _ _ e
  exact (BitVec.xor_left_inj _).1 e1

theorem hashStep_inj_k (h k k' : W) (e : hashStep h k = hashStep h k') : k = k' := by
  unfold hashStep at e
  have e1 := mul_inj _ 0x5f7a0ea7e59b19bd (by decide) _ _ e
  have e2 := (BitVec.xor_right_inj _).1 e1
  have e3 := mul_inj _ 0x5f7a0ea7e59b19bd (by decide) _ _ e2
  have e4 := xorshr_inj 47 (by decide) _ _ e3
  exact mul_inj _ 0x5f7a0ea7e59b19bd (by decide) _ _ e4

theorem hashFold_inj (l : List W) (h h' : W) (e : l.foldl hashStep h = l.foldl hashStep h') : h = h' := by
  induction l generalizing h h' with
  | nil => exact e
  | cons k l ih => exact hashStep_inj_h k _ _ (ih _ _ e)

theorem hashFinal_inj (h h' : W)
    (e : ((h ^^^ (h >>> 47)) * 0xc6a4a7935bd1e995) ^^^ (((h ^^^ (h >>> 47)) * 0xc6a4a7935bd1e995) >>> 47) =
      ((h' ^^^ (h' >>> 47)) * 0xc6a4a7935bd1e995) ^^^ (((h' ^^^ (h' >>> 47)) * 0xc6a4a7935bd1e995) >>> 47)) :
    h = h' := by
  have e1 := xorshr_inj 47 (by decide) _ _ e
  have e2 := mul_inj _ 0x5f7a0ea7e59b19bd (by decide) _ _ e1
  exact xorshr_inj 47 (by decide) _ _ e2

/-- C25. Two arrays of the same length differing in exactly one word (at any position, any seed,
any length) have different hashes. -/
theorem C25_hash_one_word (pre post : List W) (x y : W) (seed : BitVec 32) (hxy : x ≠ y) :
    hash (pre ++ x :: post) seed ≠ hash (pre ++ y :: post) seed := by
  intro e
  unfold hash at e
  simp only [List.length_append, List.length_cons, List.foldl_append, List.foldl_cons] at e
  exact hxy (hashStep_inj_k _ _ _ (hashFold_inj _ _ _ (hashFinal_inj _ _ e)))

/-- C25. The additional seed always matters: same data, different seeds, different hashes. -/
theorem C25_hash_seed (data : List W) (s s' : BitVec 32) (h : s ≠ s') : hash data s ≠ hash data s' := by
  intro e
  unfold hash at e
  have e1 := hashFold_inj _ _ _ (hashFinal_inj _ _ e)
  have e2 := (BitVec.xor_right_inj _).1 e1
  apply h
  have := congrArg BitVec.toNat e2
  apply BitVec.eq_of_toNat_eq
  simp only [BitVec.toNat_setWidth] at this
  have h1 := s.isLt
  have h2 := s'.isLt
  rw [Nat.mod_eq_of_lt (by omega), Nat.mod_eq_of_lt (by omega)] at this
  exact this

example : hash [1, 2, 3] 0 ≠ hash [1, 7, 3] 0 := C25_hash_one_word [1] [3] 2 7 0 (by decide)

/-! ### C41: generators seeded by `hash` are not guaranteed to be usable -/

/-- The xorshift64* generator maps nonzero states to nonzero states and nonzero numbers. -/
theorem C41_nonzero_state_stays_nonzero (x : W) (hx : x ≠ 0) : xsNext x ≠ 0 ∧ xsOut x ≠ 0 := by
  constructor
  · intro h; exact hx (xsNext_inj x 0 (h.trans (by decide)))
  · intro h; exact hx (xsOut_inj x 0 (h.trans (by decide)))

/-- C41 refuted: whatever the seed and the other data, there is a value of one input word for which
`hash` returns 0, and from there the generator produces only zeros, for ever. -/
theorem C41_hash_can_be_degenerate (pre post : List W) (seed : BitVec 32) :
    ∃ x : W, hash (pre ++ x :: post) seed = 0 ∧
      ∀ k, xsOut (xsNext^[k] (hash (pre ++ x :: post) seed)) = 0 := by
  have hinj : Function.Injective (fun x : W => hash (pre ++ x :: post) seed) := by
    intro x y h
    by_contra hne
    exact C25_hash_one_word pre post x y seed hne h
  obtain ⟨x, hx⟩ := (Finite.surjective_of_injective hinj) 0
  refine ⟨x, hx, ?_⟩
  intro k
  simp only at hx
  rw [hx]
  have : xsNext^[k] (0 : W) = 0 := by
    induction k with
    | zero => rfl
    | succ k ih => rw [Function.iterate_succ_apply', ih]; decide
  rw [this]; decide

/-! ### C22: random permutations -/

theorem permLoop_inv (draws : Nat → Nat) (output : List Nat) (n : Nat) (hn : n ≤ output.length) :
    ∃ r, permLoop draws output n = some r ∧ r.length = output.length ∧ (r.take n).Perm (List.range n) := by
  induction n with
  | zero => exact ⟨output, rfl, rfl, by simp⟩
  | succ n ih =>
    obtain ⟨r, hr, hl, hp⟩ := ih (by omega)
    have hj : min (draws n) n < r.length := by omega
    have hstep : permStep (draws n) n r =
        some ((r.set n (r[min (draws n) n])).set (min (draws n) n) n) := by
      simp only [permStep, List.getElem?_eq_getElem hj]
      rw [if_pos (by omega)]
    refine ⟨_, by rw [permLoop, hr]; exact hstep, by simp [hl], ?_⟩
    have hnl : n < r.length := by omega
    generalize hjd : min (draws n) n = j at *
    have hjn : j ≤ n := by omega
    by_cases hjeq : j = n
    · subst hjeq
      rw [List.set_set, List.take_add_one, List.getElem?_set_self hnl, List.range_succ]
      simp only [Option.toList_some]
      apply List.Perm.append_right
      rw [List.take_set_of_le le_rfl]; exact hp
    · have hjlt : j < n := by omega
      rw [List.take_add_one, List.getElem?_set_ne hjeq, List.getElem?_set_self hnl, List.range_succ]
      simp only [Option.toList_some]
      rw [List.take_set, List.take_set_of_le le_rfl]
      -- now (take n r with j replaced by n) ++ [r[j]]
      have hjt : j < (r.take n).length := by rw [List.length_take]; omega
      have e : r[j] = (r.take n)[j] := by rw [List.getElem_take]
      rw [e]
      have h1 : ((r.take n).set j n ++ [(r.take n)[j]]).Perm (r.take n ++ [n]) := by
        rw [List.set_eq_take_append_cons_drop, if_pos hjt]
        have h2 : r.take n = (r.take n).take j ++ (r.take n)[j] :: (r.take n).drop (j+1) := by
          rw [← List.drop_eq_getElem_cons hjt, List.take_append_drop]
        conv_rhs => rw [h2]
        generalize (r.take n).take j = A
        generalize (r.take n).drop (j+1) = B
        generalize (r.take n)[j] = x
        rw [List.append_assoc, List.append_assoc]
        apply List.Perm.append_left
        simp only [List.cons_append]
        have p1 : (n :: (B ++ [x])).Perm (n :: x :: B) := List.Perm.cons _ (List.perm_append_singleton x B)
        have p2 : (x :: (B ++ [n])).Perm (x :: n :: B) := List.Perm.cons _ (List.perm_append_singleton n B)
        exact p1.trans ((List.Perm.swap x n B).trans p2.symm)
      exact h1.trans (hp.append_right _)

/-- C22. For every count, every previous content of the output array and every stream of random
numbers, the output holds each of `0..count-1` exactly once. -/
theorem C22_permutation (draws : Nat → Nat) (output : List Nat) :
    ∃ r, permLoop draws output output.length = some r ∧ r.Perm (List.range output.length) := by
  obtain ⟨r, hr, hl, hp⟩ := permLoop_inv draws output output.length le_rfl
  refine ⟨r, hr, ?_⟩
  rwa [List.take_of_length_le (by omega)] at hp

example : (permLoop (fun _ => 0) [9,9,9,9] 4) = some [3,0,1,2] := by decide

theorem permLoop_len (draws : Nat → Nat) (output : List Nat) (n : Nat) (hn : n ≤ output.length) (r : List Nat)
    (h : permLoop draws output n = some r) : r.length = output.length ∧ (r.take n).Perm (List.range n) := by
  obtain ⟨r', hr, hl, hp⟩ := permLoop_inv draws output n hn
  rw [hr] at h; cases h; exact ⟨hl, hp⟩

/-- C22 (uniformity). Different admissible draws (`draw i ≤ i`) give different permutations, so each of
the `count!` permutations arises from exactly one of the `count!` equally likely sequences of draws. -/
theorem C22_draws_determined (d d' : Nat → Nat) (output output' r : List Nat) (n : Nat)
    (hn : n ≤ output.length) (hn' : n ≤ output'.length)
    (hd : ∀ i < n, d i ≤ i) (hd' : ∀ i < n, d' i ≤ i) (r' : List Nat)
    (h : permLoop d output n = some r) (h' : permLoop d' output' n = some r')
    (e : r.take n = r'.take n) : ∀ i < n, d i = d' i := by
  induction n generalizing r r' with
  | zero => intro i hi; omega
  | succ n ih =>
    obtain ⟨q, hq, hql, hqp⟩ := permLoop_inv d output n (by omega)
    obtain ⟨q', hq', hql', hqp'⟩ := permLoop_inv d' output' n (by omega)
    rw [permLoop, hq] at h
    rw [permLoop, hq'] at h'
    have hdn := hd n (by omega)
    have hdn' := hd' n (by omega)
    have step : ∀ (k : Nat) (q r : List Nat), n < q.length → k ≤ n →
        permStep k n q = some r → ∃ x, q[k]? = some x ∧ r = (q.set n x).set k n := by
      intro k q r hl hk h
      have hj : k < q.length := by omega
      simp only [permStep, Nat.min_eq_left hk, List.getElem?_eq_getElem hj] at h
      rw [if_pos hl] at h
      exact ⟨q[k], List.getElem?_eq_getElem hj, (Option.some.inj h).symm⟩
    obtain ⟨x, hx, rfl⟩ := step _ _ _ (by omega) hdn h
    obtain ⟨x', hx', rfl⟩ := step _ _ _ (by omega) hdn' h'
    have hnot : ∀ (q : List Nat), (q.take n).Perm (List.range n) → ∀ k < n, q[k]? ≠ some n := by
      intro q hp k hk hc
      have : n ∈ q.take n := by
        rw [List.mem_iff_getElem?]
        exact ⟨k, by rw [List.getElem?_take_of_lt hk]; exact hc⟩
      have := hp.mem_iff.1 this
      simp at this
    have eat : ∀ k < n+1, ((q.set n x).set (d n) n)[k]? = ((q'.set n x').set (d' n) n)[k]? := by
      intro k hk
      have := congrArg (fun l => l[k]?) e
      simp only [List.getElem?_take_of_lt hk] at this
      exact this
    have hlast : d n = d' n := by
      have h1 := eat (d n) (by omega)
      rw [List.getElem?_set_self (by rw [List.length_set]; omega)] at h1
      by_contra hne
      rw [List.getElem?_set_ne (fun h => hne h.symm)] at h1
      by_cases hdl : d n = n
      · rw [hdl, List.getElem?_set_self (by omega)] at h1
        have hxn : x' = n := (Option.some.inj h1).symm
        rw [hxn] at hx'
        exact hnot q' hqp' (d' n) (by omega) hx'
      · rw [List.getElem?_set_ne (fun h => hdl h.symm)] at h1
        exact hnot q' hqp' (d n) (by omega) h1.symm
    have etake : q.take n = q'.take n := by
      apply List.ext_getElem?
      intro k
      by_cases hk : k < n
      · rw [List.getElem?_take_of_lt hk, List.getElem?_take_of_lt hk]
        by_cases hkd : k = d n
        · have hkd' : k = d' n := by omega
          -- the value moved to position n
          have h1 := eat n (by omega)
          rw [List.getElem?_set_ne (by omega), List.getElem?_set_self (by omega),
            List.getElem?_set_ne (by omega), List.getElem?_set_self (by omega)] at h1
          rw [hkd, hx, h1, hlast, hx']
        · have h1 := eat k (by omega)
          rw [List.getElem?_set_ne (fun h => hkd h.symm), List.getElem?_set_ne (by omega),
            List.getElem?_set_ne (by omega), List.getElem?_set_ne (by omega)] at h1
          exact h1
      · rw [List.getElem?_eq_none (by rw [List.length_take]; omega),
          List.getElem?_eq_none (by rw [List.length_take]; omega)]
    intro i hi
    by_cases hin : i = n
    · subst hin; exact hlast
    · exact ih q (by omega) (by omega) (fun i hi => hd i (by omega)) (fun i hi => hd' i (by omega)) q' hq hq'
        etake i (by omega)

example : ∀ i < 5, (fun i => i / 2) i ≤ i := by decide

/-! ### C23: random vectors and rotations -/

theorem cs (x : ℝ) : Real.cos x ^ 2 + Real.sin x ^ 2 = 1 := Real.cos_sq_add_sin_sq x

/-- C23a. `getRandomUnitVector` returns a vector of unit length for every pair of uniform numbers. -/
theorem C23_unit_vector (u1 u2 : ℝ) (h0 : 0 ≤ u1) (h1 : u1 ≤ 1) :
    (unitVector u1 u2).1^2 + (unitVector u1 u2).2.1^2 + (unitVector u1 u2).2.2^2 = 1 := by
  have hs : 0 ≤ 1 - (u1*2-1)^2 := by nlinarith
  have := Real.sq_sqrt hs
  have hc := cs (2 * Real.pi * u2)
  simp only [unitVector]
  linear_combination (Real.sqrt (1 - (u1*2-1)^2))^2 * hc + this

example : (0:ℝ) ≤ 1/4 ∧ (1/4:ℝ) ≤ 1 := by norm_num

/-- C23b. `getRandomPerpendicularVector`, for every vector (including axis-aligned and null ones):
the returned number is the magnitude of the input, the vector has unit length and zero scalar
product with the input. -/
theorem C23_perp_vector (v : ℝ × ℝ × ℝ) (u1 u2 : ℝ) (h0 : 0 ≤ u2) (h1 : u2 ≤ 1) :
    (perpVector v u1 u2).1 = Real.sqrt (v.1^2 + v.2.1^2 + v.2.2^2) ∧
    (perpVector v u1 u2).2.1^2 + (perpVector v u1 u2).2.2.1^2 + (perpVector v u1 u2).2.2.2^2 = 1 ∧
    v.1 * (perpVector v u1 u2).2.1 + v.2.1 * (perpVector v u1 u2).2.2.1
      + v.2.2 * (perpVector v u1 u2).2.2.2 = 0 := by
  obtain ⟨a, b, c⟩ := v
  have hc := cs (2 * Real.pi * u1)
  unfold perpVector
  simp only
  split
  · rename_i hbc
    have hp : 0 < b^2 + c^2 := by
      rcases hbc with h | h
      · have := pow_pos (abs_pos.2 h) 2; rw [sq_abs] at this; positivity
      · have := pow_pos (abs_pos.2 h) 2; rw [sq_abs] at this; positivity
    have hq : 0 < a^2 + b^2 + c^2 := by nlinarith [sq_nonneg a]
    have hr : Real.sqrt (b^2+c^2) ≠ 0 := (Real.sqrt_pos.2 hp).ne'
    have hm : Real.sqrt (a^2+b^2+c^2) ≠ 0 := (Real.sqrt_pos.2 hq).ne'
    have er := Real.sq_sqrt hp.le
    have em := Real.sq_sqrt hq.le
    generalize Real.sqrt (b^2+c^2) = r at *
    generalize Real.sqrt (a^2+b^2+c^2) = m at *
    generalize Real.cos (2 * Real.pi * u1) = C at *
    generalize Real.sin (2 * Real.pi * u1) = S at *
    refine ⟨rfl, ?_, ?_⟩
    · field_simp
      have e1 : a^2 - m^2 = -(b^2+c^2) := by linarith
      have key : S^2*(a^2-m^2)^2 + (S*a*b - C*m*c)^2 + (S*a*c + C*m*b)^2 = (b^2+c^2) * m^2 := by
        rw [e1]
        linear_combination (b^2+c^2)*m^2 * hc - S^2 * (b^2+c^2) * em
      rw [er]
      linear_combination key
    · linear_combination (1/r/m) * S * a * (-em)
  · rename_i hbc
    push Not at hbc
    obtain ⟨hb, hcc⟩ := hbc
    subst hb; subst hcc
    split
    · refine ⟨by simp [Real.sqrt_sq_eq_abs], by linear_combination hc, by simp⟩
    · rename_i ha
      push Not at ha
      subst ha
      have hs : 0 ≤ 1 - (u2*2-1)^2 := by nlinarith
      have := Real.sq_sqrt hs
      refine ⟨by simp, ?_, by simp⟩
      linear_combination (Real.sqrt (1 - (u2*2-1)^2))^2 * hc + this

/-- C23c. `getRandomRotationMatrix` is orthogonal (`M Mᵀ = 1`) with determinant `+1`. -/
theorem C23_rotation (u1 u2 u3 : ℝ) (h0 : 0 ≤ u3) (h1 : u3 ≤ 1) :
    let M := rotationMatrix u1 u2 u3
    (∀ i j : Fin 3, M ⟨3*i, by omega⟩ * M ⟨3*j, by omega⟩ + M ⟨3*i+1, by omega⟩ * M ⟨3*j+1, by omega⟩
      + M ⟨3*i+2, by omega⟩ * M ⟨3*j+2, by omega⟩ = if i = j then 1 else 0) ∧
    M 0 * (M 4 * M 8 - M 5 * M 7) - M 1 * (M 3 * M 8 - M 5 * M 6) + M 2 * (M 3 * M 7 - M 4 * M 6) = 1 := by
  have c1 := cs (2 * Real.pi * u1)
  have c2 := cs (2 * Real.pi * u2)
  have e1 := Real.sq_sqrt (show 0 ≤ u3*2 by linarith)
  have e2 := Real.sq_sqrt (show 0 ≤ 2 - u3*2 by linarith)
  simp only [rotationMatrix]
  generalize Real.cos (2 * Real.pi * u1) = ct at *
  generalize Real.sin (2 * Real.pi * u1) = st at *
  generalize Real.cos (2 * Real.pi * u2) = cp at *
  generalize Real.sin (2 * Real.pi * u2) = sp at *
  generalize Real.sqrt (u3*2) = nu at *
  generalize Real.sqrt (2 - u3*2) = vz at *
  -- Householder form: v = (sp nu, cp nu, vz), |v|^2 = 2, M = (v v^T - 1) R
  have hv : (sp*nu)^2 + (cp*nu)^2 + vz^2 = 2 := by
    linear_combination nu^2 * c2 + e1 + e2
  have hmu : 1 - u3*2 = vz*vz - 1 := by linear_combination -e2
  rw [hmu]
  generalize sp*nu = x at *
  generalize cp*nu = y at *
  clear e1 e2 hmu c2 h0 h1
  constructor
  · intro i j
    fin_cases i <;> fin_cases j <;> simp
    · linear_combination ((x*x-1)*(x*x-1)+(x*y)*(x*y)) * c1 + x*x * hv
    · linear_combination ((x*x-1)*(y*x)+(x*y)*(y*y-1)) * c1 + x*y * hv
    · linear_combination ((x*x-1)*(vz*x)+(x*y)*(vz*y)) * c1 + x*vz * hv
    · linear_combination ((y*x)*(x*x-1)+(y*y-1)*(x*y)) * c1 + y*x * hv
    · linear_combination ((y*x)*(y*x)+(y*y-1)*(y*y-1)) * c1 + y*y * hv
    · linear_combination ((y*x)*(vz*x)+(y*y-1)*(vz*y)) * c1 + y*vz * hv
    · linear_combination ((vz*x)*(x*x-1)+(vz*y)*(x*y)) * c1 + vz*x * hv
    · linear_combination ((vz*x)*(y*x)+(vz*y)*(y*y-1)) * c1 + vz*y * hv
    · linear_combination ((vz*x)*(vz*x)+(vz*y)*(vz*y)) * c1 + vz*vz * hv
  · show (x * (x * ct - y * st) - ct) * ((y * (x * st + y * ct) - ct) * (vz * vz - 1) -
        (y * vz) * (vz * (x * st + y * ct))) - (x * (x * st + y * ct) - st) *
        ((y * (x * ct - y * st) + st) * (vz * vz - 1) - (y * vz) * (vz * (x * ct - y * st))) +
        (x * vz) * ((y * (x * ct - y * st) + st) * (vz * (x * st + y * ct)) -
        (y * (x * st + y * ct) - ct) * (vz * (x * ct - y * st))) = 1
    linear_combination (x^2+y^2+vz^2-1) * c1 + hv

example : (0:ℝ) ≤ 1/3 ∧ (1/3:ℝ) ≤ 1 := by norm_num

/-! ### C24: Halton sequence -/

/-- Independent specification: the number whose base-`b` digits after the point are the digits of
`ind` in reverse order, `Σ_k d_k / b^(k+1)`. -/
def radicalInverse (b : Nat) : List Nat → ℚ
  | [] => 0
  | d :: ds => ((d : ℚ) + radicalInverse b ds) / b

theorem haltonLoop_eq (b : Nat) (hb : 2 ≤ b) (fuel ind : Nat) (hf : ind ≤ fuel) (val fac : ℚ) :
    haltonLoop b fuel ind val fac = .value (val + fac * radicalInverse b (Nat.digits b ind)) := by
  induction fuel generalizing ind val fac with
  | zero =>
    have : ind = 0 := by omega
    subst this
    unfold haltonLoop; simp [radicalInverse]
  | succ fuel ih =>
    unfold haltonLoop
    by_cases h0 : ind = 0
    · subst h0; simp [radicalInverse]
    · rw [if_neg h0, if_neg (by omega)]
      simp only
      have hlt : ind / b < ind := Nat.div_lt_self (by omega) (by omega)
      rw [ih _ (by omega)]
      rw [Nat.digits_def' (show 1 < b by omega) (show 0 < ind by omega)]
      simp only [radicalInverse]
      have hbq : (b : ℚ) ≠ 0 := by exact_mod_cast (by omega : b ≠ 0)
      congr 1
      field_simp
      ring

/-- C24a. For every index and every base `≥ 2` the loop ends (after at most `ind` iterations) and
the result is the radical inverse of the index. -/
theorem C24_value (ind b : Nat) (hb : 2 ≤ b) (fuel : Nat) (hf : ind ≤ fuel) :
    halton fuel ind b = .value (radicalInverse b (Nat.digits b ind)) := by
  unfold halton; rw [haltonLoop_eq b hb fuel ind hf]; simp

example : halton 100 6 2 = .value (3/8) := by decide +kernel

theorem radInv_bounds (b : Nat) (hb : 2 ≤ b) (ds : List Nat) (hd : ∀ d ∈ ds, d < b) :
    0 ≤ radicalInverse b ds ∧ radicalInverse b ds < 1 := by
  induction ds with
  | nil => simp [radicalInverse]
  | cons d ds ih =>
    obtain ⟨h0, h1⟩ := ih (fun d hd' => hd d (by simp [hd']))
    have hbq : (0 : ℚ) < b := by exact_mod_cast (by omega : 0 < b)
    have hdb : (d : ℚ) + 1 ≤ b := by exact_mod_cast hd d (by simp)
    have hd0 : (0 : ℚ) ≤ d := by exact_mod_cast Nat.zero_le d
    simp only [radicalInverse]
    constructor
    · positivity
    · rw [div_lt_one hbq]; linarith

/-- C24b. The value lies in `[0,1)`. -/
theorem C24_range (ind b : Nat) (hb : 2 ≤ b) (fuel : Nat) (hf : ind ≤ fuel) (v : ℚ)
    (h : halton fuel ind b = .value v) : 0 ≤ v ∧ v < 1 := by
  rw [C24_value ind b hb fuel hf] at h
  cases h
  exact radInv_bounds b hb _ (fun d hd => Nat.digits_lt_base (by omega) hd)

theorem radInv_inj (b : Nat) (hb : 2 ≤ b) (ds es : List Nat) (hd : ∀ d ∈ ds, d < b) (he : ∀ d ∈ es, d < b)
    (h : radicalInverse b ds = radicalInverse b es) : Nat.ofDigits b ds = Nat.ofDigits b es := by
  have hbq : (0 : ℚ) < b := by exact_mod_cast (by omega : 0 < b)
  have zero_case : ∀ l : List Nat, (∀ d ∈ l, d < b) → radicalInverse b l = 0 → Nat.ofDigits b l = 0 := by
    intro l
    induction l with
    | nil => intros; rfl
    | cons d l ih =>
      intro hl h0
      have hb2 := radInv_bounds b hb l (fun d hd' => hl d (by simp [hd']))
      simp only [radicalInverse] at h0
      have hz : (d : ℚ) + radicalInverse b l = 0 := by
        rcases div_eq_zero_iff.1 h0 with h | h
        · exact h
        · exact absurd h hbq.ne'
      have hd0 : (0 : ℚ) ≤ d := by exact_mod_cast Nat.zero_le d
      have h1 : (d : ℚ) = 0 := by linarith [hb2.1]
      have h2 : radicalInverse b l = 0 := by linarith
      have h1' : d = 0 := by exact_mod_cast h1
      rw [Nat.ofDigits_cons, ih (fun d hd' => hl d (by simp [hd'])) h2, h1']; simp
  induction ds generalizing es with
  | nil => rw [zero_case es he h.symm]; rfl
  | cons d ds ih =>
    cases es with
    | nil => rw [zero_case _ hd h]; rfl
    | cons e es =>
      have b1 := radInv_bounds b hb ds (fun d hd' => hd d (by simp [hd']))
      have b2 := radInv_bounds b hb es (fun d hd' => he d (by simp [hd']))
      simp only [radicalInverse] at h
      have h' : (d : ℚ) + radicalInverse b ds = e + radicalInverse b es := by
        field_simp at h; linarith
      have hde : d = e := by
        rcases Nat.lt_trichotomy d e with hl | hl | hl
        · have : (d : ℚ) + 1 ≤ e := by exact_mod_cast hl
          linarith [b1.1, b1.2, b2.1, b2.2]
        · exact hl
        · have : (e : ℚ) + 1 ≤ d := by exact_mod_cast hl
          linarith [b1.1, b1.2, b2.1, b2.2]
      subst hde
      rw [Nat.ofDigits_cons, Nat.ofDigits_cons, ih es (fun d hd' => hd d (by simp [hd']))
        (fun d hd' => he d (by simp [hd'])) (by linarith)]

/-- C24c. Distinct indices give distinct numbers. -/
theorem C24_injective (i j b : Nat) (hb : 2 ≤ b) (fuel : Nat) (hi : i ≤ fuel) (hj : j ≤ fuel)
    (h : halton fuel i b = halton fuel j b) : i = j := by
  rw [C24_value i b hb fuel hi, C24_value j b hb fuel hj] at h
  have h' := HaltonRes.value.inj h
  have := radInv_inj b hb _ _ (fun d hd => Nat.digits_lt_base (by omega) hd)
    (fun d hd => Nat.digits_lt_base (by omega) hd) h'
  rwa [Nat.ofDigits_digits, Nat.ofDigits_digits] at this

/-- C24d. The error branch: with base 1 the loop never ends for any positive index (no iteration budget
suffices), and base 0 divides by zero. -/
theorem C24_bad_base (ind : Nat) (h : 0 < ind) (fuel : Nat) :
    halton fuel ind 1 = .running ∧ halton fuel ind 0 = .divByZero := by
  have key : ∀ val fac, haltonLoop 1 fuel ind val fac = .running := by
    induction fuel with
    | zero => intro val fac; unfold haltonLoop; rw [if_neg (by omega)]; rfl
    | succ f ih =>
      intro val fac
      unfold haltonLoop
      rw [if_neg (by omega), if_neg (by decide)]
      simp only [Nat.div_one]
      exact ih _ _
  refine ⟨key _ _, ?_⟩
  unfold halton haltonLoop
  rw [if_neg (by omega), if_pos rfl]

end Verif.Random
