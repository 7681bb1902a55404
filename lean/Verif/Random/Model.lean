/-
Model of the pseudo-random number generators of Agama.
Source: /repo/src/math_random.cpp, /repo/src/math_random.h.
Integers are exact 64-bit words (`BitVec 64`), as in the C++ code (`uint64_t`).
-/
namespace Verif.Random

/-- `uint64_t`. -/
abbrev W := BitVec 64

/-- State of one xoroshiro128+ generator: `uint64_t state[2]` (math_random.cpp:24). -/
abbrev XState := W × W

/-- math_random.cpp:24-33, state update of `xoroshiro128plus_next`
(the value returned by the C++ function is `xoOut` of the state before the update). -/
def xoNext (s : XState) : XState :=
  let s0 := s.1
  let s1 := s.2 ^^^ s0
  (((s0 <<< 55) ||| (s0 >>> 9)) ^^^ s1 ^^^ (s1 <<< 14),
   (s1 <<< 36) ||| (s1 >>> 28))

/-- math_random.cpp:27, result of `xoroshiro128plus_next`: the sum of the two words, modulo 2^64. -/
def xoOut (s : XState) : W := s.1 + s.2

/-- math_random.cpp:38, the two words of the constant array `JUMP`. -/
def JUMP0 : W := 0xbeac0467eba5facb
def JUMP1 : W := 0xd86b048b86aa9922

/-- math_random.cpp:43-47, body of the inner loop of `xoroshiro128plus_jump` for one bit `b` of one
word of `JUMP`; the first component is the accumulator `(s0,s1)`, the second one is `state`. -/
def jumpStep (word : W) (a : XState × XState) (b : Nat) : XState × XState :=
  let acc := if (word &&& (1#64 <<< b)) ≠ 0#64
    then (a.1.1 ^^^ a.2.1, a.1.2 ^^^ a.2.2) else a.1
  (acc, xoNext a.2)

/-- math_random.cpp:37-51, `xoroshiro128plus_jump`: returns the new state. -/
def xoJump (s : XState) : XState :=
  let a0 : XState × XState := ((0, 0), s)
  let a1 := (List.range 64).foldl (jumpStep JUMP0) a0
  let a2 := (List.range 64).foldl (jumpStep JUMP1) a1
  a2.1

/-- math_random.cpp:56-62, `xorshift64star_next`: state update. -/
def xsNext (x : W) : W :=
  let x := x ^^^ (x >>> 12)
  let x := x ^^^ (x <<< 25)
  x ^^^ (x >>> 27)

/-- math_random.cpp:63, scrambled output of `xorshift64star_next` for the given *initial* state. -/
def xsOut (x : W) : W := xsNext x * 0x2545f4914f6cdd1d

/-- math_random.cpp:68, increment of the splitmix64 counter. -/
def smGamma : W := 0x9e3779b97f4a7c15

/-- math_random.cpp:69-71, output function of splitmix64 applied to the already incremented counter. -/
def smMix (z : W) : W :=
  let z := (z ^^^ (z >>> 30)) * 0xbf58476d1ce4e5b9
  let z := (z ^^^ (z >>> 27)) * 0x94d049bb133111eb
  z ^^^ (z >>> 31)

/-- math_random.cpp:67-72, `splitmix64_next`: (returned value, new counter). -/
def smNext (c : W) : W × W := (smMix (c + smGamma), c + smGamma)

/-- math_random.cpp:96-102, the loop of `RandGenStorage::randomize` after the first thread:
each thread copies the state of the previous one and jumps ahead.  The result is the list of
per-thread states; thread `i` is meant to own words `2i`, `2i+1` of the array `state`. -/
def threadStates (s : XState) : Nat → List XState
  | 0 => []
  | n+1 => let s' := xoJump s; s' :: threadStates s' n

/-- math_random.cpp:93-103, `RandGenStorage::randomize(seed)` for a nonzero seed and `n` threads
(a zero seed is first replaced by the current time, line 94-95: this is the `time` argument). -/
def randomize (time seed : W) (n : Nat) : List XState :=
  let seed := if seed = 0 then time else seed
  let r0 := smNext seed
  let r1 := smNext r0.2
  threadStates (r0.1, r1.1) n

/-- math_random.cpp:80,87: the flat array `state` of `2*maxThreads` words. -/
def flatten (l : List XState) : List W := l.flatMap fun s => [s.1, s.2]

/-- math_random.cpp:121-130 with OpenMP: the call `random(NULL)` made by thread `t`.
`maxThreads` is the number of generators, `st` the shared flat array.  The code takes
`&state[min(t, maxThreads-1)]` and lets `xoroshiro128plus_next` read and update two consecutive words
from there.  Returns the raw 64-bit number and the updated array; `none` is an out-of-bounds access. -/
def randomCall (maxThreads : Nat) (st : List W) (t : Nat) : Option (W × List W) :=
  let i := min t (maxThreads - 1)
  match st[i]?, st[i+1]? with
  | some a, some b =>
    let s' := xoNext (a, b)
    some (xoOut (a, b), (st.set i s'.1).set (i+1) s'.2)
  | _, _ => none

/-- What math_random.h:24-26 promises ("each thread thus has access to a separate PRNG instance"):
thread `t` uses the words `2t`, `2t+1`.  This is *not* the code; it is used only to show that the
documented behaviour would be obtained by changing the index. -/
def randomCallRepaired (maxThreads : Nat) (st : List W) (t : Nat) : Option (W × List W) :=
  let i := 2 * min t (maxThreads - 1)
  match st[i]?, st[i+1]? with
  | some a, some b =>
    let s' := xoNext (a, b)
    some (xoOut (a, b), (st.set i s'.1).set (i+1) s'.2)
  | _, _ => none

/-- A run of calls made by the threads in the order given by `sched`, recording `(thread, number)`. -/
def runSched (call : List W → Nat → Option (W × List W)) :
    List W → List Nat → Option (List (Nat × W) × List W)
  | st, [] => some ([], st)
  | st, t :: ts =>
    match call st t with
    | none => none
    | some (w, st') =>
      match runSched call st' ts with
      | none => none
      | some (out, st'') => some ((t, w) :: out, st'')

/-- The numbers seen by thread `t` in a recorded run. -/
def seenBy (t : Nat) (out : List (Nat × W)) : List W :=
  (out.filter (fun p => p.1 == t)).map (·.2)

/-- IEEE-754 binary64 conversion of a non-negative integer (math_random.cpp:130,132: the implicit
conversion `uint64_t -> double`), round-to-nearest-even, result as an exact integer
(no overflow: the argument is below 2^64).  `e` is the exponent of the unit in the last place. -/
def roundToDouble (n : Nat) : Nat :=
  if n < 2^53 then n
  else
    let e := n.log2 - 52
    let q := n / 2^e
    let r := n % 2^e
    let half := 2^(e-1)
    (if r < half then q else if half < r then q + 1 else if q % 2 = 0 then q else q + 1) * 2^e

/-- math_random.cpp:17,130,132: numerator of `random()`; the C++ value is this number times 2^-64,
a multiplication which is exact in binary64. -/
def randomNumerator (w : W) : Nat := roundToDouble w.toNat

/-- math_random.cpp:240-245, one iteration of the loop of `hash` on the 8-byte word `k`. -/
def hashStep (h k : W) : W :=
  let m : W := 0xc6a4a7935bd1e995
  let k := k * m
  let k := k ^^^ (k >>> 47)
  let k := k * m
  (h ^^^ k) * m

/-- math_random.cpp:235-251, `hash(data, len, seed)`, with `data` an array of `len` 8-byte words
(`len` converts to `uint64_t` in `len + m`; `seed` is a 32-bit unsigned integer, zero-extended). -/
def hash (data : List W) (seed : BitVec 32) : W :=
  let m : W := 0xc6a4a7935bd1e995
  let h : W := (BitVec.ofNat 64 data.length + m) ^^^ (seed.setWidth 64)
  let h := data.foldl hashStep h
  let h := h ^^^ (h >>> 47)
  let h := h * m
  h ^^^ (h >>> 47)

end Verif.Random
