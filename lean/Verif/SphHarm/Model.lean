import Mathlib.Data.Nat.Sqrt
import Mathlib.Data.Int.Bitwise
import Mathlib.Tactic

/-! Model of the spherical-harmonic index schemes: /repo/src/math_sphharm.cpp:154-263, /repo/src/math_sphharm.h:60-165,
/repo/src/coord.h:48-131. `int` is the unbounded integers (no overflow for the orders that fit in memory). -/
namespace Verif.SphHarm

/-- coord.h:49-77: a set of symmetry flags, a sum of 1 (x-reflection), 2 (y), 4 (z), 8 (mirror), 16 (z-rotation),
32 (rotation). Negative enumerator values, which `isUnknown` rejects, are not represented. -/
abbrev Sym := ℕ

/-- coord.h:80-128: `(sym & f) == f`. -/
def has (sym f : Sym) : Bool := sym &&& f == f

/-- coord.h:80-82. -/
def isX (s : Sym) : Bool := has s 1
/-- coord.h:85-87. -/
def isY (s : Sym) : Bool := has s 2
/-- coord.h:90-92. -/
def isZ (s : Sym) : Bool := has s 4
/-- coord.h:95-97. -/
def isRefl (s : Sym) : Bool := has s 8
/-- coord.h:100-102. -/
def isZRot (s : Sym) : Bool := has s 16
/-- coord.h:105-107. -/
def isRot (s : Sym) : Bool := has s 32
/-- coord.h:110-112: ST_BISYMMETRIC = 4|8. -/
def isBi (s : Sym) : Bool := has s 12
/-- coord.h:128-130. -/
def isUnknown (s : Sym) : Bool := decide (s > 63)

/-- C's `m%2!=0`. -/
def cOdd (m : ℤ) : Bool := Int.tmod m 2 != 0

/-- math_sphharm.h:118-164: the data members of SphHarmIndices. -/
structure Indices where
  lmax : ℤ
  mmax : ℤ
  step : ℕ
  sym : Sym
  lminArr : List ℤ
  deriving Repr, DecidableEq

/-- The errors thrown by the constructor and by getIndicesFromCoefs. -/
inductive Err where
  | badOrder | unknownSym | invalidSym | badSize | notFinite
  deriving Repr, DecidableEq

/-- math_sphharm.cpp:177-185: the smallest l for this m. -/
def lminFor (lmax : ℤ) (sym : Sym) (m : ℤ) : ℤ :=
  let l := |m|
  let l := if isRefl sym && cOdd m then |m| + 1 else l
  if (isY sym && decide (m < 0)) || (isX sym && (decide (m < 0) ^^ cOdd m)) || (isBi sym && cOdd m)
  then lmax + 1 else l

/-- math_sphharm.cpp:169-174: flags added for trivially symmetric expansions. -/
def augment (lmax mmax : ℤ) (sym : Sym) : Sym :=
  let sym := if mmax = 0 then sym ||| 16 ||| 1 ||| 2 else sym
  if lmax = 0 then sym ||| 32 ||| 4 ||| 8 else sym

/-- math_sphharm.cpp:156-187: the constructor. -/
def mkIndices (lmax mmax : ℤ) (sym : Sym) : Except Err Indices :=
  let step := if isZ sym || isRefl sym then 2 else 1
  if lmax < 0 ∨ mmax < 0 ∨ mmax > lmax then .error .badOrder
  else if isUnknown sym then .error .unknownSym
  else if isX sym && isY sym && isZ sym && !isRefl sym then .error .invalidSym
  else
    let sym' := augment lmax mmax sym
    .ok ⟨lmax, mmax, step, sym',
      (List.range (2 * mmax + 1).toNat).map (fun (i : ℕ) => lminFor lmax sym' ((i : ℤ) - mmax))⟩

/-- math_sphharm.h:142: number of coefficients. -/
def Indices.size (ind : Indices) : ℤ := (ind.lmax + 1) * (ind.lmax + 1)

/-- math_sphharm.h:146. -/
def index (l m : ℤ) : ℤ := l * (l + 1) + m

/-- math_sphharm.cpp:189-192; the truncated floating-point square root of an unsigned integer is modelled by the exact
one (justified for 32-bit integers by `index_l_rounding` in Index.lean). -/
def indexL (c : ℕ) : ℤ := (Nat.sqrt c : ℤ)

/-- math_sphharm.cpp:194-198. -/
def indexM (c : ℕ) : ℤ := let l := indexL c; (c : ℤ) - l * (l + 1)

/-- math_sphharm.h:155: `lmin(m)`. -/
def Indices.lmin (ind : Indices) (m : ℤ) : ℤ :=
  if m ≥ -ind.mmax ∧ m ≤ ind.mmax then ind.lminArr.getD (m + ind.mmax).toNat 0 else ind.lmax + 1

/-- math_sphharm.h:158: `mmin()`. -/
def Indices.mmin (ind : Indices) : ℤ := if isY ind.sym then 0 else -ind.mmax

/-- `for(int i=lo; i<=hi; i+=step)`: the values taken by i. -/
def forLoop (step : ℕ) (lo hi : ℤ) : List ℤ :=
  if _h : lo ≤ hi ∧ 0 < step then lo :: forLoop step (lo + step) hi else []
termination_by (hi + 1 - lo).toNat
decreasing_by omega

/-- math_sphharm.h:66-70: the documented loop over the coefficients, used in math_sphharm.cpp:371-384 and 401-416:
the pairs (l,m) in the order they are processed. -/
def Indices.visited (ind : Indices) : List (ℤ × ℤ) :=
  (forLoop 1 ind.mmin ind.mmax).flatMap fun m =>
    (forLoop ind.step (ind.lmin m) ind.lmax).map fun l => (l, m)

/-- A coefficient: a double is a nonzero finite number, zero or not finite; only this matters here. -/
inductive Coef where
  | zero | nonzero | notFinite
  deriving Repr, DecidableEq

/-- `sym &= ~f`. -/
def clear (sym f : Sym) : Sym := sym &&& (127 ^^^ f)

/-- math_sphharm.cpp:210-225: flags cleared by a nonzero coefficient number c. -/
def symStep (c : ℕ) (sym : Sym) : Sym :=
  let l := indexL c
  let m := indexM c
  let sym := if Int.tmod l 2 == 1 then clear sym 8 else sym
  let sym := if m < 0 then clear sym 2 else sym
  let sym := if Int.tmod (l + m) 2 == 1 then clear sym 4 else sym
  let sym := if decide (m < 0) ^^ cOdd m then clear sym 1 else sym
  let sym := if m != 0 then clear sym 16 else sym
  if l > 0 then clear sym 32 else sym

/-- math_sphharm.cpp:206-227: the loop over coefficients; `c` is the number of the first one in the list. -/
def coefLoop : ℕ → Sym → ℤ → List Coef → Except Err (Sym × ℤ)
  | _, sym, mmax, [] => .ok (sym, mmax)
  | c, sym, mmax, x :: xs =>
    match x with
    | .notFinite => .error .notFinite
    | .zero => coefLoop (c + 1) sym mmax xs
    | .nonzero => coefLoop (c + 1) (symStep c sym) (max mmax |indexM c|) xs

/-- math_sphharm.cpp:199-229. -/
def getIndicesFromCoefs (C : List Coef) : Except Err Indices :=
  let lmax : ℤ := (Nat.sqrt C.length : ℤ) - 1
  if lmax < 0 ∨ (C.length : ℤ) ≠ (lmax + 1) * (lmax + 1) then .error .badSize
  else match coefLoop 0 63 0 C with
    | .error e => .error e
    | .ok (sym, mmax) => mkIndices lmax mmax sym

/-- math_sphharm.cpp:231-263. -/
def getIndicesAzimuthal (mmax : ℤ) (sym : Sym) : Except Err (List ℤ) :=
  if isUnknown sym then .error .unknownSym
  else if mmax < 0 then .error .badOrder
  else if has sym 16 then .ok [0]
  else .ok (0 :: (forLoop 1 1 mmax).flatMap fun m =>
    if isBi sym && cOdd m then [] else
      let addplus := !(isX sym && Int.tmod m 2 == 1)
      let addminus := !isY sym && !(isX sym && !(Int.tmod m 2 == 1))
      (if addminus then [-m] else []) ++ (if addplus then [m] else []))

end Verif.SphHarm
