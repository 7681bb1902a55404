import Mathlib.Analysis.SpecialFunctions.Log.Basic
import Mathlib.Analysis.SpecialFunctions.ExpDeriv
import Mathlib.Data.EReal.Operations
import Verif.Spline.Regularize
import Verif.Spline.Quintic

/-! Model of the doubly-logarithmic spline (/repo/src/math_spline.cpp:1489-1720, math_spline.h:361-410) in exact real
arithmetic; C111, C112. The arrays of length n are functions on the naturals, the logarithm of a non-positive number is not
finite, `none` in the array of logarithmic slopes is NaN. -/
namespace Verif.Spline.LogLog

open Verif.BSpline (Grid)
open Verif.Spline

noncomputable section

/-- The data members (math_spline.h:397-405); logxval and logfval are the logarithms of xval and fval. An empty logfder2 is
`none`. -/
structure LogLogSpline where
  n : ℕ
  xval : ℕ → ℝ
  fval : ℕ → ℝ
  fder : ℕ → ℝ
  logfder : ℕ → Option ℝ
  logfder2 : Option (ℕ → ℝ)

/-- math_spline.h:405, math_spline.cpp:1523-1527, 1584-1588. -/
def LogLogSpline.nonnegative (L : LogLogSpline) : Prop := ∀ i < L.n, 0 ≤ L.fval i

/-- The outputs value, deriv, deriv2. -/
@[ext] structure Out where
  val : ℝ
  der : ℝ
  der2 : ℝ

/-! ## First constructor -/

/-- The last m elements before the i-th one of the array a (tmpx and tmpf contain consecutive elements of logxval and
logfval: they are appended one by one and cleared together, math_spline.cpp:1562-1567). -/
def section_ (a : ℕ → ℝ) (i m : ℕ) : ℕ → ℝ := fun k => a (i + k - m)

/-- math_spline.cpp:1558-1560, 1625-1628: store the results for the m points before the i-th one. -/
def store (out : ℕ → Option ℝ) (d : ℕ → ℝ) (i m : ℕ) : ℕ → Option ℝ :=
  fun j => if i - m ≤ j ∧ j < i then some (d (j - (i - m))) else out j

open Classical in
/-- math_spline.cpp:1535-1569: one step of the loop over points; the state is the length of the current section and the array
logfder. `none` is an assertion failure. -/
def cubicStep (x f : ℕ → ℝ) (n : ℕ) (dl dr : Option ℝ) (s : ℕ × (ℕ → Option ℝ)) (i : ℕ) : Option (ℕ × (ℕ → Option ℝ)) :=
  if i = n ∨ ¬ 0 < f i then
    let m := s.1
    if m > 1 then do
      let derLeft := if i = m then dl.map (fun v => v * x 0 / f 0) else none
      let derRight := if i = n then dr.map (fun v => v * x (n - 1) / f (n - 1)) else none
      let tmpx := section_ (fun k => Real.log (x k)) i m
      let tmpf := section_ (fun k => Real.log (f k)) i m
      let tmpd ← constructCubicSpline tmpx tmpf m derLeft derRight
      let tmpd := regularizeSpline tmpx tmpf m tmpd
      return (0, store s.2 tmpd i m)
    else return (0, s.2)
  else return (s.1 + 1, s.2)

open Classical in
/-- math_spline.cpp:1489-1570. `none` is an exception (some x is not positive: its logarithm is not finite, lines 1528-1531)
or an assertion failure. The derivatives at the ends are `none` if not finite. -/
def create (x f : ℕ → ℝ) (n : ℕ) (dl dr : Option ℝ) : Option LogLogSpline := do
  let d ← constructCubicSpline x f n dl dr
  let fder := regularizeSpline x f n d
  if ∃ i < n, x i ≤ 0 then none else
  let s ← (List.range (n + 1)).foldlM (cubicStep x f n dl dr) (0, fun _ => none)
  return ⟨n, x, f, fder, s.2, none⟩

/-! ## Second constructor -/

/-- The secant of logfval between the points i and i+1 (math_spline.cpp:1605-1608): minus infinity if f vanishes on the right
end only, plus infinity if on the left end only; NaN (`none`) if one of the values is negative or both vanish. -/
def logSlope (x f : ℕ → ℝ) (i : ℕ) : Option EReal :=
  if f i < 0 ∨ f (i + 1) < 0 then none
  else if f i = 0 then (if f (i + 1) = 0 then none else some ⊤)
  else if f (i + 1) = 0 then some ⊥
  else some (((Real.log (f (i + 1)) - Real.log (f i)) / (Real.log (x (i + 1)) - Real.log (x i)) : ℝ) : EReal)

/-- fabs. -/
def fabs (a : EReal) : EReal := if a < 0 then -a else a

/-- std::min(a,b), which is `b<a ? b : a`, with NaN in any place. -/
def stdMin : Option EReal → Option EReal → Option EReal
  | none, _ => none
  | some a, none => some a
  | some a, some b => some (if b < a then b else a)

open Classical in
/-- math_spline.cpp:1592-1620: the value of `excluded` for a point i<n. -/
def excluded (x f d : ℕ → ℝ) (n i : ℕ) : Prop :=
  let logSlopeLeft := if i > 0 then logSlope x f (i - 1) else some ⊤
  let logSlopeRight := if i + 1 < n then logSlope x f i else some ⊤
  let logDer := x i * d i / f i
  ¬ 0 < f i ∨
  (i = 0 ∧ ∃ s, logSlopeRight = some s ∧ (logDer : EReal) * s < 0) ∨
  (i + 1 = n ∧ ∃ s, logSlopeLeft = some s ∧ (logDer : EReal) * s < 0) ∨
  ∃ s, stdMin (logSlopeLeft.map fabs) (logSlopeRight.map fabs) = some s ∧ 3 * s < ((|logDer| : ℝ) : EReal)

open Classical in
/-- math_spline.cpp:1592-1640: one step of the loop over points; the state is the length of the current section and the arrays
logfder and logfder2. -/
def quinticStepL (x f d : ℕ → ℝ) (n : ℕ) (s : ℕ × (ℕ → Option ℝ) × (ℕ → Option ℝ)) (i : ℕ) :
    Option (ℕ × (ℕ → Option ℝ) × (ℕ → Option ℝ)) :=
  if i = n ∨ excluded x f d n i then
    let m := s.1
    if m > 1 then do
      let tmpx := section_ (fun k => Real.log (x k)) i m
      let tmpf := section_ (fun k => Real.log (f k)) i m
      let tmpd := section_ (fun k => x k * d k / f k) i m
      let tmpd2 ← constructQuinticSpline tmpx tmpf tmpd m
      return (0, store s.2.1 tmpd i m, store s.2.2 tmpd2 i m)
    else return (0, s.2)
  else return (s.1 + 1, s.2)

open Classical in
/-- math_spline.cpp:1572-1642. The array logfder2 is initially filled with zeros (line 1583). -/
def createQuintic (x f d : ℕ → ℝ) (n : ℕ) : Option LogLogSpline :=
  if ∃ i < n, x i ≤ 0 then none else do
  let s ← (List.range (n + 1)).foldlM (quinticStepL x f d n) (0, fun _ => none, fun _ => none)
  return ⟨n, x, f, d, s.2.1, some (fun i => (s.2.2 i).getD 0)⟩

/-! ## Evaluation -/

/-- math_spline.cpp:1656-1675: extrapolation from the node i. At t<=0 the power law is not finite in some of the outputs (`none`). -/
def LogLogSpline.extrapolate (L : LogLogSpline) (i : ℕ) (t : ℝ) : Option Out :=
  match L.logfder i with
  | none => some ⟨L.fval i, 0, 0⟩
  | some s =>
    if s = 0 then some ⟨L.fval i, 0, 0⟩
    else if t ≤ 0 then none
    else
      let v := L.fval i * Real.exp ((Real.log t - Real.log (L.xval i)) * s)
      some ⟨v, v * s / t, v * s * (s - 1) / t ^ 2⟩

open Classical in
/-- math_spline.cpp:1677-1718: interpolation between the nodes i and i+1. -/
def LogLogSpline.interpolate (L : LogLogSpline) (i : ℕ) (t : ℝ) : Out :=
  match L.logfder i, L.logfder (i + 1) with
  | some s0, some s1 =>
    let X := fun k => Real.log (L.xval k)
    let F := fun k => Real.log (L.fval k)
    let j := match L.logfder2 with
      | none => evalCubic (Real.log t) (X i) (X (i + 1)) (F i) (F (i + 1)) s0 s1
      | some e => evalQuintic (Real.log t) (X i) (X (i + 1)) (F i) (F (i + 1)) s0 s1 (e i) (e (i + 1))
    let v := Real.exp j.val
    ⟨v, j.der * v / t, (j.der2 + j.der * (j.der - 1)) * v / t ^ 2⟩
  | _, _ =>
    let j := evalCubic t (L.xval i) (L.xval (i + 1)) (L.fval i) (L.fval (i + 1)) (L.fder i) (L.fder (i + 1))
    if L.nonnegative ∧ j.val ≤ 0 then ⟨0, 0, 0⟩ else ⟨j.val, j.der, j.der2⟩

/-- math_spline.cpp:1644-1720 for a number t (for NaN, or without nodes, all outputs are NaN: `none`). -/
def LogLogSpline.evalDeriv (L : LogLogSpline) (t : ℝ) : Option Out :=
  if L.n = 0 then none else
  let index := bin L.xval L.n t
  if index < 0 then L.extrapolate 0 t
  else if index ≥ (L.n : ℤ) - 1 then L.extrapolate (L.n - 1) t
  else some (L.interpolate index.toNat t)

end

end Verif.Spline.LogLog
