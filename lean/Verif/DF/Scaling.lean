import Verif.DF.Model
import Verif.Core.ScaleCub
import Mathlib.MeasureTheory.Function.Jacobian

/-! Model of the scaling transformations in the action space and of the integrand for the total mass (/repo/src/df_base.cpp), and of CompositeDF (df_factory.cpp:24-80). Exact real arithmetic. -/

namespace Verif.DF

open Real Verif.Actions Verif.Coord Verif.Scaling

noncomputable section

/-- a triplet of scaled variables -/
abbrev Vars := Fin 3 → ℝ

/-- result of toActions: an exception, infinite actions (some of them), or a finite triplet; in the last two cases with the jacobian -/
inductive ToActions where
  | rangeError : ToActions
  | infinite : ℝ → ToActions
  | actions : Act → ℝ → ToActions

open Classical in
/-- df_base.cpp:11-29, ActionSpaceScalingTriangLog::toActions -/
def TriangLog.toActions (vars : Vars) : ToActions :=
  let u := vars 0
  let v := vars 1
  let w := vars 2
  if u < 0 ∨ u > 1 ∨ v < 0 ∨ v > 1 ∨ w < 0 ∨ w > 1 then .rangeError
  else if u > 0.98 ∨ u < 0.02 then
    if u < 0.5 then .actions ⟨0, 0, 0⟩ 0 else .infinite 0
  else
    let vv := π * v * v * (3 - 2 * v)
    let Js := exp (1 / (1 - u) - 1 / u)
    let Jm := Js * sin vv
    .actions ⟨Jm * w, Jm * (1 - w), Js * cos vv⟩ (π * 6 * v * (1 - v) * Jm * Js * Js * (1 / (1 - u) ^ 2 + 1 / u ^ 2))

/-- df_base.cpp:39-41: the first scaled variable in terms of lJ = log(Js)/2 -/
def TriangLog.scaleU (lJ : ℝ) : ℝ :=
  if |lJ| < 1 then 1 / (1 + √(1 + lJ ^ 2) - lJ) else 0.5 * (√(1 + (1 / lJ) ^ 2) * Verif.Actions.sign lJ + 1 - 1 / lJ)

open Classical in
/-- df_base.cpp:30-46, ActionSpaceScalingTriangLog::toScaled for finite actions; `none`: exception. For zero actions lJ is minus infinity, and 1/lJ is zero. -/
def TriangLog.toScaled (J : Act) : Option Vars :=
  if ¬(J.Jr ≥ 0 ∧ J.Jz ≥ 0) then none else
  let Jm := |J.Jr + J.Jz|
  let Js := √(Jm ^ 2 + J.Jphi ^ 2)
  let lJ := 0.5 * log Js
  let xi := atan2 Jm J.Jphi / π
  let u := if Js = 0 then 0.5 * (√(1 + 0 ^ 2) * -1 + 1 - 0) else TriangLog.scaleU lJ
  some ![u, scaleCub 0 1 xi, if J.Jr = 0 then 0 else J.Jr / Jm]

/-- df_base.cpp:48-53: accepted parameters -/
structure RectParam where
  scaleJm : ℝ
  scaleJphi : ℝ

/-- df_base.cpp:51 -/
def RectParam.accepted (P : RectParam) : Prop := ¬(P.scaleJm ≤ 0 ∨ P.scaleJphi ≤ 0)

open Classical in
/-- df_base.cpp:55-66, ActionSpaceScalingRect::toActions; the jacobian is reset to zero if it is not between 1e-100 and 1e100, including infinite or NaN -/
def RectParam.toActions (P : RectParam) (vars : Vars) : ToActions :=
  let u := vars 0
  let v := vars 1
  let w := vars 2
  let w1 := 1 - w
  if u < 0 ∨ u > 1 ∨ v < 0 ∨ v > 1 ∨ w < 0 ∨ w1 < 0 then .rangeError
  else if u = 0 ∨ u = 1 ∨ v = 1 then .infinite 0
  else
    let Jm := v / (1 - v) * P.scaleJm
    let jac := P.scaleJm ^ 2 * P.scaleJphi * v / (1 - v) ^ 3 * (1 / (1 - u) ^ 2 + 1 / u ^ 2)
    .actions ⟨if w = 0 then 0 else Jm * w, if w = 1 then 0 else Jm * w1, P.scaleJphi * (1 / (1 - u) - 1 / u)⟩
      (if ¬(jac > 1e-100 ∧ jac < 1e100) then 0 else jac)

open Classical in
/-- df_base.cpp:68-79, ActionSpaceScalingRect::toScaled for finite actions; when Jm=0, scaleJm/Jm is infinite and its inverse is zero -/
def RectParam.toScaled (P : RectParam) (J : Act) : Option Vars :=
  if ¬(J.Jr ≥ 0 ∧ J.Jz ≥ 0) then none else
  let Jm := J.Jr + J.Jz
  let Jp := J.Jphi / P.scaleJphi
  let u := if |Jp| < 1 then 1 / (1 + √(1 + (0.5 * Jp) ^ 2) - 0.5 * Jp) else 0.5 + √(0.25 + (1 / Jp) ^ 2) * Verif.Actions.sign Jp - 1 / Jp
  some ![u, if Jm = 0 then 0 else 1 / (P.scaleJm / Jm + 1), if Jm = 0 then 0 else J.Jr / Jm]

open Classical in
/-- df_base.cpp:94-111, DFIntegrandNdim::eval; `df` returns `none` for a non-finite value -/
def integrand (logTerm : Bool) (df : Act → Option ℝ) (vars : Vars) : Option ℝ :=
  match TriangLog.toActions vars with
  | .rangeError => none
  | .infinite jac => if jac ≠ 0 then none else some 0
  | .actions act jac =>
    if jac ≠ 0 then
      let val := (df act).getD 0
      let val := if logTerm ∧ val > 0 then val * -log val else val
      some (val * jac * (2 * π) ^ 3)
    else some 0

end

/-! ### CompositeDF -/

/-- df_factory.cpp:58-77: one pass of the loop over components, operating on the output array of values (the array of derivatives is treated in the same way, see `compositeMany`); `compval p` is the value of this component at the p-th point -/
def compositeStep {α : Type} [Add α] (npoints ncomp : ℕ) (separate : Bool) (c : ℕ) (compval : ℕ → α) (values : ℕ → α) : ℕ → α :=
  if separate then
    (List.range npoints).foldl (fun values p => Function.update values (p * ncomp + c) (compval p)) values
  else
    (List.range npoints).foldl (fun values p => Function.update values p (values p + compval p)) values

/-- df_factory.cpp:24-80, CompositeDF::evalmany, for one of the two output arrays; `comp c p` is the value (or derivative) reported by the component c for the point p, `values` the initial content of the output array -/
def compositeMany {α : Type} [Add α] [Zero α] (npoints ncomp : ℕ) (separate : Bool) (comp : ℕ → ℕ → α) (values : ℕ → α) : ℕ → α :=
  if ncomp = 1 then (List.range npoints).foldl (fun values p => Function.update values p (comp 0 p)) values
  else
    let values := if ¬separate then (List.range npoints).foldl (fun values p => Function.update values p 0) values else values
    (List.range ncomp).foldl (fun values c => compositeStep npoints ncomp separate c (comp c) values) values

end Verif.DF
