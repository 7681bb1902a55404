import Verif.Pot.Base
import Verif.Coord.Orientation
import Verif.Coord.ConvProps
import Mathlib.Algebra.BigOperators.Group.List.Basic

/-!
# C67 (composite potentials)

Models `/repo/src/potential_composite.cpp:50-160, 290-360` (`evalComponents`, `Composite`) and the evaluation of a potential in
another coordinate system (`coord.h:830-855`, `potential_base.h:206-300`).  Number model (E).

A pointer argument that may be NULL is modelled by a Boolean request; what a requested output receives is the result, and an output
that was not requested stays `none`.  `time` is the same for all components and is left implicit: a `Potl` is a potential at a fixed time.
-/

namespace Verif.Pot

open Real Verif.Coord

/-! ## model -/

/-- coord.h:650, 682-687 (`clear`, `combine` with unit weights) -/
noncomputable instance : Zero GradCar := ⟨⟨0, 0, 0⟩⟩
/-- coord.h:650, 682-687 (`clear`, `combine` with unit weights) -/
noncomputable instance : Add GradCar := ⟨fun a b => ⟨a.dx + b.dx, a.dy + b.dy, a.dz + b.dz⟩⟩
noncomputable instance : AddCommMonoid GradCar where
  add_assoc a b c := by ext <;> exact add_assoc _ _ _
  zero_add a := by ext <;> exact zero_add _
  add_zero a := by ext <;> exact add_zero _
  add_comm a b := by ext <;> exact add_comm _ _
  nsmul := nsmulRec
/-- coord.h:659, 690-698 -/
noncomputable instance : Zero HessCar := ⟨⟨0, 0, 0, 0, 0, 0⟩⟩
/-- coord.h:659, 690-698 -/
noncomputable instance : Add HessCar := ⟨fun a b => ⟨a.dx2 + b.dx2, a.dy2 + b.dy2, a.dz2 + b.dz2, a.dxdy + b.dxdy, a.dydz + b.dydz, a.dxdz + b.dxdz⟩⟩
noncomputable instance : AddCommMonoid HessCar where
  add_assoc a b c := by ext <;> exact add_assoc _ _ _
  zero_add a := by ext <;> exact zero_add _
  add_zero a := by ext <;> exact add_zero _
  add_comm a b := by ext <;> exact add_comm _ _
  nsmul := nsmulRec
/-- coord.h:653, 701-706 -/
noncomputable instance : Zero GradCyl := ⟨⟨0, 0, 0⟩⟩
/-- coord.h:653, 701-706 -/
noncomputable instance : Add GradCyl := ⟨fun a b => ⟨a.dR + b.dR, a.dz + b.dz, a.dphi + b.dphi⟩⟩
noncomputable instance : AddCommMonoid GradCyl where
  add_assoc a b c := by ext <;> exact add_assoc _ _ _
  zero_add a := by ext <;> exact zero_add _
  add_zero a := by ext <;> exact add_zero _
  add_comm a b := by ext <;> exact add_comm _ _
  nsmul := nsmulRec
/-- coord.h:663, 709-717 -/
noncomputable instance : Zero HessCyl := ⟨⟨0, 0, 0, 0, 0, 0⟩⟩
/-- coord.h:663, 709-717 -/
noncomputable instance : Add HessCyl := ⟨fun a b => ⟨a.dR2 + b.dR2, a.dz2 + b.dz2, a.dphi2 + b.dphi2, a.dRdz + b.dRdz, a.dzdphi + b.dzdphi, a.dRdphi + b.dRdphi⟩⟩
noncomputable instance : AddCommMonoid HessCyl where
  add_assoc a b c := by ext <;> exact add_assoc _ _ _
  zero_add a := by ext <;> exact zero_add _
  add_zero a := by ext <;> exact add_zero _
  add_comm a b := by ext <;> exact add_comm _ _
  nsmul := nsmulRec
/-- coord.h:656, 720-725 -/
noncomputable instance : Zero GradSph := ⟨⟨0, 0, 0⟩⟩
/-- coord.h:656, 720-725 -/
noncomputable instance : Add GradSph := ⟨fun a b => ⟨a.dr + b.dr, a.dtheta + b.dtheta, a.dphi + b.dphi⟩⟩
noncomputable instance : AddCommMonoid GradSph where
  add_assoc a b c := by ext <;> exact add_assoc _ _ _
  zero_add a := by ext <;> exact zero_add _
  add_zero a := by ext <;> exact add_zero _
  add_comm a b := by ext <;> exact add_comm _ _
  nsmul := nsmulRec
/-- coord.h:667, 728-737 -/
noncomputable instance : Zero HessSph := ⟨⟨0, 0, 0, 0, 0, 0⟩⟩
/-- coord.h:667, 728-737 -/
noncomputable instance : Add HessSph := ⟨fun a b => ⟨a.dr2 + b.dr2, a.dtheta2 + b.dtheta2, a.dphi2 + b.dphi2, a.drdtheta + b.drdtheta, a.dthetadphi + b.dthetadphi, a.drdphi + b.drdphi⟩⟩
noncomputable instance : AddCommMonoid HessSph where
  add_assoc a b c := by ext <;> exact add_assoc _ _ _
  zero_add a := by ext <;> exact zero_add _
  add_zero a := by ext <;> exact add_zero _
  add_comm a b := by ext <;> exact add_comm _ _
  nsmul := nsmulRec

@[simp] theorem GradCar_add_dx (a b : GradCar) : (a + b).dx = a.dx + b.dx := rfl
@[simp] theorem GradCar_zero_dx : (0 : GradCar).dx = 0 := rfl
@[simp] theorem GradCar_add_dy (a b : GradCar) : (a + b).dy = a.dy + b.dy := rfl
@[simp] theorem GradCar_zero_dy : (0 : GradCar).dy = 0 := rfl
@[simp] theorem GradCar_add_dz (a b : GradCar) : (a + b).dz = a.dz + b.dz := rfl
@[simp] theorem GradCar_zero_dz : (0 : GradCar).dz = 0 := rfl
@[simp] theorem HessCar_add_dx2 (a b : HessCar) : (a + b).dx2 = a.dx2 + b.dx2 := rfl
@[simp] theorem HessCar_zero_dx2 : (0 : HessCar).dx2 = 0 := rfl
@[simp] theorem HessCar_add_dy2 (a b : HessCar) : (a + b).dy2 = a.dy2 + b.dy2 := rfl
@[simp] theorem HessCar_zero_dy2 : (0 : HessCar).dy2 = 0 := rfl
@[simp] theorem HessCar_add_dz2 (a b : HessCar) : (a + b).dz2 = a.dz2 + b.dz2 := rfl
@[simp] theorem HessCar_zero_dz2 : (0 : HessCar).dz2 = 0 := rfl
@[simp] theorem HessCar_add_dxdy (a b : HessCar) : (a + b).dxdy = a.dxdy + b.dxdy := rfl
@[simp] theorem HessCar_zero_dxdy : (0 : HessCar).dxdy = 0 := rfl
@[simp] theorem HessCar_add_dydz (a b : HessCar) : (a + b).dydz = a.dydz + b.dydz := rfl
@[simp] theorem HessCar_zero_dydz : (0 : HessCar).dydz = 0 := rfl
@[simp] theorem HessCar_add_dxdz (a b : HessCar) : (a + b).dxdz = a.dxdz + b.dxdz := rfl
@[simp] theorem HessCar_zero_dxdz : (0 : HessCar).dxdz = 0 := rfl
@[simp] theorem GradCyl_add_dR (a b : GradCyl) : (a + b).dR = a.dR + b.dR := rfl
@[simp] theorem GradCyl_zero_dR : (0 : GradCyl).dR = 0 := rfl
@[simp] theorem GradCyl_add_dz (a b : GradCyl) : (a + b).dz = a.dz + b.dz := rfl
@[simp] theorem GradCyl_zero_dz : (0 : GradCyl).dz = 0 := rfl
@[simp] theorem GradCyl_add_dphi (a b : GradCyl) : (a + b).dphi = a.dphi + b.dphi := rfl
@[simp] theorem GradCyl_zero_dphi : (0 : GradCyl).dphi = 0 := rfl
@[simp] theorem HessCyl_add_dR2 (a b : HessCyl) : (a + b).dR2 = a.dR2 + b.dR2 := rfl
@[simp] theorem HessCyl_zero_dR2 : (0 : HessCyl).dR2 = 0 := rfl
@[simp] theorem HessCyl_add_dz2 (a b : HessCyl) : (a + b).dz2 = a.dz2 + b.dz2 := rfl
@[simp] theorem HessCyl_zero_dz2 : (0 : HessCyl).dz2 = 0 := rfl
@[simp] theorem HessCyl_add_dphi2 (a b : HessCyl) : (a + b).dphi2 = a.dphi2 + b.dphi2 := rfl
@[simp] theorem HessCyl_zero_dphi2 : (0 : HessCyl).dphi2 = 0 := rfl
@[simp] theorem HessCyl_add_dRdz (a b : HessCyl) : (a + b).dRdz = a.dRdz + b.dRdz := rfl
@[simp] theorem HessCyl_zero_dRdz : (0 : HessCyl).dRdz = 0 := rfl
@[simp] theorem HessCyl_add_dzdphi (a b : HessCyl) : (a + b).dzdphi = a.dzdphi + b.dzdphi := rfl
@[simp] theorem HessCyl_zero_dzdphi : (0 : HessCyl).dzdphi = 0 := rfl
@[simp] theorem HessCyl_add_dRdphi (a b : HessCyl) : (a + b).dRdphi = a.dRdphi + b.dRdphi := rfl
@[simp] theorem HessCyl_zero_dRdphi : (0 : HessCyl).dRdphi = 0 := rfl
@[simp] theorem GradSph_add_dr (a b : GradSph) : (a + b).dr = a.dr + b.dr := rfl
@[simp] theorem GradSph_zero_dr : (0 : GradSph).dr = 0 := rfl
@[simp] theorem GradSph_add_dtheta (a b : GradSph) : (a + b).dtheta = a.dtheta + b.dtheta := rfl
@[simp] theorem GradSph_zero_dtheta : (0 : GradSph).dtheta = 0 := rfl
@[simp] theorem GradSph_add_dphi (a b : GradSph) : (a + b).dphi = a.dphi + b.dphi := rfl
@[simp] theorem GradSph_zero_dphi : (0 : GradSph).dphi = 0 := rfl
@[simp] theorem HessSph_add_dr2 (a b : HessSph) : (a + b).dr2 = a.dr2 + b.dr2 := rfl
@[simp] theorem HessSph_zero_dr2 : (0 : HessSph).dr2 = 0 := rfl
@[simp] theorem HessSph_add_dtheta2 (a b : HessSph) : (a + b).dtheta2 = a.dtheta2 + b.dtheta2 := rfl
@[simp] theorem HessSph_zero_dtheta2 : (0 : HessSph).dtheta2 = 0 := rfl
@[simp] theorem HessSph_add_dphi2 (a b : HessSph) : (a + b).dphi2 = a.dphi2 + b.dphi2 := rfl
@[simp] theorem HessSph_zero_dphi2 : (0 : HessSph).dphi2 = 0 := rfl
@[simp] theorem HessSph_add_drdtheta (a b : HessSph) : (a + b).drdtheta = a.drdtheta + b.drdtheta := rfl
@[simp] theorem HessSph_zero_drdtheta : (0 : HessSph).drdtheta = 0 := rfl
@[simp] theorem HessSph_add_dthetadphi (a b : HessSph) : (a + b).dthetadphi = a.dthetadphi + b.dthetadphi := rfl
@[simp] theorem HessSph_zero_dthetadphi : (0 : HessSph).dthetadphi = 0 := rfl
@[simp] theorem HessSph_add_drdphi (a b : HessSph) : (a + b).drdphi = a.drdphi + b.drdphi := rfl
@[simp] theorem HessSph_zero_drdphi : (0 : HessSph).drdphi = 0 := rfl

/-- value, gradient and second derivatives in some coordinate system -/
structure Out (G H : Type) where (pot : ℝ) (grad : G) (hess : H)

/-- conversion used by `evalComponents<internalCS, ..., outputCS>`: position from the output to the internal system (`toPos`,
`toPosDeriv`), gradient and Hessian back (`toGrad`, `toHess`) -/
structure Conv (P G H P' G' H' : Type) where
  pos : P → P'
  grad : P → G' → G
  hess : P → G' → H' → H

/-- local variables of `evalComponents` (potential_composite.cpp:62-84): outputs, and for each internal system the accumulated
gradient and Hessian, or `none` while `haveInternalPos` is false -/
structure Acc (G H G1 H1 G2 H2 : Type) where
  pot : ℝ
  deriv : G
  deriv2 : H
  int1 : Option (G1 × H1)
  int2 : Option (G2 × H2)

section
variable {P G H P1 G1 H1 P2 G2 H2 : Type} [AddCommMonoid G] [AddCommMonoid H] [AddCommMonoid G1] [AddCommMonoid H1]
  [AddCommMonoid G2] [AddCommMonoid H2]

/-- what `evalComponents` needs to know about a component: its type (potential_composite.cpp:290-309) and how it evaluates in the three
coordinate systems -/
structure Comp (P G H P1 G1 H1 P2 G2 H2 : Type) where
  ty : ℕ
  ev : P → Out G H
  ev1 : P1 → Out G1 H1
  ev2 : P2 → Out G2 H2

/-- potential_composite.cpp:87-146: one pass of the loop -/
noncomputable def compStep (c1 : Conv P G H P1 G1 H1) (c2 : Conv P G H P2 G2 H2) (id1 id2 : ℕ) (pos : P) (wantPot wantDer wantDer2 : Bool)
    (s : Acc G H G1 H1 G2 H2) (c : Comp P G H P1 G1 H1 P2 G2 H2) : Acc G H G1 H1 G2 H2 :=
  let needDeriv := wantDer || wantDer2
  let needDeriv2 := wantDer2
  if c.ty = id1 then
    let a := s.int1.getD (0, 0)
    let o := c.ev1 (c1.pos pos)
    { s with
      pot := if wantPot then s.pot + o.pot else s.pot
      int1 := some (if needDeriv then a.1 + o.grad else a.1, if needDeriv2 then a.2 + o.hess else a.2) }
  else if c.ty = id2 then
    let a := s.int2.getD (0, 0)
    let o := c.ev2 (c2.pos pos)
    { s with
      pot := if wantPot then s.pot + o.pot else s.pot
      int2 := some (if needDeriv then a.1 + o.grad else a.1, if needDeriv2 then a.2 + o.hess else a.2) }
  else
    let o := c.ev pos
    { s with
      pot := if wantPot then s.pot + o.pot else s.pot
      deriv := if wantDer then s.deriv + o.grad else s.deriv
      deriv2 := if wantDer2 then s.deriv2 + o.hess else s.deriv2 }

/-- potential_composite.cpp:148-160: add the converted contribution of one internal system to the outputs -/
noncomputable def addInt {G' H' P' : Type} (c : Conv P G H P' G' H') (pos : P) (i : Option (G' × H')) (d : G × H) : G × H :=
  match i with
  | none => d
  | some (g, h) => (d.1 + c.grad pos g, d.2 + c.hess pos g h)

/-- potential_composite.cpp:50-160; the outputs that were not requested are `none` -/
noncomputable def evalComponents (c1 : Conv P G H P1 G1 H1) (c2 : Conv P G H P2 G2 H2) (id1 id2 : ℕ)
    (comps : List (Comp P G H P1 G1 H1 P2 G2 H2)) (pos : P) (wantPot wantDer wantDer2 : Bool) : Option ℝ × Option G × Option H :=
  let s := comps.foldl (compStep c1 c2 id1 id2 pos wantPot wantDer wantDer2) ⟨0, 0, 0, none, none⟩
  let d := addInt c2 pos s.int2 (addInt c1 pos s.int1 (s.deriv, s.deriv2))
  (if wantPot then some s.pot else none, if wantDer then some d.1 else none, if wantDer2 then some d.2 else none)

/-- what a component contributes when it is evaluated in its preferred system and converted by itself (`evalAndConvert`, coord.h:830-855) -/
def contrib (c1 : Conv P G H P1 G1 H1) (c2 : Conv P G H P2 G2 H2) (id1 id2 : ℕ) (pos : P) (c : Comp P G H P1 G1 H1 P2 G2 H2) : Out G H :=
  if c.ty = id1 then
    let o := c.ev1 (c1.pos pos); ⟨o.pot, c1.grad pos o.grad, c1.hess pos o.grad o.hess⟩
  else if c.ty = id2 then
    let o := c.ev2 (c2.pos pos); ⟨o.pot, c2.grad pos o.grad, c2.hess pos o.grad o.hess⟩
  else c.ev pos

/-- the conversion is linear in the gradient and Hessian -/
structure Conv.Linear {P G H P' G' H' : Type} [AddCommMonoid G] [AddCommMonoid H] [AddCommMonoid G'] [AddCommMonoid H']
    (c : Conv P G H P' G' H') : Prop where
  grad_zero : ∀ p, c.grad p 0 = 0
  grad_add : ∀ p a b, c.grad p (a + b) = c.grad p a + c.grad p b
  hess_zero : ∀ p, c.hess p 0 0 = 0
  hess_add : ∀ p a b a' b', c.hess p (a + b) (a' + b') = c.hess p a a' + c.hess p b b'

/-- accumulated totals of the loop -/
noncomputable def tot (c1 : Conv P G H P1 G1 H1) (c2 : Conv P G H P2 G2 H2) (pos : P) (s : Acc G H G1 H1 G2 H2) : G × H :=
  addInt c2 pos s.int2 (addInt c1 pos s.int1 (s.deriv, s.deriv2))

theorem addInt_getD {G' H' P' : Type} [AddCommMonoid G'] [AddCommMonoid H'] (c : Conv P G H P' G' H') (hc : c.Linear) (pos : P)
    (i : Option (G' × H')) (d : G × H) :
    addInt c pos i d = (d.1 + c.grad pos (i.getD (0, 0)).1, d.2 + c.hess pos (i.getD (0, 0)).1 (i.getD (0, 0)).2) := by
  cases i with
  | none => simp [addInt, hc.grad_zero, hc.hess_zero]
  | some a => rfl

theorem fold_tot (c1 : Conv P G H P1 G1 H1) (c2 : Conv P G H P2 G2 H2) (h1 : c1.Linear) (h2 : c2.Linear) (id1 id2 : ℕ) (pos : P)
    (wP wD wD2 : Bool) (comps : List (Comp P G H P1 G1 H1 P2 G2 H2)) (s : Acc G H G1 H1 G2 H2) :
    let s' := comps.foldl (compStep c1 c2 id1 id2 pos wP wD wD2) s
    (wP = true → s'.pot = s.pot + (comps.map fun c => (contrib c1 c2 id1 id2 pos c).pot).sum) ∧
    (wD = true → (tot c1 c2 pos s').1 = (tot c1 c2 pos s).1 + (comps.map fun c => (contrib c1 c2 id1 id2 pos c).grad).sum) ∧
    (wD2 = true → (tot c1 c2 pos s').2 = (tot c1 c2 pos s).2 + (comps.map fun c => (contrib c1 c2 id1 id2 pos c).hess).sum) := by
  induction comps generalizing s with
  | nil => simp
  | cons c cs ih =>
    simp only [List.foldl_cons, List.map_cons, List.sum_cons]
    have key : (wP = true → (compStep c1 c2 id1 id2 pos wP wD wD2 s c).pot = s.pot + (contrib c1 c2 id1 id2 pos c).pot) ∧
        (wD = true → (tot c1 c2 pos (compStep c1 c2 id1 id2 pos wP wD wD2 s c)).1 = (tot c1 c2 pos s).1 + (contrib c1 c2 id1 id2 pos c).grad) ∧
        (wD2 = true → (tot c1 c2 pos (compStep c1 c2 id1 id2 pos wP wD wD2 s c)).2 = (tot c1 c2 pos s).2 + (contrib c1 c2 id1 id2 pos c).hess) := by
      simp only [tot, addInt_getD _ h1, addInt_getD _ h2]
      by_cases e1 : c.ty = id1
      · simp only [compStep, contrib, if_pos e1, Option.getD_some]
        refine ⟨fun h => by simp [h], fun h => ?_, fun h => ?_⟩
        · simp only [h, Bool.true_or, if_true, h1.grad_add]; abel
        · simp only [h, Bool.or_true, if_true, h1.hess_add]; abel
      · by_cases e2 : c.ty = id2
        · simp only [compStep, contrib, if_neg e1, if_pos e2, Option.getD_some]
          refine ⟨fun h => by simp [h], fun h => ?_, fun h => ?_⟩
          · simp only [h, Bool.true_or, if_true, h2.grad_add]; abel
          · simp only [h, Bool.or_true, if_true, h2.hess_add]; abel
        · simp only [compStep, contrib, if_neg e1, if_neg e2]
          refine ⟨fun h => by simp [h], fun h => ?_, fun h => ?_⟩
          · simp only [h, if_true]; abel
          · simp only [h, if_true]; abel
    obtain ⟨i1, i2, i3⟩ := ih (compStep c1 c2 id1 id2 pos wP wD wD2 s c)
    obtain ⟨k1, k2, k3⟩ := key
    refine ⟨fun h => ?_, fun h => ?_, fun h => ?_⟩
    · rw [i1 h, k1 h, add_assoc]
    · rw [i2 h, k2 h, add_assoc]
    · rw [i3 h, k3 h, add_assoc]

/-- C67: accumulating the components per coordinate system and converting once gives the sum of the separately converted
components, for every subset of requested outputs -/
theorem C67_evalComponents (c1 : Conv P G H P1 G1 H1) (c2 : Conv P G H P2 G2 H2) (h1 : c1.Linear) (h2 : c2.Linear) (id1 id2 : ℕ) (pos : P)
    (wP wD wD2 : Bool) (comps : List (Comp P G H P1 G1 H1 P2 G2 H2)) :
    evalComponents c1 c2 id1 id2 comps pos wP wD wD2 =
      (if wP then some (comps.map fun c => (contrib c1 c2 id1 id2 pos c).pot).sum else none,
       if wD then some (comps.map fun c => (contrib c1 c2 id1 id2 pos c).grad).sum else none,
       if wD2 then some (comps.map fun c => (contrib c1 c2 id1 id2 pos c).hess).sum else none) := by
  obtain ⟨i1, i2, i3⟩ := fold_tot c1 c2 h1 h2 id1 id2 pos wP wD wD2 comps ⟨0, 0, 0, none, none⟩
  simp only [tot] at i2 i3
  simp only [evalComponents]
  refine Prod.ext ?_ (Prod.ext ?_ ?_)
  · simp only
    split_ifs with h
    · rw [i1 h]; simp
    · rfl
  · simp only
    split_ifs with h
    · rw [i2 h]; simp [addInt]
    · rfl
  · simp only
    split_ifs with h
    · rw [i3 h]; simp [addInt]
    · rfl

end

/-- a potential at a given time, as seen through `eval` in the three coordinate systems; `pref` is the code of the preferred coordinate
system (1 Cartesian, 2 cylindrical, 3 spherical, 0 none: potential_composite.cpp:22-26, 296-308) -/
structure Potl where
  pref : ℕ
  car : PosCar → OutCar
  cyl : PosCyl → OutCyl
  sph : PosSph → OutSph

/-- coord.cpp conversions used when the output is Cartesian and the component is cylindrical.  `toPosDeriv` (needed when derivatives are
requested) and `toPos` give the same position (`C56_position`). -/
noncomputable def convCarCyl : Conv PosCar GradCar HessCar PosCyl GradCyl HessCyl :=
  ⟨carToCyl, fun p g => toGradCylCar g (derivCarCyl p), fun p g h => toHessCylCar g h (derivCarCyl p) (deriv2CarCyl p)⟩
/-- the same for output Cartesian, component spherical -/
noncomputable def convCarSph : Conv PosCar GradCar HessCar PosSph GradSph HessSph :=
  ⟨carToSph, fun p g => toGradSphCar g (derivCarSph p), fun p g h => toHessSphCar g h (derivCarSph p) (deriv2CarSph p)⟩
/-- the same for output cylindrical, component Cartesian -/
noncomputable def convCylCar : Conv PosCyl GradCyl HessCyl PosCar GradCar HessCar :=
  ⟨cylToCar, fun p g => toGradCarCyl g (derivCylCar p), fun p g h => toHessCarCyl g h (derivCylCar p) (deriv2CylCar p)⟩
/-- the same for output cylindrical, component spherical -/
noncomputable def convCylSph : Conv PosCyl GradCyl HessCyl PosSph GradSph HessSph :=
  ⟨cylToSph, fun p g => toGradSphCyl g (derivCylSph p), fun p g h => toHessSphCyl g h (derivCylSph p) (deriv2CylSph p)⟩
/-- the same for output spherical, component Cartesian -/
noncomputable def convSphCar : Conv PosSph GradSph HessSph PosCar GradCar HessCar :=
  ⟨sphToCar, fun p g => toGradCarSph g (derivSphCar p), fun p g h => toHessCarSph g h (derivSphCar p) (deriv2SphCar p)⟩
/-- the same for output spherical, component cylindrical -/
noncomputable def convSphCyl : Conv PosSph GradSph HessSph PosCyl GradCyl HessCyl :=
  ⟨sphToCyl, fun p g => toGradCylSph g (derivSphCyl p), fun p g h => toHessCylSph g h (derivSphCyl p) (deriv2SphCyl p)⟩

/-- the three outputs as one value -/
def OutCar.out (o : OutCar) : Out GradCar HessCar := ⟨o.pot, o.grad, o.hess⟩
/-- the three outputs as one value -/
def OutCyl.out (o : OutCyl) : Out GradCyl HessCyl := ⟨o.pot, o.grad, o.hess⟩
/-- the three outputs as one value -/
def OutSph.out (o : OutSph) : Out GradSph HessSph := ⟨o.pot, o.grad, o.hess⟩

/-- components as seen by `evalComponents<Cyl, Sph, Car>` -/
def Potl.compCar (c : Potl) : Comp PosCar GradCar HessCar PosCyl GradCyl HessCyl PosSph GradSph HessSph :=
  ⟨c.pref, fun p => (c.car p).out, fun p => (c.cyl p).out, fun p => (c.sph p).out⟩
/-- components as seen by `evalComponents<Car, Sph, Cyl>` -/
def Potl.compCyl (c : Potl) : Comp PosCyl GradCyl HessCyl PosCar GradCar HessCar PosSph GradSph HessSph :=
  ⟨c.pref, fun p => (c.cyl p).out, fun p => (c.car p).out, fun p => (c.sph p).out⟩
/-- components as seen by `evalComponents<Car, Cyl, Sph>` -/
def Potl.compSph (c : Potl) : Comp PosSph GradSph HessSph PosCar GradCar HessCar PosCyl GradCyl HessCyl :=
  ⟨c.pref, fun p => (c.sph p).out, fun p => (c.car p).out, fun p => (c.cyl p).out⟩

/-- potential_composite.cpp:311-316 -/
noncomputable def compositeCar (cs : List Potl) (pos : PosCar) (wP wD wD2 : Bool) : Option ℝ × Option GradCar × Option HessCar :=
  evalComponents convCarCyl convCarSph 2 3 (cs.map Potl.compCar) pos wP wD wD2
/-- potential_composite.cpp:318-323 -/
noncomputable def compositeCyl (cs : List Potl) (pos : PosCyl) (wP wD wD2 : Bool) : Option ℝ × Option GradCyl × Option HessCyl :=
  evalComponents convCylCar convCylSph 1 3 (cs.map Potl.compCyl) pos wP wD wD2
/-- potential_composite.cpp:325-330 -/
noncomputable def compositeSph (cs : List Potl) (pos : PosSph) (wP wD wD2 : Bool) : Option ℝ × Option GradSph × Option HessSph :=
  evalComponents convSphCar convSphCyl 1 2 (cs.map Potl.compSph) pos wP wD wD2

theorem convCarCyl_lin : convCarCyl.Linear := by
  constructor <;> intros <;> (ext <;> simp [convCarCyl, toGradCylCar, toHessCylCar] <;> ring)
theorem convCarSph_lin : convCarSph.Linear := by
  constructor <;> intros <;> (ext <;> simp [convCarSph, toGradSphCar, toHessSphCar] <;> ring)
theorem convCylCar_lin : convCylCar.Linear := by
  constructor <;> intros <;> (ext <;> simp [convCylCar, toGradCarCyl, toHessCarCyl] <;> ring)
theorem convCylSph_lin : convCylSph.Linear := by
  constructor <;> intros <;> (ext <;> simp [convCylSph, toGradSphCyl, toHessSphCyl] <;> ring)
theorem convSphCar_lin : convSphCar.Linear := by
  constructor <;> intros <;> (ext <;> simp [convSphCar, toGradCarSph, toHessCarSph] <;> ring)
theorem convSphCyl_lin : convSphCyl.Linear := by
  constructor <;> intros <;> (ext <;> simp [convSphCyl, toGradCylSph, toHessCylSph] <;> ring)

/-! ## specification -/

/-- the potential returns the values of the scalar field `Phi`, in whichever coordinates the point is given -/
def Represents (c : Potl) (Phi : PosCar → ℝ) : Prop :=
  (∀ p, (c.car p).pot = Phi p) ∧ (∀ p, (c.cyl p).pot = Phi (cylToCar p)) ∧ (∀ p, (c.sph p).pot = Phi (sphToCar p))

/-- the derivatives that `c` reports in its preferred coordinate system are correct at the point `p`, and (if that system is not
Cartesian) `p` is not on the z axis, where the conversion of derivatives is singular -/
def Potl.GoodCar (c : Potl) (p : PosCar) : Prop :=
  (c.pref = 2 → ¬(p.x = 0 ∧ p.y = 0) ∧ OkCyl c.cyl (carToCyl p) ∧ PeriodicCyl (fun q => (c.cyl q).grad)) ∧
  (c.pref = 3 → ¬(p.x = 0 ∧ p.y = 0) ∧ OkSph c.sph (carToSph p) ∧ PeriodicSph (fun q => (c.sph q).grad)) ∧
  (c.pref ≠ 2 → c.pref ≠ 3 → OkCar c.car p)
/-- the same for evaluation in cylindrical coordinates -/
def Potl.GoodCyl (c : Potl) (p : PosCyl) : Prop :=
  (c.pref = 1 → OkCar c.car (cylToCar p)) ∧
  (c.pref = 3 → 0 < p.R ∧ OkSph c.sph (cylToSph p)) ∧
  (c.pref ≠ 1 → c.pref ≠ 3 → OkCyl c.cyl p)
/-- the same for evaluation in spherical coordinates -/
def Potl.GoodSph (c : Potl) (p : PosSph) : Prop :=
  (c.pref = 1 → OkCar c.car (sphToCar p)) ∧
  (c.pref = 2 → OkCyl c.cyl (sphToCyl p)) ∧
  (c.pref ≠ 1 → c.pref ≠ 2 → OkSph c.sph p)

/-! ## proofs -/

/-- contribution of a component -/
noncomputable def Potl.viaCar (c : Potl) (p : PosCar) : Out GradCar HessCar := contrib convCarCyl convCarSph 2 3 p c.compCar

theorem compositeCar_eq (cs : List Potl) (p : PosCar) (wP wD wD2 : Bool) :
    compositeCar cs p wP wD wD2 =
      (if wP then some (cs.map fun c => (c.viaCar p).pot).sum else none,
       if wD then some (cs.map fun c => (c.viaCar p).grad).sum else none,
       if wD2 then some (cs.map fun c => (c.viaCar p).hess).sum else none) := by
  rw [compositeCar, C67_evalComponents _ _ convCarCyl_lin convCarSph_lin]
  simp only [List.map_map]; rfl

theorem isGradCar_sum {α : Type} (cs : List α) (F : α → PosCar → ℝ) (g : α → GradCar) (p : PosCar)
    (h : ∀ c ∈ cs, IsGradCar (F c) p (g c)) : IsGradCar (fun q => (cs.map fun c => F c q).sum) p (cs.map g).sum := by
  induction cs with
  | nil => intro x y z x' y' z' t _ _ _ _; exact (hasDerivAt_const _ _).congr_deriv (by simp)
  | cons c cs ih =>
    intro x y z x' y' z' t hx hy hz hp
    have a := h c (by simp) x y z x' y' z' t hx hy hz hp
    have b := ih (fun d hd => h d (by simp [hd])) x y z x' y' z' t hx hy hz hp
    simp only [List.map_cons, List.sum_cons]
    exact (a.add b).congr_deriv (by simp; ring)

/-- contribution of a component -/
noncomputable def Potl.viaCyl (c : Potl) (p : PosCyl) : Out GradCyl HessCyl := contrib convCylCar convCylSph 1 3 p c.compCyl

theorem compositeCyl_eq (cs : List Potl) (p : PosCyl) (wP wD wD2 : Bool) :
    compositeCyl cs p wP wD wD2 =
      (if wP then some (cs.map fun c => (c.viaCyl p).pot).sum else none,
       if wD then some (cs.map fun c => (c.viaCyl p).grad).sum else none,
       if wD2 then some (cs.map fun c => (c.viaCyl p).hess).sum else none) := by
  rw [compositeCyl, C67_evalComponents _ _ convCylCar_lin convCylSph_lin]
  simp only [List.map_map]; rfl

theorem isGradCyl_sum {α : Type} (cs : List α) (F : α → PosCyl → ℝ) (g : α → GradCyl) (p : PosCyl)
    (h : ∀ c ∈ cs, IsGradCyl (F c) p (g c)) : IsGradCyl (fun q => (cs.map fun c => F c q).sum) p (cs.map g).sum := by
  induction cs with
  | nil => intro x y z x' y' z' t _ _ _ _; exact (hasDerivAt_const _ _).congr_deriv (by simp)
  | cons c cs ih =>
    intro x y z x' y' z' t hx hy hz hp
    have a := h c (by simp) x y z x' y' z' t hx hy hz hp
    have b := ih (fun d hd => h d (by simp [hd])) x y z x' y' z' t hx hy hz hp
    simp only [List.map_cons, List.sum_cons]
    exact (a.add b).congr_deriv (by simp; ring)

/-- contribution of a component -/
noncomputable def Potl.viaSph (c : Potl) (p : PosSph) : Out GradSph HessSph := contrib convSphCar convSphCyl 1 2 p c.compSph

theorem compositeSph_eq (cs : List Potl) (p : PosSph) (wP wD wD2 : Bool) :
    compositeSph cs p wP wD wD2 =
      (if wP then some (cs.map fun c => (c.viaSph p).pot).sum else none,
       if wD then some (cs.map fun c => (c.viaSph p).grad).sum else none,
       if wD2 then some (cs.map fun c => (c.viaSph p).hess).sum else none) := by
  rw [compositeSph, C67_evalComponents _ _ convSphCar_lin convSphCyl_lin]
  simp only [List.map_map]; rfl

theorem isGradSph_sum {α : Type} (cs : List α) (F : α → PosSph → ℝ) (g : α → GradSph) (p : PosSph)
    (h : ∀ c ∈ cs, IsGradSph (F c) p (g c)) : IsGradSph (fun q => (cs.map fun c => F c q).sum) p (cs.map g).sum := by
  induction cs with
  | nil => intro x y z x' y' z' t _ _ _ _; exact (hasDerivAt_const _ _).congr_deriv (by simp)
  | cons c cs ih =>
    intro x y z x' y' z' t hx hy hz hp
    have a := h c (by simp) x y z x' y' z' t hx hy hz hp
    have b := ih (fun d hd => h d (by simp [hd])) x y z x' y' z' t hx hy hz hp
    simp only [List.map_cons, List.sum_cons]
    exact (a.add b).congr_deriv (by simp; ring)

theorem sum_gradCar_dx {α : Type} (cs : List α) (g : α → GradCar) : ((cs.map g).sum).dx = (cs.map fun c => (g c).dx).sum := by
  induction cs with
  | nil => rfl
  | cons c cs ih => simp [ih]
theorem sum_gradCar_dy {α : Type} (cs : List α) (g : α → GradCar) : ((cs.map g).sum).dy = (cs.map fun c => (g c).dy).sum := by
  induction cs with
  | nil => rfl
  | cons c cs ih => simp [ih]
theorem sum_gradCar_dz {α : Type} (cs : List α) (g : α → GradCar) : ((cs.map g).sum).dz = (cs.map fun c => (g c).dz).sum := by
  induction cs with
  | nil => rfl
  | cons c cs ih => simp [ih]
theorem sum_hessCar_dx2 {α : Type} (cs : List α) (g : α → HessCar) : ((cs.map g).sum).dx2 = (cs.map fun c => (g c).dx2).sum := by
  induction cs with
  | nil => rfl
  | cons c cs ih => simp [ih]
theorem sum_hessCar_dy2 {α : Type} (cs : List α) (g : α → HessCar) : ((cs.map g).sum).dy2 = (cs.map fun c => (g c).dy2).sum := by
  induction cs with
  | nil => rfl
  | cons c cs ih => simp [ih]
theorem sum_hessCar_dz2 {α : Type} (cs : List α) (g : α → HessCar) : ((cs.map g).sum).dz2 = (cs.map fun c => (g c).dz2).sum := by
  induction cs with
  | nil => rfl
  | cons c cs ih => simp [ih]
theorem sum_hessCar_dxdy {α : Type} (cs : List α) (g : α → HessCar) : ((cs.map g).sum).dxdy = (cs.map fun c => (g c).dxdy).sum := by
  induction cs with
  | nil => rfl
  | cons c cs ih => simp [ih]
theorem sum_hessCar_dydz {α : Type} (cs : List α) (g : α → HessCar) : ((cs.map g).sum).dydz = (cs.map fun c => (g c).dydz).sum := by
  induction cs with
  | nil => rfl
  | cons c cs ih => simp [ih]
theorem sum_hessCar_dxdz {α : Type} (cs : List α) (g : α → HessCar) : ((cs.map g).sum).dxdz = (cs.map fun c => (g c).dxdz).sum := by
  induction cs with
  | nil => rfl
  | cons c cs ih => simp [ih]

theorem isHessCar_sum {α : Type} (cs : List α) (G : α → PosCar → GradCar) (h : α → HessCar) (p : PosCar)
    (hh : ∀ c ∈ cs, IsHessCar (G c) p (h c)) : IsHessCar (fun q => (cs.map fun c => G c q).sum) p (cs.map h).sum := by
  refine ⟨?_, ?_, ?_⟩
  · have := isGradCar_sum cs (fun c q => (G c q).dx) (fun c => ⟨(h c).dx2, (h c).dxdy, (h c).dxdz⟩) p (fun c hc => (hh c hc).1)
    simp only [sum_gradCar_dx]
    convert this using 1
    ext <;> simp [sum_gradCar_dx, sum_gradCar_dy, sum_gradCar_dz, sum_hessCar_dx2, sum_hessCar_dxdy, sum_hessCar_dxdz]
  · have := isGradCar_sum cs (fun c q => (G c q).dy) (fun c => ⟨(h c).dxdy, (h c).dy2, (h c).dydz⟩) p (fun c hc => (hh c hc).2.1)
    simp only [sum_gradCar_dy]
    convert this using 1
    ext <;> simp [sum_gradCar_dx, sum_gradCar_dy, sum_gradCar_dz, sum_hessCar_dxdy, sum_hessCar_dy2, sum_hessCar_dydz]
  · have := isGradCar_sum cs (fun c q => (G c q).dz) (fun c => ⟨(h c).dxdz, (h c).dydz, (h c).dz2⟩) p (fun c hc => (hh c hc).2.2)
    simp only [sum_gradCar_dz]
    convert this using 1
    ext <;> simp [sum_gradCar_dx, sum_gradCar_dy, sum_gradCar_dz, sum_hessCar_dxdz, sum_hessCar_dydz, sum_hessCar_dz2]

theorem sum_gradCyl_dR {α : Type} (cs : List α) (g : α → GradCyl) : ((cs.map g).sum).dR = (cs.map fun c => (g c).dR).sum := by
  induction cs with
  | nil => rfl
  | cons c cs ih => simp [ih]
theorem sum_gradCyl_dz {α : Type} (cs : List α) (g : α → GradCyl) : ((cs.map g).sum).dz = (cs.map fun c => (g c).dz).sum := by
  induction cs with
  | nil => rfl
  | cons c cs ih => simp [ih]
theorem sum_gradCyl_dphi {α : Type} (cs : List α) (g : α → GradCyl) : ((cs.map g).sum).dphi = (cs.map fun c => (g c).dphi).sum := by
  induction cs with
  | nil => rfl
  | cons c cs ih => simp [ih]
theorem sum_hessCyl_dR2 {α : Type} (cs : List α) (g : α → HessCyl) : ((cs.map g).sum).dR2 = (cs.map fun c => (g c).dR2).sum := by
  induction cs with
  | nil => rfl
  | cons c cs ih => simp [ih]
theorem sum_hessCyl_dz2 {α : Type} (cs : List α) (g : α → HessCyl) : ((cs.map g).sum).dz2 = (cs.map fun c => (g c).dz2).sum := by
  induction cs with
  | nil => rfl
  | cons c cs ih => simp [ih]
theorem sum_hessCyl_dphi2 {α : Type} (cs : List α) (g : α → HessCyl) : ((cs.map g).sum).dphi2 = (cs.map fun c => (g c).dphi2).sum := by
  induction cs with
  | nil => rfl
  | cons c cs ih => simp [ih]
theorem sum_hessCyl_dRdz {α : Type} (cs : List α) (g : α → HessCyl) : ((cs.map g).sum).dRdz = (cs.map fun c => (g c).dRdz).sum := by
  induction cs with
  | nil => rfl
  | cons c cs ih => simp [ih]
theorem sum_hessCyl_dzdphi {α : Type} (cs : List α) (g : α → HessCyl) : ((cs.map g).sum).dzdphi = (cs.map fun c => (g c).dzdphi).sum := by
  induction cs with
  | nil => rfl
  | cons c cs ih => simp [ih]
theorem sum_hessCyl_dRdphi {α : Type} (cs : List α) (g : α → HessCyl) : ((cs.map g).sum).dRdphi = (cs.map fun c => (g c).dRdphi).sum := by
  induction cs with
  | nil => rfl
  | cons c cs ih => simp [ih]

theorem isHessCyl_sum {α : Type} (cs : List α) (G : α → PosCyl → GradCyl) (h : α → HessCyl) (p : PosCyl)
    (hh : ∀ c ∈ cs, IsHessCyl (G c) p (h c)) : IsHessCyl (fun q => (cs.map fun c => G c q).sum) p (cs.map h).sum := by
  refine ⟨?_, ?_, ?_⟩
  · have := isGradCyl_sum cs (fun c q => (G c q).dR) (fun c => ⟨(h c).dR2, (h c).dRdz, (h c).dRdphi⟩) p (fun c hc => (hh c hc).1)
    simp only [sum_gradCyl_dR]
    convert this using 1
    ext <;> simp [sum_gradCyl_dR, sum_gradCyl_dz, sum_gradCyl_dphi, sum_hessCyl_dR2, sum_hessCyl_dRdz, sum_hessCyl_dRdphi]
  · have := isGradCyl_sum cs (fun c q => (G c q).dz) (fun c => ⟨(h c).dRdz, (h c).dz2, (h c).dzdphi⟩) p (fun c hc => (hh c hc).2.1)
    simp only [sum_gradCyl_dz]
    convert this using 1
    ext <;> simp [sum_gradCyl_dR, sum_gradCyl_dz, sum_gradCyl_dphi, sum_hessCyl_dRdz, sum_hessCyl_dz2, sum_hessCyl_dzdphi]
  · have := isGradCyl_sum cs (fun c q => (G c q).dphi) (fun c => ⟨(h c).dRdphi, (h c).dzdphi, (h c).dphi2⟩) p (fun c hc => (hh c hc).2.2)
    simp only [sum_gradCyl_dphi]
    convert this using 1
    ext <;> simp [sum_gradCyl_dR, sum_gradCyl_dz, sum_gradCyl_dphi, sum_hessCyl_dRdphi, sum_hessCyl_dzdphi, sum_hessCyl_dphi2]

theorem sum_gradSph_dr {α : Type} (cs : List α) (g : α → GradSph) : ((cs.map g).sum).dr = (cs.map fun c => (g c).dr).sum := by
  induction cs with
  | nil => rfl
  | cons c cs ih => simp [ih]
theorem sum_gradSph_dtheta {α : Type} (cs : List α) (g : α → GradSph) : ((cs.map g).sum).dtheta = (cs.map fun c => (g c).dtheta).sum := by
  induction cs with
  | nil => rfl
  | cons c cs ih => simp [ih]
theorem sum_gradSph_dphi {α : Type} (cs : List α) (g : α → GradSph) : ((cs.map g).sum).dphi = (cs.map fun c => (g c).dphi).sum := by
  induction cs with
  | nil => rfl
  | cons c cs ih => simp [ih]
theorem sum_hessSph_dr2 {α : Type} (cs : List α) (g : α → HessSph) : ((cs.map g).sum).dr2 = (cs.map fun c => (g c).dr2).sum := by
  induction cs with
  | nil => rfl
  | cons c cs ih => simp [ih]
theorem sum_hessSph_dtheta2 {α : Type} (cs : List α) (g : α → HessSph) : ((cs.map g).sum).dtheta2 = (cs.map fun c => (g c).dtheta2).sum := by
  induction cs with
  | nil => rfl
  | cons c cs ih => simp [ih]
theorem sum_hessSph_dphi2 {α : Type} (cs : List α) (g : α → HessSph) : ((cs.map g).sum).dphi2 = (cs.map fun c => (g c).dphi2).sum := by
  induction cs with
  | nil => rfl
  | cons c cs ih => simp [ih]
theorem sum_hessSph_drdtheta {α : Type} (cs : List α) (g : α → HessSph) : ((cs.map g).sum).drdtheta = (cs.map fun c => (g c).drdtheta).sum := by
  induction cs with
  | nil => rfl
  | cons c cs ih => simp [ih]
theorem sum_hessSph_dthetadphi {α : Type} (cs : List α) (g : α → HessSph) : ((cs.map g).sum).dthetadphi = (cs.map fun c => (g c).dthetadphi).sum := by
  induction cs with
  | nil => rfl
  | cons c cs ih => simp [ih]
theorem sum_hessSph_drdphi {α : Type} (cs : List α) (g : α → HessSph) : ((cs.map g).sum).drdphi = (cs.map fun c => (g c).drdphi).sum := by
  induction cs with
  | nil => rfl
  | cons c cs ih => simp [ih]

theorem isHessSph_sum {α : Type} (cs : List α) (G : α → PosSph → GradSph) (h : α → HessSph) (p : PosSph)
    (hh : ∀ c ∈ cs, IsHessSph (G c) p (h c)) : IsHessSph (fun q => (cs.map fun c => G c q).sum) p (cs.map h).sum := by
  refine ⟨?_, ?_, ?_⟩
  · have := isGradSph_sum cs (fun c q => (G c q).dr) (fun c => ⟨(h c).dr2, (h c).drdtheta, (h c).drdphi⟩) p (fun c hc => (hh c hc).1)
    simp only [sum_gradSph_dr]
    convert this using 1
    ext <;> simp [sum_gradSph_dr, sum_gradSph_dtheta, sum_gradSph_dphi, sum_hessSph_dr2, sum_hessSph_drdtheta, sum_hessSph_drdphi]
  · have := isGradSph_sum cs (fun c q => (G c q).dtheta) (fun c => ⟨(h c).drdtheta, (h c).dtheta2, (h c).dthetadphi⟩) p (fun c hc => (hh c hc).2.1)
    simp only [sum_gradSph_dtheta]
    convert this using 1
    ext <;> simp [sum_gradSph_dr, sum_gradSph_dtheta, sum_gradSph_dphi, sum_hessSph_drdtheta, sum_hessSph_dtheta2, sum_hessSph_dthetadphi]
  · have := isGradSph_sum cs (fun c q => (G c q).dphi) (fun c => ⟨(h c).drdphi, (h c).dthetadphi, (h c).dphi2⟩) p (fun c hc => (hh c hc).2.2)
    simp only [sum_gradSph_dphi]
    convert this using 1
    ext <;> simp [sum_gradSph_dr, sum_gradSph_dtheta, sum_gradSph_dphi, sum_hessSph_drdphi, sum_hessSph_dthetadphi, sum_hessSph_dphi2]

theorem Represents.perCyl {c : Potl} {Phi : PosCar → ℝ} (h : Represents c Phi) : PeriodicCyl (fun q => (c.cyl q).pot) := by
  intro R z phi
  simp only [h.2.1, cylToCar, cos_add_two_pi, sin_add_two_pi]

theorem Represents.perSph {c : Potl} {Phi : PosCar → ℝ} (h : Represents c Phi) : PeriodicSph (fun q => (c.sph q).pot) := by
  intro R z phi
  simp only [h.2.2, sphToCar, cos_add_two_pi, sin_add_two_pi]

theorem viaCar_pot {c : Potl} {Phi : PosCar → ℝ} (h : Represents c Phi) (p : PosCar) : (c.viaCar p).pot = Phi p := by
  unfold Potl.viaCar contrib
  split_ifs
  · exact (h.2.1 _).trans (congrArg Phi (C54_car_cyl_car p))
  · exact (h.2.2 _).trans (congrArg Phi (C54_car_sph_car p))
  · exact h.1 p

theorem viaCyl_pot {c : Potl} {Phi : PosCar → ℝ} (h : Represents c Phi) (p : PosCyl) : (c.viaCyl p).pot = Phi (cylToCar p) := by
  unfold Potl.viaCyl contrib
  split_ifs
  · exact h.1 _
  · refine (h.2.2 _).trans (congrArg Phi ?_)
    show sphToCar (cylToSph p) = _
    rw [← C54_triangle_sph, C54_cyl_sph_cyl]
  · exact h.2.1 p

theorem viaSph_pot {c : Potl} {Phi : PosCar → ℝ} (h : Represents c Phi) (p : PosSph) : (c.viaSph p).pot = Phi (sphToCar p) := by
  unfold Potl.viaSph contrib
  split_ifs
  · exact h.1 _
  · exact (h.2.1 _).trans (congrArg Phi (C54_triangle_sph p))
  · exact h.2.2 p

theorem viaCar_ok {c : Potl} {Phi : PosCar → ℝ} (h : Represents c Phi) {p : PosCar} (hg : c.GoodCar p) :
    IsGradCar Phi p (c.viaCar p).grad ∧ IsHessCar (fun q => (c.viaCar q).grad) p (c.viaCar p).hess := by
  have e : Phi = fun q => (c.viaCar q).pot := funext fun q => (viaCar_pot h q).symm
  rw [e]
  obtain ⟨g2, g3, g1⟩ := hg
  by_cases e2 : c.pref = 2
  · obtain ⟨a, ⟨b, b'⟩, d⟩ := g2 e2
    have hv : c.viaCar = fun q => ⟨(c.cyl (carToCyl q)).pot, toGradCylCar (c.cyl (carToCyl q)).grad (derivCarCyl q),
      toHessCylCar (c.cyl (carToCyl q)).grad (c.cyl (carToCyl q)).hess (derivCarCyl q) (deriv2CarCyl q)⟩ := by
      funext q; exact if_pos e2
    rw [hv]
    exact ⟨C57_grad_cyl_car _ p _ a h.perCyl b, C57_hess_cyl_car _ p _ a d b'⟩
  · by_cases e3 : c.pref = 3
    · obtain ⟨a, ⟨b, b'⟩, d⟩ := g3 e3
      have hv : c.viaCar = fun q => ⟨(c.sph (carToSph q)).pot, toGradSphCar (c.sph (carToSph q)).grad (derivCarSph q),
        toHessSphCar (c.sph (carToSph q)).grad (c.sph (carToSph q)).hess (derivCarSph q) (deriv2CarSph q)⟩ := by
        funext q; exact (if_neg e2).trans (if_pos e3)
      rw [hv]
      exact ⟨C57_grad_sph_car _ p _ a h.perSph b, C57_hess_sph_car _ p _ a d b'⟩
    · have hv : c.viaCar = fun q => (c.car q).out := by
        funext q; exact (if_neg e2).trans (if_neg e3)
      rw [hv]
      exact g1 e2 e3

theorem viaCyl_ok {c : Potl} {Phi : PosCar → ℝ} (h : Represents c Phi) {p : PosCyl} (hg : c.GoodCyl p) :
    IsGradCyl (fun q => Phi (cylToCar q)) p (c.viaCyl p).grad ∧ IsHessCyl (fun q => (c.viaCyl q).grad) p (c.viaCyl p).hess := by
  have e : (fun q => Phi (cylToCar q)) = fun q => (c.viaCyl q).pot := funext fun q => (viaCyl_pot h q).symm
  rw [e]
  obtain ⟨g1, g3, g2⟩ := hg
  by_cases e2 : c.pref = 1
  · obtain ⟨b, b'⟩ := g1 e2
    have hv : c.viaCyl = fun q => ⟨(c.car (cylToCar q)).pot, toGradCarCyl (c.car (cylToCar q)).grad (derivCylCar q),
      toHessCarCyl (c.car (cylToCar q)).grad (c.car (cylToCar q)).hess (derivCylCar q) (deriv2CylCar q)⟩ := by
      funext q; exact if_pos e2
    rw [hv]
    exact ⟨C57_grad_car_cyl _ p _ b, C57_hess_car_cyl (fun q => (c.car q).grad) p _ b'⟩
  · by_cases e3 : c.pref = 3
    · obtain ⟨a, ⟨b, b'⟩⟩ := g3 e3
      have hv : c.viaCyl = fun q => ⟨(c.sph (cylToSph q)).pot, toGradSphCyl (c.sph (cylToSph q)).grad (derivCylSph q),
        toHessSphCyl (c.sph (cylToSph q)).grad (c.sph (cylToSph q)).hess (derivCylSph q) (deriv2CylSph q)⟩ := by
        funext q; exact (if_neg e2).trans (if_pos e3)
      rw [hv]
      exact ⟨C57_grad_sph_cyl _ p _ a b, C57_hess_sph_cyl (fun q => (c.sph q).grad) p _ a b'⟩
    · have hv : c.viaCyl = fun q => (c.cyl q).out := by
        funext q; exact (if_neg e2).trans (if_neg e3)
      rw [hv]
      exact g2 e2 e3

theorem viaSph_ok {c : Potl} {Phi : PosCar → ℝ} (h : Represents c Phi) {p : PosSph} (hg : c.GoodSph p) :
    IsGradSph (fun q => Phi (sphToCar q)) p (c.viaSph p).grad ∧ IsHessSph (fun q => (c.viaSph q).grad) p (c.viaSph p).hess := by
  have e : (fun q => Phi (sphToCar q)) = fun q => (c.viaSph q).pot := funext fun q => (viaSph_pot h q).symm
  rw [e]
  obtain ⟨g1, g3, g2⟩ := hg
  by_cases e2 : c.pref = 1
  · obtain ⟨b, b'⟩ := g1 e2
    have hv : c.viaSph = fun q => ⟨(c.car (sphToCar q)).pot, toGradCarSph (c.car (sphToCar q)).grad (derivSphCar q),
      toHessCarSph (c.car (sphToCar q)).grad (c.car (sphToCar q)).hess (derivSphCar q) (deriv2SphCar q)⟩ := by
      funext q; exact if_pos e2
    rw [hv]
    exact ⟨C57_grad_car_sph _ p _ b, C57_hess_car_sph (fun q => (c.car q).grad) p _ b'⟩
  · by_cases e3 : c.pref = 2
    · obtain ⟨b, b'⟩ := g3 e3
      have hv : c.viaSph = fun q => ⟨(c.cyl (sphToCyl q)).pot, toGradCylSph (c.cyl (sphToCyl q)).grad (derivSphCyl q),
        toHessCylSph (c.cyl (sphToCyl q)).grad (c.cyl (sphToCyl q)).hess (derivSphCyl q) (deriv2SphCyl q)⟩ := by
        funext q; exact (if_neg e2).trans (if_pos e3)
      rw [hv]
      exact ⟨C57_grad_cyl_sph _ p _ b, C57_hess_cyl_sph (fun q => (c.cyl q).grad) p _ b'⟩
    · have hv : c.viaSph = fun q => (c.sph q).out := by
        funext q; exact (if_neg e2).trans (if_neg e3)
      rw [hv]
      exact g2 e2 e3

/-- sum of the scalar fields represented by the components -/
noncomputable def total (cs : List (Potl × (PosCar → ℝ))) (p : PosCar) : ℝ := (cs.map fun c => c.2 p).sum

/-- C67, composite potential in Cartesian coordinates: the value is the sum of the components' values; the reported gradient is
the gradient of this sum, and the reported second derivatives are the derivatives of the reported gradient.  Each output is the same whatever
other outputs are requested; outputs that are not requested are not touched. -/
theorem C67_composite_car (cs : List (Potl × (PosCar → ℝ))) (hr : ∀ c ∈ cs, Represents c.1 c.2) (wP wD wD2 : Bool) (p : PosCar) :
    (compositeCar (cs.map (·.1)) p true wD wD2).1 = some (total cs p) ∧
    (compositeCar (cs.map (·.1)) p false wD wD2).1 = none ∧ (compositeCar (cs.map (·.1)) p wP false wD2).2.1 = none ∧
    (compositeCar (cs.map (·.1)) p wP wD false).2.2 = none ∧
    ∃ (G : PosCar → GradCar) (H : HessCar), (∀ q wP wD2, (compositeCar (cs.map (·.1)) q wP true wD2).2.1 = some (G q)) ∧
      (compositeCar (cs.map (·.1)) p wP wD true).2.2 = some H ∧
      ((∀ c ∈ cs, c.1.GoodCar p) → IsGradCar (fun q => total cs q) p (G p) ∧ IsHessCar G p H) := by
  simp only [compositeCar_eq, if_true, List.map_map]
  refine ⟨?_, rfl, rfl, rfl, _, _, fun _ _ _ => rfl, rfl, fun hg => ⟨?_, ?_⟩⟩
  · congr 2
    exact List.map_congr_left fun c hc => viaCar_pot (hr c hc) p
  · exact isGradCar_sum cs (fun c q => c.2 q) (fun c => (c.1.viaCar p).grad) p fun c hc => (viaCar_ok (hr c hc) (hg c hc)).1
  · exact isHessCar_sum cs (fun c q => (c.1.viaCar q).grad) (fun c => (c.1.viaCar p).hess) p fun c hc => (viaCar_ok (hr c hc) (hg c hc)).2

/-- C67, composite potential in cylindrical coordinates: the value is the sum of the components' values; the reported gradient is
the gradient of this sum, and the reported second derivatives are the derivatives of the reported gradient.  Each output is the same whatever
other outputs are requested; outputs that are not requested are not touched. -/
theorem C67_composite_cyl (cs : List (Potl × (PosCar → ℝ))) (hr : ∀ c ∈ cs, Represents c.1 c.2) (wP wD wD2 : Bool) (p : PosCyl) :
    (compositeCyl (cs.map (·.1)) p true wD wD2).1 = some (total cs (cylToCar p)) ∧
    (compositeCyl (cs.map (·.1)) p false wD wD2).1 = none ∧ (compositeCyl (cs.map (·.1)) p wP false wD2).2.1 = none ∧
    (compositeCyl (cs.map (·.1)) p wP wD false).2.2 = none ∧
    ∃ (G : PosCyl → GradCyl) (H : HessCyl), (∀ q wP wD2, (compositeCyl (cs.map (·.1)) q wP true wD2).2.1 = some (G q)) ∧
      (compositeCyl (cs.map (·.1)) p wP wD true).2.2 = some H ∧
      ((∀ c ∈ cs, c.1.GoodCyl p) → IsGradCyl (fun q => total cs (cylToCar q)) p (G p) ∧ IsHessCyl G p H) := by
  simp only [compositeCyl_eq, if_true, List.map_map]
  refine ⟨?_, rfl, rfl, rfl, _, _, fun _ _ _ => rfl, rfl, fun hg => ⟨?_, ?_⟩⟩
  · congr 2
    exact List.map_congr_left fun c hc => viaCyl_pot (hr c hc) p
  · exact isGradCyl_sum cs (fun c q => c.2 (cylToCar q)) (fun c => (c.1.viaCyl p).grad) p fun c hc => (viaCyl_ok (hr c hc) (hg c hc)).1
  · exact isHessCyl_sum cs (fun c q => (c.1.viaCyl q).grad) (fun c => (c.1.viaCyl p).hess) p fun c hc => (viaCyl_ok (hr c hc) (hg c hc)).2

/-- C67, composite potential in spherical coordinates: the value is the sum of the components' values; the reported gradient is
the gradient of this sum, and the reported second derivatives are the derivatives of the reported gradient.  Each output is the same whatever
other outputs are requested; outputs that are not requested are not touched. -/
theorem C67_composite_sph (cs : List (Potl × (PosCar → ℝ))) (hr : ∀ c ∈ cs, Represents c.1 c.2) (wP wD wD2 : Bool) (p : PosSph) :
    (compositeSph (cs.map (·.1)) p true wD wD2).1 = some (total cs (sphToCar p)) ∧
    (compositeSph (cs.map (·.1)) p false wD wD2).1 = none ∧ (compositeSph (cs.map (·.1)) p wP false wD2).2.1 = none ∧
    (compositeSph (cs.map (·.1)) p wP wD false).2.2 = none ∧
    ∃ (G : PosSph → GradSph) (H : HessSph), (∀ q wP wD2, (compositeSph (cs.map (·.1)) q wP true wD2).2.1 = some (G q)) ∧
      (compositeSph (cs.map (·.1)) p wP wD true).2.2 = some H ∧
      ((∀ c ∈ cs, c.1.GoodSph p) → IsGradSph (fun q => total cs (sphToCar q)) p (G p) ∧ IsHessSph G p H) := by
  simp only [compositeSph_eq, if_true, List.map_map]
  refine ⟨?_, rfl, rfl, rfl, _, _, fun _ _ _ => rfl, rfl, fun hg => ⟨?_, ?_⟩⟩
  · congr 2
    exact List.map_congr_left fun c hc => viaSph_pot (hr c hc) p
  · exact isGradSph_sum cs (fun c q => c.2 (sphToCar q)) (fun c => (c.1.viaSph p).grad) p fun c hc => (viaSph_ok (hr c hc) (hg c hc)).1
  · exact isHessSph_sum cs (fun c q => (c.1.viaSph q).grad) (fun c => (c.1.viaSph p).hess) p fun c hc => (viaSph_ok (hr c hc) (hg c hc)).2

/-! ## potentials implemented in one coordinate system, densities -/

/-- `evalAndConvert` (coord.h:830-855): evaluate in the preferred system and convert the result -/
def viaConv {P G H P' G' H' : Type} (c : Conv P G H P' G' H') (ev : P' → Out G' H') (p : P) : Out G H :=
  let o := ev (c.pos p); ⟨o.pot, c.grad p o.grad, c.hess p o.grad o.hess⟩

/-- potential_base.h:206-231 (`BasePotentialCar`) -/
noncomputable def Potl.ofCar (f : PosCar → OutCar) : Potl where
  pref := 1
  car := f
  cyl p := let o := viaConv convCylCar (fun q => (f q).out) p; ⟨o.pot, o.grad, o.hess⟩
  sph p := let o := viaConv convSphCar (fun q => (f q).out) p; ⟨o.pot, o.grad, o.hess⟩
/-- potential_base.h:237-262 (`BasePotentialCyl`) -/
noncomputable def Potl.ofCyl (f : PosCyl → OutCyl) : Potl where
  pref := 2
  car p := let o := viaConv convCarCyl (fun q => (f q).out) p; ⟨o.pot, o.grad, o.hess⟩
  cyl := f
  sph p := let o := viaConv convSphCyl (fun q => (f q).out) p; ⟨o.pot, o.grad, o.hess⟩
/-- potential_base.h:268-293 (`BasePotentialSph`) -/
noncomputable def Potl.ofSph (f : PosSph → OutSph) : Potl where
  pref := 3
  car p := let o := viaConv convCarSph (fun q => (f q).out) p; ⟨o.pot, o.grad, o.hess⟩
  cyl p := let o := viaConv convCylSph (fun q => (f q).out) p; ⟨o.pot, o.grad, o.hess⟩
  sph := f

/-- a potential implemented in one coordinate system has the same value at a point in whichever coordinates the point is given -/
theorem C67_ofCar (f : PosCar → OutCar) : Represents (Potl.ofCar f) (fun p => (f p).pot) := ⟨fun _ => rfl, fun _ => rfl, fun _ => rfl⟩
theorem C67_ofCyl (f : PosCyl → OutCyl) (Phi : PosCar → ℝ) (h : ∀ q, (f q).pot = Phi (cylToCar q)) : Represents (Potl.ofCyl f) Phi :=
  ⟨fun p => (h _).trans (congrArg Phi (C54_car_cyl_car p)), h, fun p => (h _).trans (congrArg Phi (C54_triangle_sph p))⟩
theorem C67_ofSph (f : PosSph → OutSph) (Phi : PosCar → ℝ) (h : ∀ q, (f q).pot = Phi (sphToCar q)) : Represents (Potl.ofSph f) Phi :=
  ⟨fun p => (h _).trans (congrArg Phi (C54_car_sph_car p)),
   fun p => (h _).trans (congrArg Phi (by show sphToCar (cylToSph p) = _; rw [← C54_triangle_sph, C54_cyl_sph_cyl])), h⟩

/-- potential_composite.cpp:202-221, 332-352: sum of the components' densities -/
noncomputable def compositeDens {P : Type} (cs : List (P → ℝ)) (p : P) : ℝ := cs.foldl (fun sum c => sum + c p) 0

/-- potential_composite.cpp:223-257, 354-388: vectorized evaluation; a component is represented by its own vectorized evaluation.
The list of components is not empty (constructor, potential_composite.cpp:197-199, 293-294). -/
noncomputable def compositeMany {P : Type} (c0 : List P → List ℝ) (cs : List (List P → List ℝ)) (pts : List P) : List ℝ :=
  cs.foldl (fun values c => List.zipWith (· + ·) values (c pts)) (c0 pts)

/-- potential_composite.cpp:259-264, 390-396: `totalMass` -/
noncomputable def compositeMass (ms : List ℝ) : ℝ := ms.foldl (fun sum m => sum + m) 0

/-- C67: density (and total mass) of the composite is the sum over components -/
theorem C67_density_sum {P : Type} (cs : List (P → ℝ)) (p : P) : compositeDens cs p = (cs.map fun c => c p).sum := by
  have : ∀ a : ℝ, cs.foldl (fun sum c => sum + c p) a = a + (cs.map fun c => c p).sum := by
    induction cs with
    | nil => simp
    | cons c cs ih => intro a; simp only [List.foldl_cons, List.map_cons, List.sum_cons]; rw [ih]; ring
  rw [compositeDens, this, zero_add]

theorem C67_mass_sum (ms : List ℝ) : compositeMass ms = ms.sum := by
  have := C67_density_sum (P := Unit) (ms.map fun m _ => m) ()
  rw [compositeMass]
  have h2 : ms.foldl (fun sum m => sum + m) 0 = compositeDens (P := Unit) (ms.map fun m _ => m) () := by
    rw [compositeDens, List.foldl_map]
  rw [h2, this, List.map_map]; simp [Function.comp_def]

/-- C67: vectorized evaluation gives, for every point, the same as evaluating the composite density at this point -/
theorem C67_density_many {P : Type} (c0 : P → ℝ) (cs : List (P → ℝ)) (pts : List P) :
    compositeMany (fun l => l.map c0) (cs.map fun c l => l.map c) pts = pts.map (compositeDens (c0 :: cs)) := by
  have : ∀ f : P → ℝ, (cs.map fun c (l : List P) => l.map c).foldl (fun values c => List.zipWith (· + ·) values (c pts)) (pts.map f) =
      pts.map fun p => cs.foldl (fun sum c => sum + c p) (f p) := by
    induction cs with
    | nil => intro f; simp
    | cons c cs ih =>
      intro f
      simp only [List.map_cons, List.foldl_cons]
      rw [List.zipWith_map_left, List.zipWith_map_right, List.zipWith_self, ih]
  rw [compositeMany, this]
  simp [compositeDens]

/-- C67: Poisson's equation for the composite: if each component's density is that given by Poisson's equation, so is the sum -/
theorem C67_poisson (cs : List (HessCar × ℝ)) (h : ∀ c ∈ cs, c.2 = poisson c.1) :
    (cs.map (·.2)).sum = poisson (cs.map (·.1)).sum := by
  induction cs with
  | nil => simp [poisson]
  | cons c cs ih =>
    simp only [List.map_cons, List.sum_cons]
    rw [ih fun d hd => h d (by simp [hd]), h c (by simp)]
    simp only [poisson, HessCar_add_dx2, HessCar_add_dy2, HessCar_add_dz2]; ring

/-- non-vacuity: a Miyamoto–Nagai disk (cylindrical) plus a harmonic potential (Cartesian), at the point (3,4,1) -/
example : ∃ cs : List (Potl × (PosCar → ℝ)), cs.length = 2 ∧ (∀ c ∈ cs, Represents c.1 c.2) ∧ ∀ c ∈ cs, c.1.GoodCar ⟨3, 4, 1⟩ := by
  let mn := miyamotoNagai 1 3 0.5
  have hmn : ∀ q, (mn q).pot = (fun p : PosCar => (mn ⟨√(p.x ^ 2 + p.y ^ 2), p.z, 0⟩).pot) (cylToCar q) := by
    intro q
    have : √((q.R * cos q.phi) ^ 2 + (q.R * sin q.phi) ^ 2) ^ 2 = q.R ^ 2 := by
      rw [sq_sqrt (by positivity)]
      linear_combination q.R ^ 2 * sin_sq_add_cos_sq q.phi
    simp only [mn, miyamotoNagai, cylToCar, this]
  refine ⟨[(Potl.ofCyl mn, fun p : PosCar => (mn ⟨√(p.x ^ 2 + p.y ^ 2), p.z, 0⟩).pot),
    (Potl.ofCar (harmonic 1 2 3), fun p => (harmonic 1 2 3 p).pot)], rfl, ?_, ?_⟩
  · intro c hc
    simp only [List.mem_cons, List.not_mem_nil, or_false] at hc
    rcases hc with rfl | rfl
    · exact C67_ofCyl _ _ hmn
    · exact C67_ofCar _
  · intro c hc
    simp only [List.mem_cons, List.not_mem_nil, or_false] at hc
    rcases hc with rfl | rfl
    · refine ⟨fun _ => ⟨by norm_num, ?_, ?_⟩, fun h => absurd h (by simp [Potl.ofCyl]), fun h => absurd rfl h⟩
      · exact C62_miyamotoNagai 1 3 0.5 _ (by norm_num) (by simp [carToCyl]; norm_num)
      · intro R z phi; rfl
    · refine ⟨fun h => absurd h (by simp [Potl.ofCar]), fun h => absurd h (by simp [Potl.ofCar]), fun _ _ => C62_harmonic 1 2 3 _⟩

end Verif.Pot
