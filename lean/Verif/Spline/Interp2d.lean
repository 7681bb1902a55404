import Verif.Spline.Quintic
import Verif.Spline.Regularize

/-! Model of the two- and three-dimensional interpolators (math_spline.cpp:2147-2840), in exact real arithmetic. A `std::vector<double>` or a flattened matrix is a function on the naturals, with sizes given separately. -/

namespace Verif.Spline

open Verif.BSpline (Grid)

noncomputable section

/-- The outputs z, z_x, z_y, z_xx, z_xy, z_yy. -/
@[ext] structure Jet2 where
  z : ℝ
  zx : ℝ
  zy : ℝ
  zxx : ℝ
  zxy : ℝ
  zyy : ℝ

/-- Arrays of a two-dimensional interpolator: nodes in each direction. -/
structure Nodes2 where
  x : ℕ → ℝ
  nx : ℕ
  y : ℕ → ℝ
  ny : ℕ

/-- math_spline.cpp:2186, 2299, 2574: the point is outside the grid -/
def Nodes2.off (g : Nodes2) (xi yi : ℤ) : Prop := xi < 0 ∨ xi ≥ (g.nx : ℤ) - 1 ∨ yi < 0 ∨ yi ≥ (g.ny : ℤ) - 1

open Classical in
/-- math_spline.cpp:2170-2206, LinearInterpolator2d::evalDeriv for non-empty arrays and numbers x, y. The first component is z, z_x, z_y (`none` if all are NaN), the second one is z_xx, z_xy, z_yy (line 2176). -/
def LinearInterpolator2d.evalDeriv (g : Nodes2) (fval : ℕ → ℝ) (x y : ℝ) : Option (ℝ × ℝ × ℝ) × (ℝ × ℝ × ℝ) :=
  let xi := bin g.x g.nx x
  let yi := bin g.y g.ny y
  if g.off xi yi then (none, 0, 0, 0) else
  let i := xi.toNat
  let j := yi.toNat
  let ill := i * g.ny + j
  let ilu := ill + 1
  let iul := ill + g.ny
  let iuu := iul + 1
  let zlowlow := fval ill
  let zlowupp := fval ilu
  let zupplow := fval iul
  let zuppupp := fval iuu
  let dx := g.x (i + 1) - g.x i
  let dy := g.y (j + 1) - g.y j
  let t := (x - g.x i) / dx
  let u := (y - g.y j) / dy
  let T := 1 - t
  let U := 1 - u
  (some (T * (U * zlowlow + u * zlowupp) + t * (U * zupplow + u * zuppupp),
    (U * (zupplow - zlowlow) + u * (zuppupp - zlowupp)) / dx,
    (T * (zlowupp - zlowlow) + t * (zuppupp - zupplow)) / dy), 0, 0, 0)

open Classical in
/-- math_spline.cpp:2281-2341, CubicSpline2d::evalDeriv when all outputs are requested (each of them does not depend on which other ones are requested). `none`: all outputs are NaN. -/
def CubicSpline2d.evalDeriv (g : Nodes2) (fval fx fy fxy : ℕ → ℝ) (x y : ℝ) : Option Jet2 :=
  let xi := bin g.x g.nx x
  let yi := bin g.y g.ny y
  if g.off xi yi then none else
  let i := xi.toNat
  let j := yi.toNat
  let ill := i * g.ny + j
  let ilu := ill + 1
  let iul := ill + g.ny
  let iuu := iul + 1
  let xlow := g.x i
  let xupp := g.x (i + 1)
  let ylow := g.y j
  let yupp := g.y (j + 1)
  let off := if x = xupp then (if y = yupp then fval iuu else fval iul) else (if y = yupp then fval ilu else fval ill)
  let F0 := evalCubic y ylow yupp (fval ill - off) (fval ilu - off) (fy ill) (fy ilu)
  let F1 := evalCubic y ylow yupp (fval iul - off) (fval iuu - off) (fy iul) (fy iuu)
  let F2 := evalCubic y ylow yupp (fx ill) (fx ilu) (fxy ill) (fxy ilu)
  let F3 := evalCubic y ylow yupp (fx iul) (fx iuu) (fxy iul) (fxy iuu)
  let a := evalCubic x xlow xupp F0.val F1.val F2.val F3.val
  let b := evalCubic x xlow xupp F0.der F1.der F2.der F3.der
  let c := evalCubic x xlow xupp F0.der2 F1.der2 F2.der2 F3.der2
  some { z := a.val + off, zx := a.der, zxx := a.der2, zy := b.val, zxy := b.der, zyy := c.val }

open Classical in
/-- math_spline.cpp:2552-2623, QuinticSpline2d::evalDeriv when all outputs are requested. -/
def QuinticSpline2d.evalDeriv (g : Nodes2) (fval fx fy fxx fxy fyy fxxy fxyy fxxyy : ℕ → ℝ) (x y : ℝ) : Option Jet2 :=
  let xi := bin g.x g.nx x
  let yi := bin g.y g.ny y
  if g.off xi yi then none else
  let i := xi.toNat
  let j := yi.toNat
  let ill := i * g.ny + j
  let ilu := ill + 1
  let iul := ill + g.ny
  let iuu := iul + 1
  let xlow := g.x i
  let xupp := g.x (i + 1)
  let ylow := g.y j
  let yupp := g.y (j + 1)
  let off := if x = xupp then (if y = yupp then fval iuu else fval iul) else (if y = yupp then fval ilu else fval ill)
  let F0 := evalQuintic y ylow yupp (fval ill - off) (fval ilu - off) (fy ill) (fy ilu) (fyy ill) (fyy ilu)
  let F1 := evalQuintic y ylow yupp (fval iul - off) (fval iuu - off) (fy iul) (fy iuu) (fyy iul) (fyy iuu)
  let F2 := evalQuintic y ylow yupp (fx ill) (fx ilu) (fxy ill) (fxy ilu) (fxyy ill) (fxyy ilu)
  let F3 := evalQuintic y ylow yupp (fx iul) (fx iuu) (fxy iul) (fxy iuu) (fxyy iul) (fxyy iuu)
  let F4 := evalQuintic y ylow yupp (fxx ill) (fxx ilu) (fxxy ill) (fxxy ilu) (fxxyy ill) (fxxyy ilu)
  let F5 := evalQuintic y ylow yupp (fxx iul) (fxx iuu) (fxxy iul) (fxxy iuu) (fxxyy iul) (fxxyy iuu)
  let a := evalQuintic x xlow xupp F0.val F1.val F2.val F3.val F4.val F5.val
  let b := evalQuintic x xlow xupp F0.der F1.der F2.der F3.der F4.der F5.der
  let c := evalQuintic x xlow xupp F0.der2 F1.der2 F2.der2 F3.der2 F4.der2 F5.der2
  some { z := a.val + off, zx := a.der, zxx := a.der2, zy := b.val, zxy := b.der, zyy := c.val }

/-- Nodes of a three-dimensional interpolator. -/
structure Nodes3 where
  x : ℕ → ℝ
  nx : ℕ
  y : ℕ → ℝ
  ny : ℕ
  z : ℕ → ℝ
  nz : ℕ

/-- math_spline.cpp:2660, 2844: the point is outside the grid -/
def Nodes3.off (g : Nodes3) (xi yi zi : ℤ) : Prop := xi < 0 ∨ xi ≥ (g.nx : ℤ) - 1 ∨ yi < 0 ∨ yi ≥ (g.ny : ℤ) - 1 ∨ zi < 0 ∨ zi ≥ (g.nz : ℤ) - 1

open Classical in
/-- math_spline.cpp:2647-2683, LinearInterpolator3d::value; `none` is NaN. -/
def LinearInterpolator3d.value (g : Nodes3) (fval : ℕ → ℝ) (x y z : ℝ) : Option ℝ :=
  let xi := bin g.x g.nx x
  let yi := bin g.y g.ny y
  let zi := bin g.z g.nz z
  if g.off xi yi zi then none else
  let i := xi.toNat
  let j := yi.toNat
  let k := zi.toNat
  let il := (i * g.ny + j) * g.nz + k
  let iu := il + g.ny * g.nz
  let offx := (x - g.x i) / (g.x (i + 1) - g.x i)
  let offX := 1 - offx
  let offy := (y - g.y j) / (g.y (j + 1) - g.y j)
  let offY := 1 - offy
  let offz := (z - g.z k) / (g.z (k + 1) - g.z k)
  let offZ := 1 - offz
  let flll := fval il
  let fllu := fval (il + 1)
  let flul := fval (il + g.nz)
  let fluu := fval (il + g.nz + 1)
  let full := fval iu
  let fulu := fval (iu + 1)
  let fuul := fval (iu + g.nz)
  let fuuu := fval (iu + g.nz + 1)
  some ((offY * (offZ * flll + offz * fllu) + offy * (offZ * flul + offz * fluu)) * offX +
    (offY * (offZ * full + offz * fulu) + offy * (offZ * fuul + offz * fuuu)) * offx)

/-- The arrays of CubicSpline3d. -/
structure Data3 where
  f : ℕ → ℝ
  fx : ℕ → ℝ
  fy : ℕ → ℝ
  fz : ℕ → ℝ
  fxy : ℕ → ℝ
  fxz : ℕ → ℝ
  fyz : ℕ → ℝ
  fxyz : ℕ → ℝ

open Classical in
/-- math_spline.cpp:2832-2898, CubicSpline3d::value; `none` is NaN. The arrays fl, fu, fxl, fxu of 16 elements are given by the index 4c+e, where e tells which of the arrays f (or f_x), f_z at zlow or zupp is used, and c stands for f or f_y at ylow or yupp. -/
def CubicSpline3d.value (g : Nodes3) (d : Data3) (x y z : ℝ) : Option ℝ :=
  let xi := bin g.x g.nx x
  let yi := bin g.y g.ny y
  let zi := bin g.z g.nz z
  if g.off xi yi zi then none else
  let i := xi.toNat
  let j := yi.toNat
  let k := zi.toNat
  let illl := (i * g.ny + j) * g.nz + k
  let illu := illl + 1
  let ilul := illl + g.nz
  let iluu := ilul + 1
  let iull := illl + g.ny * g.nz
  let iulu := iull + 1
  let iuul := iull + g.nz
  let iuuu := iuul + 1
  let fl : List ℝ := [d.f illl, d.f illu, d.fz illl, d.fz illu, d.f ilul, d.f iluu, d.fz ilul, d.fz iluu,
    d.fy illl, d.fy illu, d.fyz illl, d.fyz illu, d.fy ilul, d.fy iluu, d.fyz ilul, d.fyz iluu]
  let fu : List ℝ := [d.f iull, d.f iulu, d.fz iull, d.fz iulu, d.f iuul, d.f iuuu, d.fz iuul, d.fz iuuu,
    d.fy iull, d.fy iulu, d.fyz iull, d.fyz iulu, d.fy iuul, d.fy iuuu, d.fyz iuul, d.fyz iuuu]
  let fxl : List ℝ := [d.fx illl, d.fx illu, d.fxz illl, d.fxz illu, d.fx ilul, d.fx iluu, d.fxz ilul, d.fxz iluu,
    d.fxy illl, d.fxy illu, d.fxyz illl, d.fxyz illu, d.fxy ilul, d.fxy iluu, d.fxyz ilul, d.fxyz iluu]
  let fxu : List ℝ := [d.fx iull, d.fx iulu, d.fxz iull, d.fxz iulu, d.fx iuul, d.fx iuuu, d.fxz iuul, d.fxz iuuu,
    d.fxy iull, d.fxy iulu, d.fxyz iull, d.fxyz iulu, d.fxy iuul, d.fxy iuuu, d.fxyz iuul, d.fxyz iuuu]
  let F : ℕ → ℝ := fun e => (evalCubic x (g.x i) (g.x (i + 1)) (fl.getD e 0) (fu.getD e 0) (fxl.getD e 0) (fxu.getD e 0)).val
  let FF : ℕ → ℝ := fun e => (evalCubic y (g.y j) (g.y (j + 1)) (F e) (F (e + 4)) (F (e + 8)) (F (e + 12))).val
  some (evalCubic z (g.z k) (g.z (k + 1)) (FF 0) (FF 1) (FF 2) (FF 3)).val

/-! ### construction -/

/-- the loops over one direction: for each of m rows, the derivatives at n nodes obtained from the values `v row`; `none` if any of the constructions fails -/
def rows (m : ℕ) (deriv : (ℕ → ℝ) → Option (ℕ → ℝ)) (v : ℕ → ℕ → ℝ) : Option (ℕ → ℕ → ℝ) :=
  if ∀ i < m, (deriv (v i)).isSome then some fun i => (deriv (v i)).getD 0 else none

/-- math_spline.cpp:2211-2279, CubicSpline2d constructor: the arrays fx, fy, fxy (two indices instead of the flattened array); non-finite derivatives at the boundaries are `none` -/
def CubicSpline2d.create (g : Nodes2) (f : ℕ → ℕ → ℝ) (regularize : Bool) (xmin xmax ymin ymax : Option ℝ) : Option ((ℕ → ℕ → ℝ) × (ℕ → ℕ → ℝ) × (ℕ → ℕ → ℝ)) := do
  -- step 1
  let fy ← rows g.nx (fun v => CubicSpline.create g.y v g.ny regularize ymin ymax) f
  -- step 2
  let fxT ← rows g.ny (fun v => CubicSpline.create g.x v g.nx regularize xmin xmax) fun j i => f i j
  -- step 3
  let fxyT ← rows g.ny (fun v => CubicSpline.create g.x v g.nx regularize (xmin.map fun _ => 0) (xmax.map fun _ => 0)) fun j i => fy i j
  let fxy := fun i j => if (j = 0 ∧ ymin.isSome) ∨ (j = g.ny - 1 ∧ ymax.isSome) then 0 else fxyT j i
  -- step 4
  return (fun i j => fxT j i, fy, if regularize then fun i => regularizeSpline g.y (fun j => fxT j i) g.ny (fxy i) else fxy)

/-- math_spline.cpp:2496-2550, QuinticSpline2d::setupWithMixedDeriv: fxx, fyy, fxxy, fxyy, fxxyy -/
def QuinticSpline2d.setupMixed (g : Nodes2) (f fx fy fxy : ℕ → ℕ → ℝ) : Option ((ℕ → ℕ → ℝ) × (ℕ → ℕ → ℝ) × (ℕ → ℕ → ℝ) × (ℕ → ℕ → ℝ) × (ℕ → ℕ → ℝ)) := do
  let quint (x : ℕ → ℝ) (n m : ℕ) (v d : ℕ → ℕ → ℝ) : Option (ℕ → ℕ → ℝ) :=
    if ∀ i < m, (constructQuinticSpline x (v i) (d i) n).isSome then some fun i => (constructQuinticSpline x (v i) (d i) n).getD 0 else none
  let fxxT ← quint g.x g.nx g.ny (fun j i => f i j) (fun j i => fx i j)
  let fxxyT ← quint g.x g.nx g.ny (fun j i => fy i j) (fun j i => fxy i j)
  let fyy ← quint g.y g.ny g.nx f fy
  let fxyy ← quint g.y g.ny g.nx fx fxy
  let fxxyy ← quint g.y g.ny g.nx (fun i j => fxxT j i) (fun i j => fxxyT j i)
  return (fun i j => fxxT j i, fyy, fun i j => fxxyT j i, fxyy, fxxyy)

end

end Verif.Spline
