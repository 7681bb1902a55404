import Verif.Core.BinSearch
import Verif.Coord.Model
import Verif.SphHarm.Fourier
import Verif.SphHarm.Legendre

/-! Spatial discretization schemes (galaxymodel_densitygrid.cpp): model. Real arithmetic. The output array is updated by a list of increments (index, value), in the order in which the code makes them. -/

namespace Verif.DensGrid

open Real Verif.Coord Verif.BinSearch

noncomputable section

/-- increments of the output array: `values[index] += value` -/
abbrev Upd := List (ℤ × ℝ)

/-- the array after the increments -/
def applyUpd (v : ℤ → ℝ) (l : Upd) : ℤ → ℝ := l.foldl (fun v u => Function.update v u.1 (v u.1 + u.2)) v

/-- `math::binSearch(x, grid, size) + 1` (C11), galaxymodel_densitygrid.cpp:175, 381, 510-511 -/
def locate (grid : List ℝ) (x : ℝ) : ℤ := (binSearch (guessR id x (grid.headD 0) (grid.getLastD 0) grid.length) (some x) grid).getD (-2) + 1

/-- element of the grid with a signed index (only used for valid indices, which is a part of the proved properties) -/
def at' (grid : List ℝ) (i : ℤ) : ℝ := (arrAt grid i).getD 0

open Classical in
/-- galaxymodel_densitygrid.cpp:157, 362, 492-493: skip the first element of the grid if it is not positive -/
def skipZero (grid : List ℝ) : List ℝ := match grid with
  | [] => []
  | a :: l => if a > 0 then a :: l else l

/-- galaxymodel_densitygrid.cpp:162-164, 364-366, 496-500: the grid is not empty, positive and increasing -/
def okGrid (grid : List ℝ) : Prop := grid.length ≥ 1 ∧ at' grid 0 > 0 ∧ ∀ i : ℕ, 1 ≤ i → i < grid.length → at' grid i > at' grid (i - 1 : ℕ)

/-! ### Classic scheme -/

/-- members of TargetDensityClassic, galaxymodel_densitygrid.h:67-70 -/
structure Classic where
  S : ℕ
  radii : List ℝ
  axisX : ℝ
  axisY : ℝ
  axisZ : ℝ

open Classical in
/-- galaxymodel_densitygrid.cpp:148-167, the constructor; `none` is an exception. Overflow of the unsigned number of values is not modelled. -/
def mkClassic (S : ℕ) (gridr : List ℝ) (yx zx : ℝ) : Option Classic :=
  let radii := skipZero gridr
  let ax := 1 / (yx * zx) ^ (1 / 3 : ℝ)
  if ¬ okGrid radii ∨ S < 1 ∨ radii.length < 1 ∨ yx ≤ 0 ∨ zx ≤ 0 then none
  else some ⟨S, radii, ax, yx * ax, zx * ax⟩

/-- galaxymodel_densitygrid.cpp:155 -/
def Classic.perShell (g : Classic) (N : ℕ) : ℕ := 3 * g.S * (g.S + N) + N
/-- galaxymodel_densitygrid.h:91 -/
def Classic.numValues (g : Classic) (N : ℕ) : ℕ := g.perShell N * g.radii.length + N

/-- galaxymodel_densitygrid.cpp:69 -/
def cell0 (S : ℕ) (pane ind1 ind2 : ℤ) : ℤ := ind1 + (ind2 + pane * S) * S

/-- galaxymodel_densitygrid.cpp:75-87: indll, indul, indlu, induu -/
def corners1 (S : ℕ) (pane ind1 ind2 : ℤ) : ℤ × ℤ × ℤ × ℤ :=
  let indll := ind1 + (ind2 + pane * S) * (S + 1)
  let indul := indll + 1
  if ind2 < S - 1 then
    let indlu := indll + S + 1
    (indll, indul, indlu, indlu + 1)
  else
    let adjpane := (pane + 2) % 3
    let indlu := (ind1 + adjpane * S + 1) * (S + 1) - 1
    (indll, indul, indlu, if ind1 < S - 1 then indlu + S + 1 else 3 * S * (S + 1))

open Classical in
/-- galaxymodel_densitygrid.cpp:180-198: the pane and the permuted coordinates; `none` is an exception -/
def selectPane (X Y Z : ℝ) : Option (ℤ × ℝ × ℝ × ℝ) :=
  if X ≥ Y ∧ X > Z then some (0, X, Y, Z)
  else if Y ≥ Z ∧ Y > X then some (1, Y, Z, X)
  else if Z ≥ X ∧ Z ≥ Y then some (2, Z, X, Y)
  else none

open Classical in
/-- galaxymodel_densitygrid.cpp:202-203. At the origin the argument of atan is NaN, and fmin(NaN,1)=1. -/
def ratioOf (S : ℕ) (c0 c : ℝ) : ℝ := (if c0 = 0 then 1 else min (arctan (c / c0) * (4 / π)) 1) * S

/-- galaxymodel_densitygrid.cpp:204-205: truncation of a non-negative number -/
def indOf (S : ℕ) (ratio : ℝ) : ℤ := min ⌊ratio⌋ ((S : ℤ) - 1)

/-- galaxymodel_densitygrid.cpp:173-174: scaled coordinates -/
def Classic.sx (g : Classic) (p : PosCar) : ℝ := |p.x / g.axisX|
def Classic.sy (g : Classic) (p : PosCar) : ℝ := |p.y| / g.axisY
def Classic.sz (g : Classic) (p : PosCar) : ℝ := |p.z| / g.axisZ
def Classic.rad (g : Classic) (p : PosCar) : ℝ := √(g.sx p * g.sx p + g.sy p * g.sy p + g.sz p * g.sz p)

/-- galaxymodel_densitygrid.cpp:221-224 and 231-234: four increments at one end of the radial segment -/
def quad (off : ℤ) (c : ℤ × ℤ × ℤ × ℤ) (f1 f2 val : ℝ) : Upd :=
  [(off + c.1, (1 - f1) * (1 - f2) * val), (off + c.2.1, f1 * (1 - f2) * val), (off + c.2.2.1, (1 - f1) * f2 * val), (off + c.2.2.2, f1 * f2 * val)]

open Classical in
/-- galaxymodel_densitygrid.cpp:214-235: the increments for N=1, when the cell is known -/
def Classic.incr1 (g : Classic) (indShell pane ind1 ind2 : ℤ) (r f1 f2 mult : ℝ) : Upd :=
  let val := if indShell = 0 then mult * r / at' g.radii 0 else mult * (r - at' g.radii (indShell - 1)) / (at' g.radii indShell - at' g.radii (indShell - 1))
  let off := indShell * g.perShell 1 + 1
  let c := corners1 g.S pane ind1 ind2
  quad off c f1 f2 val ++ (if indShell = 0 then [(0, mult - val)] else quad (off - g.perShell 1) c f1 f2 (mult - val))

open Classical in
/-- galaxymodel_densitygrid.cpp:170-238, TargetDensityClassic<0>::addPoint -/
def Classic.add0 (g : Classic) (p : PosCar) (mult : ℝ) : Option Upd :=
  let indShell := locate g.radii (g.rad p)
  if indShell ≥ g.radii.length ∨ mult = 0 then some []
  else do
    let (pane, c0, c1, c2) ← selectPane (g.sx p) (g.sy p) (g.sz p)
    let ind1 := indOf g.S (ratioOf g.S c0 c1)
    let ind2 := indOf g.S (ratioOf g.S c0 c2)
    some [(cell0 g.S pane ind1 ind2 + indShell * g.perShell 0, mult)]

open Classical in
/-- galaxymodel_densitygrid.cpp:170-238, TargetDensityClassic<1>::addPoint -/
def Classic.add1 (g : Classic) (p : PosCar) (mult : ℝ) : Option Upd :=
  let indShell := locate g.radii (g.rad p)
  if indShell ≥ g.radii.length ∨ mult = 0 then some []
  else do
    let (pane, c0, c1, c2) ← selectPane (g.sx p) (g.sy p) (g.sz p)
    let ratio1 := ratioOf g.S c0 c1
    let ratio2 := ratioOf g.S c0 c2
    let ind1 := indOf g.S ratio1
    let ind2 := indOf g.S ratio2
    some (g.incr1 indShell pane ind1 ind2 (g.rad p) (ratio1 - ind1) (ratio2 - ind2) mult)

/-- galaxymodel_densitygrid.cpp:340-344: the position in the name of the coefficient (only the numbers, not the text) -/
def Classic.place (g : Classic) (radius : ℝ) (pane : ℕ) (c0 c1 c2 : ℝ) : PosCar :=
  let denom := 1 / √(c0 ^ 2 + c1 ^ 2 + c2 ^ 2)
  let coord : ℕ → ℝ := fun i => if i = 0 then c0 else if i = 1 then c1 else c2
  ⟨radius * denom * coord ((3 - pane) % 3) * g.axisX, radius * denom * coord ((4 - pane) % 3) * g.axisY, radius * denom * coord ((5 - pane) % 3) * g.axisZ⟩

/-- galaxymodel_densitygrid.cpp:307-319, 340-344, TargetDensityClassic<0>::coefName; `none` is an exception -/
def Classic.name0 (g : Classic) (index : ℕ) : Option PosCar :=
  if index ≥ g.numValues 0 then none
  else
    let indShell := index / g.perShell 0
    let ind1 := index % g.S
    let ind2 := index / g.S % g.S
    let pane := index % g.perShell 0 / (g.S * g.S)
    some (g.place (0.5 * (at' g.radii indShell + (if indShell > 0 then at' g.radii ((indShell : ℤ) - 1) else 0))) pane 1
      (tan (π / 4 * (ind1 + 0.5) / g.S)) (tan (π / 4 * (ind2 + 0.5) / g.S)))

/-- galaxymodel_densitygrid.cpp:307, 320-337, 340-344, TargetDensityClassic<1>::coefName; `none` is an exception -/
def Classic.name1 (g : Classic) (index : ℕ) : Option PosCar :=
  if index ≥ g.numValues 1 then none
  else if index = 0 then some (g.place 0 0 1 0 0)
  else
    let radius := at' g.radii (((index - 1) / g.perShell 1 : ℕ) : ℤ)
    let index := (index - 1) % g.perShell 1
    if index = g.perShell 1 - 1 then some (g.place radius 0 1 1 1)
    else
      let pane := index / (g.S * (g.S + 1))
      let index := index % (g.S * (g.S + 1))
      some (g.place radius pane 1 (tan (π / 4 * ((index % (g.S + 1) : ℕ) : ℝ) / g.S)) (tan (π / 4 * ((index / (g.S + 1) : ℕ) : ℝ) / g.S)))

/-! ### Spherical harmonics -/

/-- members of TargetDensitySphHarm, galaxymodel_densitygrid.h:111-113 -/
structure SHGrid where
  lmax : ℕ
  mmax : ℕ
  gridr : List ℝ

open Classical in
/-- galaxymodel_densitygrid.cpp:356-369, the constructor; `none` is an exception -/
def mkSphHarm (lmax mmax : ℤ) (gridr : List ℝ) : Option SHGrid :=
  if ¬ (lmax ≥ 0 ∧ mmax ≥ 0 ∧ mmax ≤ lmax ∧ okGrid (skipZero gridr)) then none
  else some ⟨lmax.toNat, mmax.toNat, skipZero gridr⟩

/-- galaxymodel_densitygrid.cpp:360 -/
def SHGrid.angularCoefs (g : SHGrid) : ℕ := (g.lmax / 2 + 1) * (g.mmax / 2 + 1) - g.mmax / 2 * (g.mmax / 2 + 1) / 2
/-- galaxymodel_densitygrid.h:132 -/
def SHGrid.numValues (g : SHGrid) : ℕ := g.angularCoefs * g.gridr.length + 1

open Classical in
/-- galaxymodel_densitygrid.cpp:404-409: the loop over l=m,m+2,..≤lmax; returns the increments and the new offset. `leg l` is leg[l-m], `fac` is 1 or √2 cos(m φ) -/
def SHGrid.loopL (g : SHGrid) (indr : ℤ) (offr mult fac : ℝ) (leg : ℕ → ℝ) : ℕ → ℕ → ℤ → Upd × ℤ
  | 0, _, off => ([], off)
  | fuel + 1, l, off =>
    if l > g.lmax then ([], off)
    else
      let val := mult * leg l * 2 * √π * fac
      let rest := SHGrid.loopL g indr offr mult fac leg fuel (l + 2) (off + g.gridr.length)
      ([(off, val * offr)] ++ (if indr > 0 ∨ l = 0 then [(off - 1, val * (1 - offr))] else []) ++ rest.1, rest.2)

open Classical in
/-- galaxymodel_densitygrid.cpp:402-410: the loop over m=0,2,..≤mmax. `leg m l` is the value of the Legendre function (the output of sphHarmArray), `trig m` is cos(m φ) (the output of trigMultiAngle) -/
def SHGrid.loopM (g : SHGrid) (indr : ℤ) (offr mult : ℝ) (leg : ℕ → ℕ → ℝ) (trig : ℕ → ℝ) : ℕ → ℕ → ℤ → Upd
  | 0, _, _ => []
  | fuel + 1, m, off =>
    if m > g.mmax then []
    else
      let u := g.loopL indr offr mult (if m = 0 then 1 else √2 * trig m) (leg m) (g.lmax + 1) m off
      u.1 ++ SHGrid.loopM g indr offr mult leg trig fuel (m + 2) u.2

/-- leg[l-m] after sphHarmArray(lmax, m, tau, leg) (math_sphharm.cpp, C48) -/
def legAt (lmax m : ℕ) (tau : ℝ) (l : ℕ) : ℝ := match Verif.SphHarm.sphHarmArray lmax m tau with
  | none => 0
  | some a => match a[l - m]? with
    | none => 0
    | some o => o.val

/-- trig[m-1] after trigMultiAngle(phi, mmax, false, trig) (math_sphharm.cpp, C29) -/
def trigAt (mmax : ℕ) (phi : ℝ) (m : ℕ) : ℝ := ((Verif.Fourier.trigMultiAngle phi mmax false)[m - 1]?).getD 0

open Classical in
/-- galaxymodel_densitygrid.cpp:371-411, TargetDensitySphHarm::addPoint -/
def SHGrid.add (g : SHGrid) (p : PosCar) (mult : ℝ) : Upd :=
  let c := carToCyl p
  let r := √(c.R ^ 2 + c.z ^ 2)
  let tau := c.z / (r + c.R)
  if r = 0 then [(0, mult)]
  else
    let indr := locate g.gridr r
    if indr ≥ g.gridr.length ∨ mult = 0 then []
    else
      let offr := if indr = 0 then r / at' g.gridr 0 else (r - at' g.gridr (indr - 1)) / (at' g.gridr indr - at' g.gridr (indr - 1))
      g.loopM indr offr mult (fun m => legAt g.lmax m tau) (trigAt g.mmax c.phi) (g.mmax + 1) 0 (indr + 1)

/-- galaxymodel_densitygrid.cpp:473-476: while loop of coefName -/
def SHGrid.nameLoop (g : SHGrid) : ℕ → ℕ → ℕ → ℕ × ℕ
  | 0, index, m => (index, m)
  | fuel + 1, index, m => if index ≥ g.gridr.length * (1 + g.lmax / 2 - m / 2) then SHGrid.nameLoop g fuel (index - g.gridr.length * (1 + g.lmax / 2 - m / 2)) (m + 2) else (index, m)

/-- galaxymodel_densitygrid.cpp:465-479, coefName: (r, l, m) in the name of the coefficient -/
def SHGrid.name (g : SHGrid) (index : ℕ) : Option (ℝ × ℕ × ℕ) :=
  if index ≥ g.numValues then none
  else if index = 0 then some (0, 0, 0)
  else
    let q := g.nameLoop index (index - 1) 0
    some (at' g.gridr ((q.1 % g.gridr.length : ℕ) : ℤ), q.1 / g.gridr.length * 2 + q.2, q.2)

/-! ### Cylindrical grid -/

/-- members of TargetDensityCylindrical, galaxymodel_densitygrid.h:154-157 -/
structure Cyl where
  mmax : ℕ
  gridR : List ℝ
  gridz : List ℝ

open Classical in
/-- galaxymodel_densitygrid.cpp:486-503, the constructor; `none` is an exception -/
def mkCyl (mmax : ℤ) (gridR gridz : List ℝ) : Option Cyl :=
  if ¬ (mmax ≥ 0 ∧ okGrid (skipZero gridR) ∧ okGrid (skipZero gridz)) then none
  else some ⟨mmax.toNat, skipZero gridR, skipZero gridz⟩

/-- galaxymodel_densitygrid.cpp:494 -/
def Cyl.numValues (g : Cyl) (N : ℕ) : ℕ := (g.gridz.length + N) * (g.gridR.length * (g.mmax / 2 + 1) + N)

/-- galaxymodel_densitygrid.cpp:100 -/
def Cyl.cell0 (g : Cyl) (m : ℕ) (indR indz : ℤ) : ℤ := indR + (indz + ((m / 2 : ℕ) : ℤ) * g.gridz.length) * g.gridR.length

/-- galaxymodel_densitygrid.cpp:106-116: indll, indul, indlu, induu -/
def Cyl.corners1 (g : Cyl) (m : ℕ) (indR indz : ℤ) : ℤ × ℤ × ℤ × ℤ :=
  let offsetm : ℤ := if m > 0 then (1 + ((m / 2 : ℕ) : ℤ) * g.gridR.length) * (g.gridz.length + 1) else 0
  let sizeR : ℤ := if m > 0 then g.gridR.length - 1 else g.gridR.length
  let indR := if m > 0 then indR - 1 else indR
  let indll := offsetm + indR + indz * (sizeR + 1)
  let indlu := indll + sizeR + 1
  (indll, indll + 1, indlu, indlu + 1)

open Classical in
/-- galaxymodel_densitygrid.cpp:525-543: the loop over m=0,2,..≤mmax, N=0 -/
def Cyl.loop0 (g : Cyl) (indR indz : ℤ) (mult : ℝ) (trig : ℕ → ℝ) : ℕ → ℕ → Upd
  | 0, _ => []
  | fuel + 1, m =>
    if m > g.mmax then []
    else (g.cell0 m indR indz, mult * (if m = 0 then 1 else 2 * trig m)) :: Cyl.loop0 g indR indz mult trig fuel (m + 2)

open Classical in
/-- galaxymodel_densitygrid.cpp:525-543: the loop over m=0,2,..≤mmax, N=1 -/
def Cyl.loop1 (g : Cyl) (indR indz : ℤ) (offR offz mult : ℝ) (trig : ℕ → ℝ) : ℕ → ℕ → Upd
  | 0, _ => []
  | fuel + 1, m =>
    if m > g.mmax then []
    else
      let val := mult * (if m = 0 then 1 else 2 * trig m)
      let c := g.corners1 m indR indz
      [(c.2.1, val * offR * (1 - offz)), (c.2.2.2, val * offR * offz)] ++
        (if m = 0 ∨ indR > 0 then [(c.1, val * (1 - offR) * (1 - offz)), (c.2.2.1, val * (1 - offR) * offz)] else []) ++ Cyl.loop1 g indR indz offR offz mult trig fuel (m + 2)

open Classical in
/-- galaxymodel_densitygrid.cpp:505-544, TargetDensityCylindrical<N>::addPoint for N=0 (`linear=false`) or N=1 -/
def Cyl.add (g : Cyl) (linear : Bool) (p : PosCar) (mult : ℝ) : Upd :=
  let c := carToCyl ⟨p.x, p.y, |p.z|⟩
  let indR := locate g.gridR c.R
  let indz := locate g.gridz c.z
  if indR ≥ g.gridR.length ∨ indz ≥ g.gridz.length ∨ mult = 0 then []
  else
    let prevR := if indR > 0 then at' g.gridR (indR - 1) else 0
    let prevz := if indz > 0 then at' g.gridz (indz - 1) else 0
    let offR := (c.R - prevR) / (at' g.gridR indR - prevR)
    let offz := (c.z - prevz) / (at' g.gridz indz - prevz)
    let trig := trigAt g.mmax c.phi
    if linear then g.loop1 indR indz offR offz mult trig (g.mmax + 1) 0 else g.loop0 indR indz mult trig (g.mmax + 1) 0

/-- galaxymodel_densitygrid.cpp:606-619, coefName for N=0: (R, z, m) in the name of the coefficient -/
def Cyl.name0 (g : Cyl) (index : ℕ) : Option (ℝ × ℝ × ℕ) :=
  if index ≥ g.numValues 0 then none
  else
    let indR := index % g.gridR.length
    let indmz := index / g.gridR.length
    let indz := indmz % g.gridz.length
    some (0.5 * (at' g.gridR indR + (if indR > 0 then at' g.gridR ((indR : ℤ) - 1) else 0)), 0.5 * (at' g.gridz indz + (if indz > 0 then at' g.gridz ((indz : ℤ) - 1) else 0)), indmz / g.gridz.length * 2)

/-- galaxymodel_densitygrid.cpp:621-636, coefName for N=1 -/
def Cyl.name1 (g : Cyl) (index : ℕ) : Option (ℝ × ℝ × ℕ) :=
  if index ≥ g.numValues 1 then none
  else
    let m0size := (g.gridR.length + 1) * (g.gridz.length + 1)
    let msize := g.gridR.length * (g.gridz.length + 1)
    let m := if index < m0size then 0 else ((index - m0size) / msize + 1) * 2
    let indz := if index < m0size then index / (g.gridR.length + 1) else (index - m0size) / g.gridR.length % (g.gridz.length + 1)
    let indR := if index < m0size then index % (g.gridR.length + 1) else (index - m0size) % g.gridR.length + 1
    some (if indR = 0 then 0 else at' g.gridR ((indR : ℤ) - 1), if indz = 0 then 0 else at' g.gridz ((indz : ℤ) - 1), m)

end

end Verif.DensGrid
