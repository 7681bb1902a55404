import Verif.DensGrid.Cells
import Verif.DensGrid.Names
import Verif.DensGrid.Cyl
import Verif.DensGrid.SH
import Verif.Core.GLTable
import Verif.SphHarm.Transform

/-! Projection of a density onto the discretization schemes (computeDensityProjection, galaxymodel_densitygrid.cpp): model. Real arithmetic; the density is a function of the position. -/

namespace Verif.DensGrid

open Real Verif.Coord

noncomputable section

/-- `math::GLPOINTS[n][i]`, math_glquadrature.h -/
def glp (n i : ℕ) : ℝ := ((GL.points n).getD i 0 : ℕ) / 10 ^ 19
/-- `math::GLWEIGHTS[n][i]`, math_glquadrature.h -/
def glw (n i : ℕ) : ℝ := ((GL.weights n).getD i 0 : ℕ) / 10 ^ 19

/-- galaxymodel_densitygrid.cpp:27, 30: GLORDER_RAD, GLORDER_ANG -/
def ordRad : ℕ := 6
def ordAng : ℕ := 4
/-- galaxymodel_densitygrid.cpp:33: LMIN_SPHHARM -/
def lminSH : ℕ := 16

/-- galaxymodel_densitygrid.cpp:257-258, 434-435, 563-564, 572-573: the ends of the segment -/
def r1Of (grid : List ℝ) (ind : ℕ) : ℝ := if ind = 0 then 0 else at' grid ((ind : ℤ) - 1)
def r2Of (grid : List ℝ) (ind : ℕ) : ℝ := at' grid ind
/-- galaxymodel_densitygrid.cpp:260, 437, 566, 575: the node of the quadrature rule in the segment -/
def rOf (grid : List ℝ) (ind sub : ℕ) : ℝ := r1Of grid ind * (1 - glp ordRad sub) + r2Of grid ind * glp ordRad sub

/-! ### Classic scheme -/

/-- galaxymodel_densitygrid.cpp:249-250 -/
def Classic.nodeAng (g : Classic) (iA : ℕ) : ℝ := tan (π / 4 * (((iA / ordAng : ℕ) : ℝ) + glp ordAng (iA % ordAng)) / g.S)
/-- galaxymodel_densitygrid.cpp:251 -/
def Classic.weightAng (g : Classic) (iA : ℕ) : ℝ := glw ordAng (iA % ordAng) * (1 + g.nodeAng iA ^ 2) / g.S * π / 4

/-- galaxymodel_densitygrid.cpp:261 -/
def Classic.weightRad (g : Classic) (iR : ℕ) : ℝ := 8 * rOf g.radii (iR / ordRad) (iR % ordRad) ^ 2 * glw ordRad (iR % ordRad) * (r2Of g.radii (iR / ordRad) - r1Of g.radii (iR / ordRad))

/-- galaxymodel_densitygrid.cpp:267-273: the product of the weight and the density -/
def Classic.projValue (g : Classic) (rho : PosCar → ℝ) (iR i1 i2 pane : ℕ) : ℝ :=
  let radius := rOf g.radii (iR / ordRad) (iR % ordRad)
  let denom := 1 / √(1 + g.nodeAng i1 ^ 2 + g.nodeAng i2 ^ 2)
  let weight := g.weightRad iR * g.weightAng i1 * g.weightAng i2 * denom ^ 3
  let coord : ℕ → ℝ := fun i => if i = 0 then radius * denom else if i = 1 then radius * denom * g.nodeAng i1 else radius * denom * g.nodeAng i2
  weight * rho ⟨coord ((3 - pane) % 3) * g.axisX, coord ((4 - pane) % 3) * g.axisY, coord ((5 - pane) % 3) * g.axisZ⟩

/-- galaxymodel_densitygrid.cpp:270, 275-279 -/
def Classic.projChunk0 (g : Classic) (value : ℝ) (iR i1 i2 pane : ℕ) : Upd :=
  [(cell0 g.S pane (i1 / ordAng : ℕ) (i2 / ordAng : ℕ) + ((iR / ordRad : ℕ) : ℤ) * g.perShell 0, value)]

/-- galaxymodel_densitygrid.cpp:265-266, 270, 275-276, 280-294 -/
def Classic.projChunk1 (g : Classic) (value : ℝ) (iR i1 i2 pane : ℕ) : Upd :=
  let indShell := iR / ordRad
  let offsetR := glp ordRad (iR % ordRad)
  let offset1 := glp ordAng (i1 % ordAng)
  let offset2 := glp ordAng (i2 % ordAng)
  let c := corners1 g.S pane (i1 / ordAng : ℕ) (i2 / ordAng : ℕ)
  let resOff := (indShell : ℤ) * g.perShell 1 + 1
  [(resOff + c.1, value * offsetR * (1 - offset1) * (1 - offset2)), (resOff + c.2.1, value * offsetR * offset1 * (1 - offset2)),
    (resOff + c.2.2.1, value * offsetR * (1 - offset1) * offset2), (resOff + c.2.2.2, value * offsetR * offset1 * offset2)] ++
  if indShell = 0 then [(0, value * (1 - offsetR))]
  else
    let resOff := resOff - g.perShell 1
    [(resOff + c.1, value * (1 - offsetR) * (1 - offset1) * (1 - offset2)), (resOff + c.2.1, value * (1 - offsetR) * offset1 * (1 - offset2)),
      (resOff + c.2.2.1, value * (1 - offsetR) * (1 - offset1) * offset2), (resOff + c.2.2.2, value * (1 - offsetR) * offset1 * offset2)]

/-- galaxymodel_densitygrid.cpp:254-300: the loops over the radius, two angles and the pane -/
def Classic.projLoop (g : Classic) (chunk : ℕ → ℕ → ℕ → ℕ → Upd) : Upd :=
  (List.range (g.radii.length * ordRad)).flatMap fun iR => (List.range (ordAng * g.S)).flatMap fun i1 => (List.range (ordAng * g.S)).flatMap fun i2 =>
    (List.range 3).flatMap fun pane => chunk iR i1 i2 pane

/-- galaxymodel_densitygrid.cpp:240-302, TargetDensityClassic<N>::computeDensityProjection, N=0 or 1 (`linear`) -/
def Classic.proj (g : Classic) (linear : Bool) (rho : PosCar → ℝ) : ℤ → ℝ :=
  applyUpd (fun _ => 0) (g.projLoop fun iR i1 i2 pane =>
    if linear then g.projChunk1 (g.projValue rho iR i1 i2 pane) iR i1 i2 pane else g.projChunk0 (g.projValue rho iR i1 i2 pane) iR i1 i2 pane)

/-! ### Spherical harmonics -/

/-- a density with its symmetry flags, as a function of the cylindrical coordinates (R, z, phi) -/
structure Dens where
  rho : ℝ → ℝ → ℝ → ℝ
  spherical : Bool
  zrot : Bool

/-- galaxymodel_densitygrid.cpp:454-459: the loop over l=m,m+2,..≤lmax; `coef l` is shcoefs[ind.index(l, m)]*weight -/
def SHGrid.pLoopL (g : SHGrid) (indr : ℤ) (offr : ℝ) (coef : ℕ → ℝ) : ℕ → ℕ → ℤ → Upd × ℤ
  | 0, _, off => ([], off)
  | fuel + 1, l, off =>
    if l > g.lmax then ([], off)
    else
      let val := coef l
      let rest := SHGrid.pLoopL g indr offr coef fuel (l + 2) (off + g.gridr.length)
      ([(off, val * offr)] ++ (if indr > 0 ∨ l = 0 then [(off - 1, val * (1 - offr))] else []) ++ rest.1, rest.2)

/-- galaxymodel_densitygrid.cpp:453-460: the loop over m=0,2,..≤mmax -/
def SHGrid.pLoopM (g : SHGrid) (indr : ℤ) (offr : ℝ) (coef : ℕ → ℕ → ℝ) : ℕ → ℕ → ℤ → Upd
  | 0, _, _ => []
  | fuel + 1, m, off =>
    if m > g.mmax then []
    else
      let u := g.pLoopL indr offr (coef m) (g.lmax + 1) m off
      u.1 ++ SHGrid.pLoopM g indr offr coef fuel (m + 2) u.2

/-- galaxymodel_densitygrid.cpp:421-422: the orders of the expansion -/
def SHGrid.lTmp (g : SHGrid) (d : Dens) : ℕ := if d.spherical then 0 else max g.lmax lminSH
def SHGrid.mTmp (g : SHGrid) (d : Dens) : ℕ := if d.zrot then 0 else max g.mmax lminSH

/-- galaxymodel_densitygrid.cpp:438 -/
def SHGrid.projWeight (g : SHGrid) (ir : ℕ) : ℝ :=
  4 * π * rOf g.gridr (ir / ordRad) (ir % ordRad) ^ 2 * glw ordRad (ir % ordRad) * (r2Of g.gridr (ir / ordRad) - r1Of g.gridr (ir / ordRad))

/-- galaxymodel_densitygrid.cpp:441-446: densValues -/
def projSamples (trans : SphHarm.Fwd) (d : Dens) (radius : ℝ) (iA : ℕ) : ℝ :=
  let z := radius * trans.costheta iA
  d.rho √(radius ^ 2 - z * z) z (trans.phi iA)

/-- galaxymodel_densitygrid.cpp:413-463, TargetDensitySphHarm::computeDensityProjection; `tab n` are the nodes and weights of prepareIntegrationTableGL(-1,1,n), used in the constructor of the member `trans` (math_sphharm.cpp:327). `none` is an exception. The state of the loop is the pair of arrays (result, shcoefs). -/
def SHGrid.proj (g : SHGrid) (d : Dens) (tab : ℕ → (ℕ → ℝ) × (ℕ → ℝ)) : Option (ℤ → ℝ) :=
  match SphHarm.mkIndices (g.lTmp d) (g.mTmp d) 15 with
  | .error _ => none
  | .ok ind =>
    let trans : SphHarm.Fwd := ⟨ind, (tab (g.lTmp d + 1)).1, (tab (g.lTmp d + 1)).2⟩
    ((List.range (g.gridr.length * ordRad)).foldlM (fun (st : (ℤ → ℝ) × (ℤ → ℝ)) ir => do
      let shcoefs ← trans.transform (projSamples trans d (rOf g.gridr (ir / ordRad) (ir % ordRad))) 1 st.2
      some (applyUpd st.1 (g.pLoopM (ir / ordRad : ℕ) (glp ordRad (ir % ordRad)) (fun m l => shcoefs (SphHarm.index l m) * g.projWeight ir) (g.mmax + 1) 0 ((ir / ordRad : ℕ) + 1)), shcoefs))
      ((fun _ => 0), (fun _ => 0))).map Prod.fst

/-! ### Cylindrical grid -/

/-- galaxymodel_densitygrid.cpp:584-600: the loop over m=0,2,..≤mmax; `coef m` is coefs[m] -/
def Cyl.pLoop (g : Cyl) (linear : Bool) (indR indz : ℤ) (offR offz weight : ℝ) (coef : ℕ → ℝ) : ℕ → ℕ → Upd
  | 0, _ => []
  | fuel + 1, m =>
    if m > g.mmax then []
    else
      let val := coef m * weight * (1 + if m > 0 then 1 else 0)
      (if linear then
        let c := g.corners1 m indR indz
        [(c.2.1, val * offR * (1 - offz)), (c.2.2.2, val * offR * offz)] ++
          (if m = 0 ∨ indR > 0 then [(c.1, val * (1 - offR) * (1 - offz)), (c.2.2.1, val * (1 - offR) * offz)] else [])
      else [(g.cell0 m indR indz, val)]) ++ Cyl.pLoop g linear indR indz offR offz weight coef fuel (m + 2)

/-- galaxymodel_densitygrid.cpp:553 -/
def Cyl.mTmp (g : Cyl) (d : Dens) : ℕ := if d.zrot then 0 else max g.mmax lminSH

/-- galaxymodel_densitygrid.cpp:567, 576 -/
def Cyl.projWeight (g : Cyl) (iR iz : ℕ) : ℝ :=
  2 * rOf g.gridR (iR / ordRad) (iR % ordRad) * glw ordRad (iR % ordRad) * (r2Of g.gridR (iR / ordRad) - r1Of g.gridR (iR / ordRad)) *
    glw ordRad (iz % ordRad) * (r2Of g.gridz (iz / ordRad) - r1Of g.gridz (iz / ordRad))

/-- galaxymodel_densitygrid.cpp:579-581: coefs; elements beyond the size of the transformation remain zero (the array is created at :557) -/
def Cyl.projCoefs (g : Cyl) (d : Dens) (iR iz m : ℕ) : ℝ :=
  (Verif.Fourier.transform (g.mTmp d) false (fun i => d.rho (rOf g.gridR (iR / ordRad) (iR % ordRad)) (rOf g.gridz (iz / ordRad) (iz % ordRad)) (Verif.Fourier.phi (g.mTmp d) i)) 1).getD m 0

/-- galaxymodel_densitygrid.cpp:546-604, TargetDensityCylindrical<N>::computeDensityProjection, N=0 or 1 (`linear`) -/
def Cyl.proj (g : Cyl) (linear : Bool) (d : Dens) : ℤ → ℝ :=
  applyUpd (fun _ => 0) ((List.range (g.gridR.length * ordRad)).flatMap fun iR => (List.range (g.gridz.length * ordRad)).flatMap fun iz =>
    g.pLoop linear (iR / ordRad : ℕ) (iz / ordRad : ℕ) (glp ordRad (iR % ordRad)) (glp ordRad (iz % ordRad)) (g.projWeight iR iz) (g.projCoefs d iR iz) (g.mmax + 1) 0)

end

end Verif.DensGrid
