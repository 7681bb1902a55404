import Verif.SphHarm.Index
import Verif.SphHarm.Fourier
import Verif.SphHarm.Legendre

/-! Forward and inverse spherical-harmonic transformations (math_sphharm.cpp): model. Real arithmetic. -/
namespace Verif.SphHarm
open Real

noncomputable section

/-- SphHarmTransformForward, math_sphharm.h:245-284. `nodes` and `weights` are the output of prepareIntegrationTableGL(-1,1,lmax+1) (C38, C52, C53), math_sphharm.cpp:327 -/
structure Fwd where
  ind : Indices
  nodes : ℕ → ℝ
  weights : ℕ → ℝ

namespace Fwd

/-- lmax and mmax, which are not negative after the constructor of SphHarmIndices -/
def L (f : Fwd) : ℕ := f.ind.lmax.toNat
def M (f : Fwd) : ℕ := f.ind.mmax.toNat
/-- math_sphharm.cpp:318: the second argument of the constructor of FourierTransformForward -/
def useSine (f : Fwd) : Bool := decide (f.ind.mmin < 0)
/-- math_sphharm.cpp:320-321 -/
def ngrid (f : Fwd) : ℕ := f.L + 1
def ntheta (f : Fwd) : ℕ := f.L / 2 + 1
/-- math_sphharm.h:283 -/
def thetasize (f : Fwd) : ℕ := if isZ f.ind.sym then f.L / 2 + 1 else f.L + 1
/-- math_sphharm.h:210 for the member `fourier` -/
def fsize (f : Fwd) : ℕ := Verif.Fourier.size f.M f.useSine
/-- math_sphharm.h:251 -/
def size (f : Fwd) : ℕ := f.thetasize * f.fsize
/-- math_sphharm.cpp:330 -/
def costh (f : Fwd) (j : ℕ) : ℝ := f.nodes (f.ngrid - 1 - j)
/-- math_sphharm.h:254 -/
def costheta (f : Fwd) (i : ℕ) : ℝ := f.costh (i / f.fsize)
/-- math_sphharm.h:257 -/
def phi (f : Fwd) (i : ℕ) : ℝ := Verif.Fourier.phi f.M (i % f.fsize)

/-- math_sphharm.cpp:336: tau as a function of cos(theta) -/
def tauOfCos (c : ℝ) : ℝ := c / (√(1 - c ^ 2) + 1)

/-- math_sphharm.cpp:335-341: the elements of legFnc for the given j and m: the first m are not assigned and remain zero -/
def legRow (f : Fwd) (j m : ℕ) : List ℝ :=
  List.replicate m 0 ++ ((sphHarmArray f.L m (tauOfCos (f.costh j))).getD []).map fun o => o.val * (f.weights j * (0.5 / √π) * (if m > 0 then √2 else 1))

/-- math_sphharm.cpp:324-343: the array legFnc -/
def legFnc (f : Fwd) : List ℝ := (List.range f.ntheta).flatMap fun j => (List.range (f.M + 1)).flatMap fun m => f.legRow j m

/-- math_sphharm.cpp:307-314: indLeg -/
def indLeg (f : Fwd) (j : ℕ) (l m : ℤ) : ℕ :=
  let absj := if j < f.ntheta then j else f.L - j
  absj * ((f.L + 1) * (f.M + 1)) + m.natAbs * (f.L + 1) + l.toNat

/-- math_sphharm.cpp:372-379: the increment of the coefficient (l,m) at the j-th node of the grid in theta; `valm j` are the Fourier coefficients of the j-th row of samples -/
def incr (f : Fwd) (valm : ℕ → List ℝ) (l m : ℤ) (j : ℕ) : ℝ :=
  let jsamp := if j < f.thetasize then j else f.ngrid - 1 - j
  let Plm := f.legFnc.getD (f.indLeg j l m) 0
  let Plm := if Int.tmod (l + m) 2 = 1 ∧ j > f.L / 2 then Plm * (-1) else Plm
  Plm * (valm jsamp).getD (m - f.ind.mmin).toNat 0

/-- math_sphharm.cpp:346-384, transform; `none` is an exception. The output array is a function of the index. -/
def transform (f : Fwd) (values : ℕ → ℝ) (stride : ℤ) (coefs : ℤ → ℝ) : Option (ℤ → ℝ) :=
  if f.ind.size = 1 then some (Function.update coefs 0 (values 0))
  else if stride ≤ 0 then none
  else
    let zeroed : ℤ → ℝ := fun c => if 0 ≤ c ∧ c < f.ind.size then 0 else coefs c
    let valm : ℕ → List ℝ := fun j => Verif.Fourier.transform f.M f.useSine (fun i => values (j * f.fsize * stride.toNat + i)) stride.toNat
    some (f.ind.visited.foldl (fun out lm => (List.range f.ngrid).foldl (fun out j => Function.update out (index lm.1 lm.2) (out (index lm.1 lm.2) + f.incr valm lm.1 lm.2 j)) out) zeroed)

end Fwd

/-- math_sphharm.cpp:405-407: the azimuthal factor -/
def invTrig (mmax : ℕ) (useSine : Bool) (phi : ℝ) (m : ℤ) : ℝ :=
  let tmptrig := if mmax > 0 then Verif.Fourier.trigMultiAngle phi mmax useSine else []
  if m = 0 then 2 * √π
  else if m > 0 then tmptrig.getD (m - 1).toNat 0 * (2 * √π * √2)
  else tmptrig.getD ((mmax : ℤ) - m - 1).toNat 0 * (2 * √π * √2)

/-- math_sphharm.cpp:386-414, sphHarmTransformInverse -/
def inverse (ind : Indices) (coefs : ℤ → ℝ) (tau phi : ℝ) : ℝ :=
  let useSine := decide (ind.mmin < 0)
  (forLoop 1 ind.mmin ind.mmax).foldl (fun result m =>
    if ind.lmin m > ind.lmax then result
    else
      let leg := (sphHarmArray ind.lmax.toNat m.natAbs tau).getD []
      let trig := invTrig ind.mmax.toNat useSine phi m
      (forLoop ind.step (ind.lmin m) ind.lmax).foldl (fun result l =>
        result + coefs (index l m) * ((leg.map LegOut.val).getD (l.toNat - m.natAbs) 0) * trig) result) 0

end

end Verif.SphHarm
