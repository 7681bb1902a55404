import Mathlib.Analysis.SpecialFunctions.Gaussian.GaussianIntegral
import Mathlib.Data.Nat.Factorial.DoubleFactorial
import Verif.Spline.BInterp

/-! # Gauss-Hermite expansion

Model of /repo/src/math_gausshermite.cpp in exact real arithmetic. Arrays are functions of the index. -/

namespace Verif.GH

open Real

noncomputable section

/-- math_gausshermite.cpp:107-108, the table `sqroots` -/
def sqroots : ℕ → ℝ
  | 0 => 1
  | 1 => √2
  | 2 => √3
  | 3 => 2
  | 4 => √5
  | 5 => √6
  | 6 => √7
  | _ => √8

/-- math_gausshermite.cpp:109-114, the loop of hermiteArray: `m` iterations beginning with the given `n`; the state is `sqrtn` and the array -/
def hermiteLoop (x : ℝ) : ℕ → ℕ → ℝ → (ℕ → ℝ) → (ℕ → ℝ)
  | 0, _, _, result => result
  | m + 1, n, sqrtn, result =>
    let sqrtnplus1 := if n < 8 then sqroots n else √((n : ℝ) + 1)
    hermiteLoop x m (n + 1) sqrtnplus1 (Function.update result (n + 1) ((√2 * x * result n - sqrtn * result (n - 1)) / sqrtnplus1))

/-- math_gausshermite.cpp:96-115, hermiteArray; `old` is the previous content of the array -/
def hermiteArray (nmax : ℕ) (x : ℝ) (old : ℕ → ℝ) : ℕ → ℝ :=
  let result := Function.update old 0 1
  if nmax < 1 then result else
  hermiteLoop x (nmax - 1) 1 1 (Function.update result 1 (√2 * x))

/-- math_gausshermite.cpp:92, QUADORDER -/
def QUADORDER : ℕ := 7

/-- math_gausshermite.cpp:119-134, computeGaussHermiteMoments for an arbitrary function; the element m of the array -/
def computeMoments (fnc : ℝ → ℝ) (order : ℕ) (ampl center width : ℝ) (m : ℕ) : ℝ :=
  (List.range (QUADORDER ^ 2 + 1)).foldl (fun (result : ℝ) (p : ℕ) =>
    let y : ℝ := (p : ℝ) * (1 / QUADORDER)
    let mult := √2 * width / ampl / QUADORDER * exp (-0.5 * y * y)
    let fp := fnc (center + width * y)
    let fm := if p = 0 then 0 else fnc (center - width * y)
    result + mult * (fp + (if m % 2 = 1 then -1 else 1) * fm) * hermiteArray order y (fun _ => 0) m) 0

/-- math_gausshermite.cpp:138-158, computeGaussHermiteMoments for an interpolator with the given grid; `nodes` and `weights` are the Gauss-Legendre nodes and weights on [0,1] (lists of equal length) -/
def computeMomentsInterp (nodes weights : ℕ → ℝ) (nnodes : ℕ) (grid : ℕ → ℝ) (size : ℕ) (fnc : ℝ → ℝ) (order : ℕ) (ampl center width : ℝ) (m : ℕ) : ℝ :=
  (List.range (size - 1)).foldl (fun result i =>
    (List.range nnodes).foldl (fun result k =>
      let x := nodes k * grid (i + 1) + (1 - nodes k) * grid i
      let y := (x - center) / width
      let mult := √2 / ampl * exp (-0.5 * y * y) * weights k * (grid (i + 1) - grid i) * fnc x
      result + mult * hermiteArray order y (fun _ => 0) m) result) 0

/-- math_gausshermite.cpp:168-202, computeGaussHermiteMatrix for B-splines of degree N; `nodes` and `weights` are the Gauss-Legendre nodes and weights on [0,1]; the row m of the matrix -/
def computeMatrix (nodes weights : ℕ → ℝ) (nnodes : ℕ) (N : ℕ) (grid : ℕ → ℝ) (size : ℕ) (order : ℕ) (ampl center width : ℝ) (m : ℕ) : ℕ → ℝ :=
  (List.range (size - 1)).foldl (fun result n =>
    let x1 := grid n
    let dx := grid (n + 1) - x1
    (List.range nnodes).foldl (fun result k =>
      let x := x1 + dx * nodes k
      let c := Verif.Spline.nonzeroComponents N grid size x 0
      let y := (x - center) / width
      let mult := √2 / ampl * dx * weights k * exp (-0.5 * y * y)
      (List.range (N + 1)).foldl (fun result b =>
        Function.update result (b + c.1) (result (b + c.1) + mult * hermiteArray order y (fun _ => 0) m * c.2 b)) result) result) (fun _ => 0)

/-- math_gausshermite.cpp:370-382, GaussHermiteExpansion::value -/
def value (Ampl Center Width : ℝ) (ncoefs : ℕ) (moments : ℕ → ℝ) (x : ℝ) : ℝ :=
  if ncoefs = 0 then 0 else
  let xscaled := (x - Center) / Width
  let norm := (1 / √2 / √π) * Ampl / Width * exp (-0.5 * xscaled ^ 2)
  let hpoly := hermiteArray (ncoefs - 1) xscaled (fun _ => 0)
  (List.range ncoefs).foldl (fun result i => result + moments i * hpoly i) 0 * norm

/-- math_gausshermite.cpp:384-395, GaussHermiteExpansion::normn (the factorials are exact) -/
def normn (n : ℕ) : ℝ :=
  if n % 2 = 1 then 0 else
  match n with
  | 0 => 1
  | 2 => 1 / √2
  | 4 => 0.6123724356957945
  | 6 => 0.5590169943749474
  | 8 => 0.5229125165837972
  | n => √(n.factorial : ℝ) / (n.doubleFactorial : ℝ)

/-- math_gausshermite.cpp:397-402, GaussHermiteExpansion::norm: the loop over even n -/
def norm (Ampl : ℝ) (ncoefs : ℕ) (moments : ℕ → ℝ) : ℝ :=
  ((List.range ncoefs).filter (fun n => n % 2 = 0)).foldl (fun result n => result + moments n * normn n) 0 * Ampl

/-- math_gausshermite.cpp:228-233, 287-292: the sum in both fitting functions -/
def fitSum (order : ℕ) (vars : ℕ → ℝ) (y : ℝ) : ℝ :=
  if order > 2 then (List.range (order - 2)).foldl (fun sum k => sum + vars (k + 3) * hermiteArray order y (fun _ => 0) (k + 3)) 1 else 1

/-- math_gausshermite.cpp:281-304, GaussHermiteFitterInterp::evalDeriv: the value at the point `node` with weight `weight` and function value `fvalue` -/
def fitInterpValue (order : ℕ) (node weight fvalue : ℝ) (vars : ℕ → ℝ) : ℝ :=
  let y := (node - vars 1) / vars 2
  let mult := 1 / √2 / √π * exp (-0.5 * y * y) * weight * fitSum order vars y / vars 2
  weight * fvalue - mult * vars 0

/-- math_gausshermite.cpp:281-304, GaussHermiteFitterInterp::evalDeriv: the reported derivative by the parameter i -/
def fitInterpDeriv (order : ℕ) (node weight : ℝ) (vars : ℕ → ℝ) (i : ℕ) : ℝ :=
  let ampl := vars 0
  let width := vars 2
  let y := (node - vars 1) / width
  let sum := fitSum order vars y
  let mult := 1 / √2 / √π * exp (-0.5 * y * y) * weight * sum / width
  match i with
  | 0 => -mult
  | 1 => -mult * ampl / width * y
  | 2 => mult * ampl / width * (1 - y * y)
  | n => -mult * ampl / sum * hermiteArray order y (fun _ => 0) n

/-- math_gausshermite.cpp:222-245, GaussHermiteFitterFnc::evalDeriv: the value at the point with the scaled coordinate y=(p-49)/7 -/
def fitFncValue (order : ℕ) (fnc : ℝ → ℝ) (p : ℕ) (vars : ℕ → ℝ) : ℝ :=
  let sqwidth := √(vars 2)
  let y : ℝ := (1 / QUADORDER) * (p - QUADORDER ^ 2)
  let x := vars 1 + vars 2 * y
  let mult := 1 / √2 / √π * exp (-0.5 * y * y) * fitSum order vars y / sqwidth
  sqwidth * fnc x - mult * vars 0

/-- math_gausshermite.cpp:222-245, GaussHermiteFitterFnc::evalDeriv: the reported derivative by the parameter i -/
def fitFncDeriv (order : ℕ) (p : ℕ) (vars : ℕ → ℝ) (i : ℕ) : ℝ :=
  let ampl := vars 0
  let width := vars 2
  let sqwidth := √width
  let y : ℝ := (1 / QUADORDER) * (p - QUADORDER ^ 2)
  let sum := fitSum order vars y
  let mult := 1 / √2 / √π * exp (-0.5 * y * y) * sum / sqwidth
  match i with
  | 0 => -mult
  | 1 => -mult * ampl / width * y
  | 2 => mult * ampl / width * (1 - y * y)
  | n => -mult * ampl / sum * hermiteArray order y (fun _ => 0) n

/-- math_gausshermite.cpp:23-41, MomentsIntegrand::eval: the three values (the case of infinite j is the end of the interval, excluded by the theorems) -/
def momentsIntegrand (fnc : ℝ → ℝ) (z : ℝ) (m : ℕ) : ℝ :=
  let x := exp (1 / (1 - z) - 1 / z)
  let j := x * (1 / (1 - z) ^ 2 + 1 / z ^ 2)
  let fp := fnc x
  let fm := fnc (-x)
  if fp = 0 ∧ fm = 0 then 0 else
  match m with
  | 0 => (fp + fm) * j
  | 1 => (fp - fm) * j * x
  | _ => (fp + fm) * j * x * x

/-- math_gausshermite.cpp:49-59, computeClassicMoments for an arbitrary function; `result` are the three integrals returned by the integration routine -/
def classicMoments (result : ℕ → ℝ) (m : ℕ) : ℝ :=
  let moment1 := if result 0 ≠ 0 then result 1 / result 0 else 0
  match m with
  | 0 => result 0
  | 1 => moment1
  | _ => if result 0 ≠ 0 then √(max 0 (result 2 / result 0 - moment1 ^ 2)) else 0

end

end Verif.GH
