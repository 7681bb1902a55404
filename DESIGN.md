# Formal model of Agama in Lean 4

Source of truth: `/repo/src` (C++), read as text, never executed. All Lean code is under `lean/Verif/`.

## Layout and conventions

* One directory per area: `Model.lean` (definitions; each cites the file and lines it models, and says where it
  simplifies), `Lemmas.lean` (helpers), `Props.lean` (the property theorems plus a small separate specification and,
  next to each theorem, an `example` showing that its hypotheses are met by a concrete non-trivial case).
* Numbers.  `double` is modelled in one of three ways, always stated in the definition's comment:
  (E) *exact*: elements of ℝ, ℚ or an arbitrary linearly ordered field — rounding, overflow, ±0 and NaN are not
      represented (NaN is an explicit `none` where the code tests for it);
  (O) *oracle*: the part of the computation that is subject to rounding is an arbitrary function parameter,
      so the theorem holds for every rounding behaviour;
  (B) *bits*: exact 64-bit integers (`BitVec 64`/`UInt64`) or an explicit IEEE rounding function.
* C++ `int`/`size_t` indices are `Nat`/`Int` unless the property is about overflow. Out-of-bounds accesses and other
  undefined behaviour are a distinct outcome (`none`/`Except.error`), never a default value.
* Exceptions are `Except`/`Option` results. Loops are structural recursion or fuel with a proof that the fuel suffices.

## Trusted base

* Lean 4.33.0's kernel; axioms `propext`, `Classical.choice`, `Quot.sound` only (checked with `#print axioms`).
* The reading of the C++ source (faithfulness of each definition to the cited lines).
* Library contracts that appear as model definitions: `std::string` find/substr/erase, `std::vector`, `strtod`
  (parameter), `snprintf("%.*f")` (explicit decimal rounding), `tolower` in the C locale, `sqrt`/`exp`/`sin`/`cos`
  as the real functions where (E) is used.

## Plan per property

| id | modelled | how proved |
|----|----------|------------|
| C01 | `splitString` loop on `List Char` | induction on the remaining string against an independent inductive spec |
| C02 | both `stringsEqual` overloads | reduction to `map toLower` equality |
| C03–C06 | `KeyValueMap` (items list + modified flag), all mutators | refinement to a function `key → Option value`, invariant over op lists |
| C07–C08 | `ConfigFile` parse and destructor's writer | invariant on the line fold; round trip by induction on lines |
| C09 | `toInt`, `toBool` (strtod as parameter) | case analysis |
| C10 | `pp` with exact decimal `%.*f` | length computation over all branches |
| C11 | `binSearch` with the first guess as oracle (O) | loop invariant, well-founded recursion |
| C12 | square-and-multiply loop | invariant |
| C13 | `wrapAngle`, `unwrapAngle` (E) | floor/trunc lemmas |
| C14 | Welford recurrence (E) | induction on the list |
| C15 | `solveQuadratic` (E) | algebra |
| C16 | full `findRoot` loop including Hermite and Brent steps (E) | bracket invariant over the loop; IVT for the tolerance claim |
| C17 | `scale`/`unscale` (E, ℝ) | algebra, monotonicity, `HasDerivAt` |
| C18 | `hermiteInterp`, `hermiteDerivs` (E) | `field_simp; ring` |
| C19 | `random` (B, IEEE round-to-nearest of uint64) | bounds + counterexample |
| C20 | generator, jump, `randomize` (B) | GF(2)-linearity; kernel-checked polynomial arithmetic |
| C21 | per-thread state window in the shared array (B) | concrete interleaving counterexample; proof for the indexing that was intended |
| C22 | Fisher–Yates loop, random stream as oracle (O) | permutation invariant |
| C23 | vectors/rotation (E) | algebra |
| C24 | Halton loop (E over ℚ) | digit expansion induction |
| C25 | MurmurHash64A variant (B) | bijectivity of each mixing step |
| C26–C28 | `SphHarmIndices`, `getIndicesFromCoefs` | arithmetic, parity case analysis |
| C29 | `FourierTransformForward` (E, ℝ) | discrete orthogonality of trigonometric functions |
| C30 | `shared_ptr.h` as a heap/owner state machine | invariant count = number of owners |
| C31 | `CtrlBreakHandler` stack | invariant over nested traces |
| C32–C34 | `BandMatrix`, `blas_dgemv`, `solveBand` | index arithmetic; LU invariant |
| C35–C36 | grid generators (E) | induction/monotonicity |
| C37 | `bsplineValues` (E) | induction on degree |
| C38 | `prepareIntegrationTableGL` write pattern | array invariants |
| C39 | `fcmp` (E) | case analysis, counterexample |
| C40 | `InternalUnits` (E) | field algebra |
| C41 | `randomize`/`hash` seeding (B) | counterexample state; characterisation of bad seeds |
| C42–C43 | `endsWithStr`, `demangle` clean-up loop | list lemmas, induction on tokens |
| C44 | `solveCubic`, `solveQuartic`, `polishRoot` (E) | algebra, sorting |
| C45 | function adapters (`LogLogScaledFnc`, ...) (E) | `HasDerivAt` chain rule |
| C46 | `findMin` loop (E) | bracket invariant; NaN counterexample |
| C47 | `PointNeighborhood` root estimates (E) | algebra on the local parabola; counterexamples |
| C48 | `legendrePmm`/`sphHarmArray` (E) | recurrences and `HasDerivAt` |
| C49 | azimuthal index list | list lemmas |
| C50–C51 | `bsplineValues`/`bsplineDerivs`, natural cubic basis (E) | induction on degree, Cox–de Boor identities |
| C52 | tabulated Gauss–Legendre rules (exact decimal values) | kernel arithmetic on the tables, residual bounds |
| C53 | `getGLnodeAndWeight` Newton loop | Legendre recurrence identities; overflow counterexample |
| C54–C61 | coordinate conversions, derivatives, radial functions, rotations (`coord.h`, `coord.cpp`) (E) | total-derivative spec (`Coord/DerivSpec.lean`), trigonometric identities |
| C62–C63 | analytic potentials: gradient/Hessian/density as derivatives of the value (E) | HasDerivAt calculus on the code's formulas (`Pot/Radial.lean`, `Pot/Analytic.lean`, `Pot/Kepler.lean`) |
| C66 | orbit of the Kepler binary and the Kepler-equation solver (E; termination of the Halley loop not proved) | implicit-function derivative, Taylor bound on the residual |
| C64–C65, C67–C68 | generic density, angle averages, composite/modified potentials, symmetry flags (E) (`Pot/Base.lean`, `Pot/Average.lean`, `Pot/Composite.lean`, `Pot/Modifiers.lean`, `Pot/Symmetry.lean`) | chain rule, induction over components, root-of-unity sums, bitwise algebra |
| C69–C73 | 1d interpolators: evaluation, construction, regularization, integration (E) (`Spline/Eval.lean`, `Construct.lean`, `Regularize.lean`, `Quintic.lean`, `Integrate.lean`) | Hermite polynomials, diagonally dominant banded systems, gluing of derivatives, C52 on each segment |
| C74–C75 | integrals with user-defined weights, root finding for 1d interpolators (E) (`Spline/Vandermonde.lean`, `IntegrateF.lean`, `Roots.lean`) | Newton interpolation and Horner shifts; sums over segments; sorted candidate lists and a tolerance filter |
| C76–C78 | B-spline interpolators, extrema, quartic equations (E) (`Spline/BInterp.lean`, `BRoots.lean`, `Extrema.lean`, `ExtremaLinear.lean`, `Core/Quartic.lean`) | polynomial pieces of the Cox–de Boor recursion; loop invariant over candidate points (alternating list); Ferrari factorization, selection of the resolvent root, sorting network |
| C79–C80 | polygons and integrals over them (E) (`Geom/*.lean`) | sums over edges of additive edge functions (winding number, area form); Green's theorem; exactness of the quadratures on each clipped cell |
| C81 | orbit loop and trajectory (E): `run`, `processTimestep`, `integrateTraj` over an arbitrary solver (`Orbit/Run.lean`) | induction on the number of steps with the invariant of covered time |
| C82 | equations of motion (E) (`Orbit/Motion.lean`) | derivatives along an arbitrary trajectory; reduction of spherical to cylindrical to the inertial Cartesian frame |
| C83 | OdeSolverDOP853 with the tabulated coefficients as rationals: stages with shared memory slots, error estimate, the loop of attempts with underflow, dense output (Ode/Dop853, Ode/Tableau) | loop invariant; order by the theory of rooted trees (B-series) developed in Ode/Series for analytic systems, with the 200 order conditions checked by the kernel in integer arithmetic (Ode/Tableau), dense output of order 6 uniformly on the step (Ode/DopOrder) |
| C84 | OdeSolverHermite::init, doStep, getSol (Ode/Hermite) | polynomial identities, big-O estimates from Taylor's formula; concrete counterexamples for the refuted parts |
| C85 | Ode2SolverGL3, GL4: flat state array, loop over vectors, prediction, Gauss-Seidel iterations, final coefficients, getSol (Ode/GLMem, GL3, GL4) | polynomial identities for symbolic nodes; contraction estimate in the sup norm; linearity by induction over steps; counterexample for the velocity of GL4 |
| C86 | Genz-Malik rule in d dimensions and Gauss-Kronrod rule in 1 dimension with the decimal constants of the code (Cubature/Rule, Exact, Kronrod) | moments of monomials by symmetry, then linearity; bounds on roundoff of the constants |
| C87 | heap_push, heap_pop as operations on an array with a counter (Cubature/Heap) | heap invariant, induction on the operation history |
| C88 | cut_region, eval_regions, rulecubature, integrateNdim without the CUBA library (Cubature/Adapt, AdaptProps, AdaptMain, Scale) | loop invariant (tiling, totals, counters), simulation between the original and scaled integrand; counterexamples for the documented limit and for reversed limits |
| C89 | math_sample.cpp entirely (Sample/*): Sampler::run, processCell, decideHowToSplitCell, splitCell, addCellToQueue, addPointsToCell, getCellBoundaries, evalFncLoop, computeResult, drawSamples; std::vector arrays as functions, singly linked lists of points as in the code; the two OpenMP loops both sequentially and for an arbitrary schedule of whole blocks; DISABLE_QRNG and multi-valued functions are not modelled | invariant of the tree of cells and of the linked lists (partition of points), history of batches; the shuffled order eliminated by commutation of updates |
| C90 | actions_isochrone.cpp entirely (Actions/*): evalIsochrone and mapIsochrone, in real arithmetic with an exact solution of Kepler's equation (C66) | the branches of arctangents are eliminated by a smooth function of the eccentric anomaly whose derivative is a simple fraction; then time derivatives give the equations of motion, and injectivity of Kepler's equation gives the inverse transformation |
| C91 | `DensGrid/`: constructor, `addPoint`, `coefName` of `TargetDensityClassic<0,1>` with the array updates as lists of increments; an independent specification of basis functions (hat functions of radius and of the two angular coordinates in each of three panes, with identification of nodes shared by panes); proved equal to what the code adds, for every pane containing the point; partition of unity, continuity, Kronecker property at the nodes, decoding of names |
| C92 | `DensGrid/`: the same for `TargetDensitySphHarm` (via the Legendre functions of C48 and the trigonometric recurrence of C29) and `TargetDensityCylindrical<0,1>`; closed form of the offsets of each harmonic, bijection between indices and (node, l, m) |
| C93 | SphHarm/Transform.lean: constructor of SphHarmTransformForward (tables), transform, sphHarmTransformInverse, exact arithmetic; the Gauss-Legendre rule of order lmax+1 is any symmetric rule exact for degree below 2(lmax+1) (existence for every order proved in Core/GLRule.lean) | orthonormality of the computed Legendre functions (Sturm-Liouville), discrete orthogonality in theta and phi, loop = sum |
| C94 | DensGrid/Proj.lean: computeDensityProjection of the three schemes, real arithmetic, tables GLPOINTS/GLWEIGHTS of order 4 and 6 with their 19 digits; ProjClassic, ProjCyl, ProjSH | loops as sums, the increments of each loop body are those of addPoint (C91, C92) at the quadrature point; Fourier and spherical-harmonic transformations as sums over samples (C29, C93); the volume element of the classic coordinates is the determinant of the matrix of derivatives |
| C95 | Spline/Interp2d.lean: evalDeriv/value of the five 2d and 3d interpolators, real arithmetic, flattened arrays; Tensor.lean, Interp2dProps.lean, Interp3dProps.lean | nested one-dimensional interpolations as tensor products: each 1d interpolator is linear in node data, hence the order of nesting does not matter, and derivatives, continuity and polynomial exactness follow from the 1d facts (C71, C72) |
| C96 | Spline/Interp2d.lean: CubicSpline2d constructor, QuinticSpline2d::setupWithMixedDeriv; Create2d.lean, Create2dQuintic.lean | linearity and uniqueness of solutions of the 1d systems: the mixed derivatives computed in one order solve the systems of the other order |
| C97 | Pot/Disk.lean: radial and vertical functions, DiskDensity, DiskAnsatz, DiskParam::mass; DiskProps*.lean, DiskMass.lean | chain rule; even/odd functions of |z| at the plane; Taylor bounds for the series; substitution in improper integrals, recurrence of Bessel functions by integration by parts |
| C98 | DF/Model.lean: DoublePowerLaw, Exponential, QuasiIsothermal, qexp in real arithmetic (NaN/infinity as `none` in the double power law); DF/Props*.lean | logarithmic derivatives along arbitrary curves on one side of Jphi=0; limit at the origin; refutations for the core at J=0 and for rotation with the default Jphi0 |
| C99 | DF/Scaling (both scalings, integrand, CompositeDF::evalmany), DF/ScalingProps, ScalingInt, Composite: round trips, jacobian as |det| of the Fréchet derivative, change of variables in the integral over ℝ³ (Mathlib), loop invariants for the composite; Core/ScaleCub: error bound of the cubic scaling |
| C100 | Pot/Ferrers*, Dehnen, PerfectEllipsoid*: models of the three evaluation functions over the reals (elliptic integrals defined by integrals, the root-finder of Ferrers assumed exact); derivatives along arbitrary smooth curves; Poisson equation by elimination; the Ferrers potential as the homoeoid integral by the fundamental theorem of calculus on (λ,∞); the perfect ellipsoid in spheroidal coordinates combined with the coordinate derivatives of C59; Taylor coefficients around focal points. The triaxial Dehnen integrals are not modelled |
| C101 | IO/Text: writer, reader and format detection as functions on character lists; %.8g and strtod enter through a structure of assumptions (character set, first character, relative accuracy 5e-8); proof by induction over particles through the tokeniser theorem of C01 | IO/Text, IO/TextEx |
| C102 | IO/Nemo: the writer as a function to lists of bytes; an independent decoder of the structured format; theorem that decoding the file gives the expected list of items; refutation for zero particles | IO/Nemo |
| C103 | GH/Model: the recurrence, moments, matrix, value, norm, fitting functions in exact arithmetic; specification by Mathlib's probabilists' Hermite polynomials and Bochner integrals; orthogonality by integration by parts (GH/Poly), zeroth moment of a gaussian by the Jacobi identity (GH/Props4) | GH/* |
| C104 | FP/Model: the discretization, assembly and solution of the band system in one step (on top of the model of band matrices of C32-C34); the matrix is an M-matrix with fixed rows, hence non-zero minors and non-negative solutions; fluxes telescope | FP/* |
| C105 | same model; the sum of the equations of C104 compared with the recorded masses; counterexamples on grids of 2-3 nodes | FP/Props2, FP/Props3 |
| C106 | raga_losscone.cpp in exact arithmetic, with the orbit and the root-finder given; capture iff the distance of closest approach is within the radius (one minimum per timestep), truth of the record, end-of-episode accounting; counterexamples for binaries | Raga/Losscone, LossconeProps |
| C107 | raga_binary.cpp: recording of encounters by induction over timesteps; conservation of energy and angular momentum; the loop of sub-steps with invariants (1/a is linear in time), termination and its failure; Peters' formulae | Raga/Binary, BinaryProps, Evolve |
| C108 | raga_relaxation.cpp: sampling loop by induction over timesteps, kick with arbitrary random numbers (mean over any probability measure), in-place elimination, extrapolation; diagnostic energies of raga_core.cpp | Raga/Relax, RelaxProps |
| C109 | potential_spheroid.cpp, double power law: change of variables in space (diagonal linear map), radial integral in polar coordinates, Beta integral by the substitutions s = x/(1-x) and s = x^alpha, the substitution of the numerical integral by the change-of-variables formula; divergence by comparison with 1/x | Pot/Spheroid, SpheroidInt, SpheroidProps |
| C110 | potential_spheroid.cpp, Nuker and Sersic: mass as for C109; deprojection by the two substitutions used in the code; root of b by monotonicity and the intermediate value theorem. The interpolation by LogLogSpline and the bracket given to findRoot are not modelled | Pot/NukerProps |
| C111 | math_spline.cpp LogLogSpline, first constructor and evalDeriv: loop over sections by induction; for positive data reduction to C69-C71 in the logarithms, for arbitrary data an invariant of the loop (only positive points get a logarithmic slope) and gluing of pieces. | `Spline.LogLog` |
| C112 | the same for the second constructor: reduction to C69 and C72; monotonicity refuted by three points on a straight line with slopes 3. | `Spline.LogLog` |
| C113 | Gal/Velocity: one iteration of each variant of the velocity assignment with the rejection loop, generator/sampler/moments as parameters; the parallel loop as iterations in an arbitrary order. | Induction over attempts and over the order; algebra of the perpendicular vector; moments by integration. |
| C114 | Gal/Velocity: getNormalRandomNumbers. | Equality of measures: change of variables in polar coordinates. |
| C115 | Pot/King: density function, right-hand side, the table loop with the adaptive grid near the truncation, scaling; solver and root-finder as exact parameters. | Incomplete gamma recurrences; invariant of the table over steps and grid points; chain rule. |
| C116 | Jeans.lean: the grid shortened from its end, pressures accumulated from outside, conversion with fmin and NaN; the nodes by induction over the list, the Jeans equation by the fundamental theorem of calculus, the tail by the improper power-law integral, the interpolator through C111 | nodes, tail, Jeans equation, positivity; refutation at negative density |
| C117 | Gal/SelfCons: store of components, the loops of doIteration and updateTotalPotential with exceptions at every step; the expansions and the action finder are parameters. | Induction over the components and over histories; permutation of sums; refutation by a history with a failing action finder. |
| C118 | Pot/PotUtils: the functions of potential_utils.cpp for roots, scaling, frequencies, tables and extrapolation of the Interpolator; the potential is a function with given derivatives. | Calculus: chain rule, monotonicity on each bracket, power-law identities. |
| C119 | Pot/Projected: integrands, list of outputs, angle reduction and mirrored points; integrals are exact. | Change of variables by the scaling (proved a bijection), C61 for the rotations; refutation by a flattened potential seen along y. |
| C120 | Pot/OblPerf: constructor, evalDeriv with thresholds, evalScalar with the domain check. | Calculus for arbitrary G, then for arctan; comparison with the model of PerfectEllipsoid (C100). |
| C121 | Orbit/Variational: eval, storeSolution, renormalize, processTimestep over a family of linear propagators. | Rotation algebra and HasDerivAt; invariant exp(addLog)·dev = U t0 t dev0 by induction over the timesteps. |
| C122+ | appended as the model grows; what is modelled is stated in the header of each Lean file and in the claim note | — |

## Disagreements between code and documentation (or evident intent) found while modelling

Each entry marked *(proved)* is a theorem in the model (named `..._refuted_...` or listed in the claim's note).

* `math::fcmp(0,y)`: the sign of the answer is reversed when x==0 and the comparison is not antisymmetric *(proved)*.
* `math::random()`: per-thread windows overlap (missing `*2` in the index, math_random.cpp:126) *(proved)*; the result can be
  exactly 1.0 although documented as `[0,1)` *(proved)*; `hash()` may return 0, which leaves the generator stuck at 0 *(proved)*.
* `Averager::disp`: the comment says 1/N, the code divides by N−1.
* `binSearch`: when the initial guess equals size−1 the bin size−2 is returned unchecked, which is wrong for some roundings *(proved)*;
  overflow of the range gives a NaN→int cast.
* `pow(x, INT_MIN)`: the loop never ends *(proved)*.
* `pp()`: width 31 gives 30 characters and touches an unwritten `buf[31]`; a width above 31 is clamped.
* `findRoot`: both end values zero → returns the midpoint *(proved)*; the Newton-step exit may return far from the root *(proved)*.
* `hermiteDerivs`: third derivative NaN for equidistant nodes *(proved)*.
* `LogLogScaledFnc`: second derivative is returned as 0 whenever f''=0 *(proved)*.
* `findMin`: NaN for finite functions when bracketing shrinks the interval below tolerance *(proved)*.
* `PointNeighborhood`: dxToPositive = 0 at x0=f0=0; missing factor 2 under the root at a minimum; dxBetweenRoots is half the distance;
  NaN although reachable near a concave maximum *(all proved)*.
* `BandMatrix::elem` is wrong when size < 2·band *(proved)*; the constructor allows band<size.
* `createUniformGrid`/`createExpGrid`/`createNonuniformGrid` accept NaN; several degenerate node counts give NaN grids or exceptions.
* `getGLnodeAndWeight`: `n*n*n` overflows int for n>1290, for n a multiple of 2048 → endless loop *(proved)*;
  `prepareIntegrationTableGL` with N=0 writes `nodes[-1]` *(proved)*.
* `KeyValueMap`/`ConfigFile`: header says '/' starts a comment, `isComment` knows only '#' and ';'; `set("",v)` is not retrievable;
  a blank value makes `getDouble` throw; blanks around values and '=' in keys are changed by a save/load round trip;
  nameless section created after others is merged into the previous one on reload *(proved)*; empty sections are not saved *(proved)*.
* `quasiRandomHalton`: base 1 loops forever, base 0 divides by zero. `getRandomPermutation` reads `output[i]` uninitialised when j==i.
* `SphHarmIndices`: ST_ZROTATION is not enforced when mmax>0 *(proved)*. `sphHarmArray`: int overflow for l>214.
* `solveCubic` treats |D| ≤ 2·eps·R² as a double root; `solveQuartic`'s duplicate removal skips an element after each removal.
* `shared_ptr`: assignment to a member pointer that is the sole owner of its own object → use after free *(proved)*; `reset()` is a no-op
  on an aliasing pointer with a null pointer value *(proved)*. `CtrlBreakHandler` is copyable (double pop).
* `toPosDeriv<ProlSph,Cyl>` (coord.cpp:282-289): the mixed second derivatives d2R/dlambda/dnu and d2z/dlambda/dnu have the wrong sign *(proved)*.
* Cylindrical→spherical velocities at the origin: vphi is dropped and theta may be outside [0,pi] *(proved)*.
* Axi coordinates with Δ²=0: the position at the origin gives cot ν = NaN, and a velocity with vR<0 there comes back reversed *(proved)*.
* `KeplerBinary::evalCar` (potential_analytic.cpp:212-219): the second derivatives have the wrong overall sign *(proved)*;
  `KeplerBinary::enclosedMass` returns 0 for r<sma even when q=0, when the only black hole sits at the origin *(proved)*.
* `BasePotential::densityCyl/densitySph` on the z axis assume axisymmetry: the result is wrong for triaxial potentials *(proved)*.
* `Sphericalized<BasePotential>::evalDeriv` at r=0 returns the second derivative along the x axis rather than its mean over directions, so that it is
  discontinuous there for any flattened potential *(proved)*; `Axisymmetrized<BasePotential>` likewise does not average at the origin.
* `constructCubicSpline` (math_spline.cpp:454-465): for data that are symmetric about zero a prescribed left slope is replaced by minus the right one *(proved)*.
* `integratePiecewise` (math_spline.cpp:797): for a weight function and a lower limit beyond the first segment, `sum += I0[i]` reads array elements that were never set *(proved)*;
  a segment whose weight integrates to zero is skipped although the product does not vanish *(proved)*.
* `findRoots`: an interval disjoint from the grid trips an assertion (asserts are enabled in the default build) *(proved)*; a root exactly at zero is
  never recognized as a duplicate *(proved)*.
* `BsplineInterpolator1d::eval` (math_spline.cpp:1889-1898) writes the nonzero components at a wrong place (out of bounds of the temporary array) and returns zeros *(proved)*.
* `integrateBspline` throws for orders one less than the tabulated maximum.
* `findExtremaBspline<1>`: the end of the interval is missing when it coincides with an interior node; the beginning of a plateau is listed
  even if it is not an extremum *(both proved)*.
* `solveQuartic`: when zero is a double root of the resolvent cubic and gives complex factors, no roots are found, e.g. for x^4+x^2=0 *(proved)*.
* math_geometry.h:38-39 asks to negate the result of `isPointInsidePolygon` for clockwise polygons; it does not depend on the orientation *(proved)*.
* orbit.h:146-148: a second call of `run()` does not continue where the first one ended, but at the end of the solver's last step, which is usually later;
  the time in between is never presented to the runtime functions and the final time is shifted by the same amount *(proved)*.
* `RuntimeTrajectory`: a sampling interval below the roundoff error of the time leads to a negative array index *(proved)*.
* `OrbitIntegrator<Cyl>::eval` with R<0 and non-zero azimuthal velocity evolves the angle in the opposite direction to the velocity presented by `getSol`
  *(proved)*; the same holds in spherical coordinates for r<0 or theta outside 0..pi. Such states only arise from overshooting near the axis.
* The Hermite integrator is accepted for time-dependent potentials, but the derivative of acceleration omits the explicit time derivative *(proved)*.
- **math_ode.cpp (OdeSolverHermite)**: the dense output is discontinuous across steps (the corrected position differs from the end of the interpolating polynomial by crackle dt^5/720, `C84_refuted_continuous`); after `init`, `getSol` at the current time uses stale coefficients (`C84_refuted_init`); there is no check of the element index (`C84_refuted_index`); for force-free motion the proposed timestep is 0/0 (`C84_refuted_free`). The class is not used elsewhere in the C++ code.
- **math_ode.cpp:733 (Ode2SolverGL4::getSol)**: the velocity polynomial is written as `T*4*((*r)+T*5*(*s))`, i.e. the last term is 20 s T^4 instead of 5 s T^4, so that the velocity inside a step is not the derivative of the position (`C85_refuted_velocity4`). GL4 is used for the variational equation (orbit_variational.h).
- **cubature.cpp:1010, math_core.h (integrateNdim)**: `maxNumEval` is documented as the upper limit on the number of function calls, but the first rule evaluation is always made in full (`C88_refuted_limit`: at least 15 evaluations with the limit 1), and the last refinement may exceed the limit by up to 2 rule evaluations (`C88_numEval`).
- **cubature.cpp:685-750 (1-dimensional rule), math_core.cpp (integrateNdim)**: if the limits are swapped (lo>hi), the estimated errors are non-positive and the integral is accepted after the first evaluation whatever the tolerance (`C88_refuted_reversed`).
- **math_sample.cpp:295-305 (evalFncLoop)**: when several threads encounter an error, the string `errorMsg` is assigned by all of them without synchronization (a data race); not modelled, since the model of the schedule is at the level of blocks.
- **math_sample.cpp:375-386 (addCellToQueue)**: the number of new points is rounded down while the weight of the points is halved exactly, thus the density of points in a refined cell is slightly smaller than the inverse weight; the history in `C89_sample` records the exact rounded-down counts.
- **math_sample.cpp:424, 633**: for numSamples=0 the address of the first element of an empty vector is taken and the weight of one output sample is a division by zero; `C89_sample` requires a positive number of samples.
- **actions_isochrone.cpp:77-85 (mapIsochrone)**: the eccentric anomaly is computed for the wrapped radial angle, but the phase uses the angle as given; hence the position is not periodic in the radial angle outside [0,2pi) (`C90_refuted_unwrapped`).
- **actions_isochrone.cpp:63, 97 (mapIsochrone)**: for zero azimuthal action the sign is zero, and the azimuth does not flip when the point crosses the z axis; a point on a polar orbit moving downwards is put on the other side of the axis (`C90_refuted_polar`).
- **actions_isochrone.cpp:19, 48**: for zero energy the angular frequencies are zero rather than NaN (J0 is infinite), although the actions and angles are NaN; not modelled.
- Density grids (C91): `binSearch` reports every x ≥ the only element as outside when the array has one element, while with several elements the last one belongs to the grid; hence a grid with a single shell ignores points exactly at its outer radius, whereas grids with more shells count them (`C91_refuted_single_shell`). A negative (not only zero) first element of the grid is silently dropped by the constructors of all three schemes.
- **math_spline.cpp:2175-2176 (LinearInterpolator2d::evalDeriv)**: all three second derivatives are reported as zero, but the mixed derivative of a bilinear function is (f_uu-f_ul-f_lu+f_ll)/(dx dy), not zero (`C95_refuted_bilinear_mixed`); they are also zero rather than NaN outside the grid.
- **potential_disk.cpp:75-90 (DiskDensityRadialRichExp)**: at R=0 without an inner hole, `Rcut*Rinv` is 0 times infinity, so both derivatives are NaN (hence also the forces and density of DiskAnsatz at the origin), even when the profile is smooth there (`C97_refuted_centre`); the special cases for R=0 in line 79 have no effect, and its value 1 for n=1 should be 1/R_d.
- **df_halo.cpp:107-110 (DoublePowerLaw with a core)**: at J=0 the value is reset to norm/(2 pi J0)^3, but then multiplied by pow(inf, -slopeIn/2)=0, so that the DF is zero exactly at the origin, although it tends to norm/(2 pi J0)^3 (J0/Jcore)^slopeIn there (`C98_refuted_core`).
- **df_halo.cpp:112, df_halo.h (Jphi0)**: with rotFrac non-zero and the default Jphi0=0 the value is NaN for any orbit with Jphi=0 (`C98_refuted_rot`); the constructor accepts it.
- **df_disk.h:50-70, 115-124 (documentation)**: the documented factor 1/(1-q_Jphi) in QuasiIsothermal is a multiplication by (1-q_Jphi) in the code; the q-exponentials documented in the velocity dispersions are plain exponentials; the suppression of counter-rotating orbits is not a separate factor f_phi but is added to the argument of the q-exponential for Jr. The specification of C98 follows the code in these three points. For 0<q<=1e-7 the value uses a series and the derivatives the exact form; C98 proves only non-negativity there.
- **potential_perfect_ellipsoid.cpp:155 (PerfectEllipsoid::evalCyl)**: the sign of the derivative is flipped when `D>0 && z<0`, but the comment and the oblate case require `D2>0`; for a prolate model (A<B) just below the equatorial plane near the focal ring, the radial force has the wrong sign (`C100_perfect_ellipsoid_sign`).
- **potential_perfect_ellipsoid.h:74-76 (PerfectEllipsoid)**: the constructor performs no checks of the scale radii.
- **potential_dehnen.cpp:28-36 (Dehnen)**: the constructor accepts zero or negative axis ratios; a model with positive mass may then have a negative density (`C100_dehnen_axis`).
- **particles_io.cpp:111-114 (readSnapshotText)**: a particle with x printed as `nan` or `inf` is silently skipped (`C101_nonfinite_particle_lost`); a header with a line break followed by numbers adds a particle (`C101_header_injection`); the last line without a terminating newline is ignored (`C101_unterminated_line_ignored`).
- **particles_io.cpp:438-439 (readSnapshot)**: for files shorter than 8 bytes the format is determined from uninitialised memory (`C101_short_file_detection`).
- **particles_io.cpp:163-175 (NemoSnapshotWriter::putArray)**: with no particles, the dimensions {0,3} are terminated by their own first element and the file cannot be decoded (`C102_nemo_empty_snapshot_undecodable`); also `&pos[0]` is taken of an empty vector.
- **math_gausshermite.h (GaussHermiteExpansion::normn)**: the documentation omits the factor 1/sqrt(2 pi) in the integral which the function returns (`C103_normn`).
- **math_gausshermite.cpp:239-242 (GaussHermiteFitterFnc)**: the derivatives are those of the residual at a fixed point and weight, not of the returned values (the points move with the parameters); `C103_fit_fnc_deriv` states what they are. With fitorder>2 (not used) the derivatives by centre and width of both classes would be wrong (`C103_fit_higher_order_refuted`), and the ones by coefficients would divide by the sum of the series, which may be zero.
- **galaxymodel_fokkerplanck.cpp:731, 1058, 1169-1170 (FokkerPlanckSolver)**: a positive capture radius with `lossConeDrain=false` leaves the loss-cone matrix empty, and every `evolve()` throws an exception from `blas_daxpy` (`C105_no_losscone_throws`).
- **galaxymodel_fokkerplanck.cpp:1152-1165 (evolve)**: the extrapolation ("energy correction") term may make the distribution function negative (`C104_correction_negative`), and because its first row is zeroed out it creates or destroys mass (`C105_correction_mass`).
- **galaxymodel_fokkerplanck.cpp:1182-1184, 1219-1235 (evolve)**: the flux through the outer boundary (fixed value) is not recorded (`C105_outer_leak`); the mass recorded as lost in the loss cone is that of a separate step without relaxation, including the two fixed boundary nodes, not the one actually removed (`C105_lossCone`, `C105_lossCone_mismatch`).
- **raga_losscone.cpp:124-125 (createRuntimeFnc)**: the condition `bh.sma==0` is inverted: for a binary the capture radius of the first black hole is computed from the total mass, and that of the second one is zero (`C106_radius_binary_refuted`); after coalescence only a part of the mass is used (`C106_radius_coalesced_refuted`).
- **raga_losscone.cpp:199-203 (finishEpisode)**: the mass ratio of a binary is updated as if the entire captured mass was added, ignoring `captureMassFraction` (`C106_binary_fraction_refuted`).
- **raga_binary.cpp:60, 130 (computeLztorque)**: the torque of the stellar potential is computed with the wrong sign, so that subtracting it doubles the change caused by stars instead of removing it (`C107_torque_sign_refuted`).
- **raga_binary.cpp:202-225 (evolveBH)**: if stars transfer enough energy to the binary to unbind it during the episode, the loop never ends (`C107_nontermination_refuted`).
- **raga_relaxation.cpp:192-207 (createSphericalPotential)**: on a sparse radial grid the inner slope is overestimated, and slopes below the limit 1/4 are left unchanged (`C108_slope_refuted`).
- **potential_spheroid.cpp:133-142 (NukerParam::mass)**: there is no check for a divergent mass (`beta <= 2` without a cutoff); the analytic expression then may be negative (`C110_nuker_negative_mass`). The constructor rejects these parameters.
- **potential_spheroid.cpp:176-191 (createNukerDensity)**: a cutoff with a non-positive strength is accepted, unlike in createSpheroidDensity, and then the mass may diverge although the condition `beta > 2` is waived (`C110_nuker_weak_cutoff`).
- **math_spline.cpp:1603-1619 (LogLogSpline, second constructor)**: the points are checked by the criterion of monotonicity for cubic interpolation, but interpolated by a quintic spline, which may be non-monotone for increasing data (`C112_refuted_monotone`).
- **math_spline.cpp:1658-1664 (LogLogSpline::evalDeriv)**: at an end of the grid next to a non-positive value the extrapolation is constant, so that the derivative jumps (`C111_refuted_smooth`; by design).
* C113: "assigned velocities will not exceed the local escape velocity at any point" (galaxymodel_velocitysampler.h:107) does not hold for the Jeans variants: when 100 draws are unbound, the last one is used unchanged (assignVelocityEdd resets the velocity to zero).
* C113: the spherical Jeans variant is documented to sample "from a Gaussian distribution", but the magnitude of the tangential velocity is drawn from a one-dimensional normal distribution and then given a random direction in the tangential plane: the dispersion is right, the distribution is not Gaussian (fourth moment 9/2 instead of 3 times the squared dispersion), so that for beta=0 the velocities are not isotropic.
* C113: galaxymodel_velocitysampler.h declares `assignVelocityJeansAxi(..., kappa)` which is not defined anywhere; the implemented function has no kappa argument.
* C115: the density of the King model as a function of the potential has a small upward jump at the threshold `phicrit` between the truncated series and the closed form (relative size below phicrit^2/((g+3/2)(g+5/2))).
* C116: at a node where the density is negative and the accumulated pressure positive, the square root in createJeansSphModel is NaN, which `fmin` ignores: the point is kept with the escape velocity as its velocity dispersion (the check is rho!=0, not rho>0).
* C117: updateTotalPotential replaces the total potential before the action finder is created; if the latter throws (e.g. a non-axisymmetric potential in ActionFinderAxisymFudge), the model is left with the new potential and the action finder of the old one, which doIteration (which only checks that both exist) uses without complaint.
* C119: projectedEval computes the integral of Phi(X,Y,Z)-Phi0(Z) with Phi0 on the z axis of the model (`PosCar(0,0,Z)` is not rotated) instead of the line of sight (0,0) as documented in potential_utils.h; for a non-spherical potential and an inclined view the value differs by a constant, and is not zero at X=Y=0.
