{"id": "C01", "title": "Tokenising a string", "statement": "splitString(src, delim) returns exactly the maximal runs of non-delimiter characters of src, in order: every token is non-empty and contains no delimiter, tokens are separated in src by at least one delimiter, nothing but delimiters is lost, and the result is empty iff src holds only delimiters.", "quantifier": "all source strings and all delimiter sets (including empty ones)", "why_tests_cant": "strings and delimiter sets are unbounded; tests sample a few literals", "anchors": ["src/utils.cpp:splitString", "src/utils.h"]}
{"id": "C02", "title": "Case-insensitive string equality is an equivalence", "statement": "The two stringsEqual overloads agree on every pair of (NUL-free) strings, and the relation is reflexive, symmetric and transitive, and equals equality after lower-casing; a NULL second argument is never equal.", "quantifier": "all pairs/triples of byte strings", "why_tests_cant": "transitivity/agreement over all strings cannot be sampled", "anchors": ["src/utils.cpp:stringsEqual"]}
{"id": "C03", "title": "Parameter map behaves as a case-insensitive map", "statement": "After any sequence of set/unset/add/pop operations on a KeyValueMap, reading a (non-empty) key returns the value most recently stored under any case-variant of that key, or the default if it was removed / never stored; contains() agrees; no two stored keys are equal up to case; operations on one key never affect reads of a different key.", "quantifier": "all histories of operations, all keys and values", "why_tests_cant": "histories and keys are unbounded", "anchors": ["src/utils_config.cpp:KeyValueMap::set", "src/utils_config.cpp:KeyValueMap::unset", "src/utils_config.cpp:KeyValueMap::add", "src/utils_config.cpp:KeyValueMap::getString"]}
{"id": "C04", "title": "Duplicate parameters are rejected and everything else is preserved in order", "statement": "Parsing a list of lines into a KeyValueMap fails iff two key=value lines have keys equal up to case; otherwise the dump contains one line per input line, in order, with comments and blank lines retained verbatim (after stripping leading blanks).", "quantifier": "all lists of input lines", "why_tests_cant": "unbounded inputs", "anchors": ["src/utils_config.cpp:KeyValueMap::add", "src/utils_config.cpp:KeyValueMap::dumpLines"]}
{"id": "C05", "title": "Synonymous keys", "statement": "getStringAlt/popStringAlt(key1,key2) raises an error iff both keys are present, else returns the value of the one present or the default; after a successful pop neither key is present and all other keys are unchanged.", "quantifier": "all maps, all key pairs", "why_tests_cant": "unbounded state space", "anchors": ["src/utils_config.cpp:KeyValueMap::getStringAlt", "src/utils_config.h:popStringAlt"]}
{"id": "C06", "title": "Dump/parse round trip of a parameter map", "statement": "Re-parsing the lines dumped from any map built by parsing, set (with well-formed key/value) and unset reproduces the same list of entries, so nothing is lost or reinterpreted when parameters are saved and reloaded.", "quantifier": "all maps reachable by parse/set/unset with well-formed arguments", "why_tests_cant": "unbounded text", "anchors": ["src/utils_config.cpp:KeyValueMap::dumpLines", "src/utils_config.cpp:KeyValueMap::add"]}
{"id": "C07", "title": "INI parsing is memory-safe and merges sections", "statement": "Reading any file never indexes a section outside the list; every non-section line is stored in the section most recently opened (or in the nameless first section if none was), section names are matched ignoring case, and listSections has no two names equal up to case.", "quantifier": "all file contents", "why_tests_cant": "arbitrary text files", "anchors": ["src/utils_config.cpp:ConfigFile::ConfigFile"]}
{"id": "C08", "title": "INI save/load round trip, and untouched files are not rewritten", "statement": "Destroying a ConfigFile writes the file iff some section was modified by set/unset; reading the written file back gives the same sections with the same key/value pairs in the same order.", "quantifier": "all files and all modification histories with well-formed values", "why_tests_cant": "unbounded files/histories", "anchors": ["src/utils_config.cpp:ConfigFile::~ConfigFile"]}
{"id": "C09", "title": "String to number/bool conversion", "statement": "toInt never overflows: it returns the truncated value when it fits and saturates at INT_MAX/INT_MIN otherwise, and raises iff nothing parseable or not finite (empty gives 0). toBool is decided by the first non-blank character: true for y,Y,t,T,1, false for n,N,f,F,0,end, error otherwise.", "quantifier": "all strings / all parsed values", "why_tests_cant": "infinite input domain", "anchors": ["src/utils.cpp:toInt", "src/utils.cpp:toBool"]}
{"id": "C10", "title": "Pretty-printing fits exactly the requested width", "statement": "pp(num,width) returns a string of exactly `width` characters for every number.", "quantifier": "all numbers and widths", "why_tests_cant": "infinite numbers, rounding-up corner cases at every power of ten", "anchors": ["src/utils.cpp:pp", "src/utils.h:pp"]}
{"id": "C11", "title": "Binary search returns the bin containing x", "statement": "For a strictly increasing array, binSearch returns the unique k with arr[k]<=x<arr[k+1] (last bin closed), -1 if x<arr[0] or x is NaN or the array is empty, and size-1 if x is above the last element; it never reads outside the array and always terminates, whatever the rounding error in its interpolated first guess.", "quantifier": "all array sizes, all sorted arrays, all x, all first guesses", "why_tests_cant": "unbounded sizes and rounding behaviours", "anchors": ["src/math_core.cpp:binSearch"]}
{"id": "C12", "title": "Integer powers", "statement": "pow(x,n) equals x^n for every integer n (including 0 and negatives, with x!=0 for negatives).", "quantifier": "all x and all n (n != INT_MIN)", "why_tests_cant": "infinite domain", "anchors": ["src/math_core.cpp:pow"]}
{"id": "C13", "title": "Angle wrapping", "statement": "wrapAngle(x) is in [0,2pi) and differs from x by an integer multiple of 2pi; unwrapAngle(x,prev) differs from x by an integer multiple of 2pi and is within pi of prev.", "quantifier": "all angles", "why_tests_cant": "continuum of inputs", "anchors": ["src/math_core.cpp:wrapAngle", "src/math_core.cpp:unwrapAngle"]}
{"id": "C14", "title": "Running average", "statement": "After adding any sequence of numbers, Averager.mean() is their arithmetic mean, count() their number, and disp() the unbiased variance sum (x-mean)^2/(N-1) (0 if N<2).", "quantifier": "all sequences", "why_tests_cant": "unbounded sequences", "anchors": ["src/math_core.h:Averager"]}
{"id": "C15", "title": "Quadratic and linear equations", "statement": "solveQuadratic/solveLinear return exactly the set of distinct real roots, in increasing order, and their number, for all non-degenerate coefficients.", "quantifier": "all coefficients", "why_tests_cant": "continuum", "anchors": ["src/math_core.cpp:solveQuadratic", "src/math_core.h:solveLinear"]}
{"id": "C16", "title": "Root finder stays in its bracket", "statement": "findRoot returns NaN iff the end values do not bracket a root (or a non-finite value is met); otherwise the returned point lies between the two end points, the iteration stops after at most 64 steps, and (for continuous F, if converged) a true root lies within the requested tolerance.", "quantifier": "all functions, intervals, tolerances", "why_tests_cant": "quantifies over all functions", "anchors": ["src/math_core.cpp:findRoot", "src/math_core.cpp:hermiteInterpMonotone"]}
{"id": "C17", "title": "Scaling transformations are mutually inverse", "statement": "For each of the scaling transformations unscale maps [0,1] onto the stated interval monotonically, the endpoints go to the endpoints, scale inverts it (where scale is closed form), and the reported du/ds is the derivative of unscale.", "quantifier": "all intervals and arguments", "why_tests_cant": "continuum", "anchors": ["src/math_core.cpp:scale", "src/math_core.cpp:unscale"]}
{"id": "C18", "title": "Hermite interpolation is exact", "statement": "hermiteInterp reproduces the given values and slopes at the end points and every cubic polynomial exactly; hermiteDerivs returns the exact 2nd..5th derivatives of every polynomial of degree <=5 for every choice of three distinct nodes.", "quantifier": "all nodes and polynomials", "why_tests_cant": "continuum", "anchors": ["src/math_core.h:hermiteInterp", "src/math_core.cpp:hermiteDerivs"]}
{"id": "C19", "title": "Uniform random numbers lie in [0,1)", "statement": "random() returns a number in the half-open range [0,1) for every generator state.", "quantifier": "all 2^128 (or 2^64) generator states", "why_tests_cant": "the offending states have probability ~2^-54 and will not be met by testing", "anchors": ["src/math_random.cpp:random"]}
{"id": "C20", "title": "Parallel random streams do not overlap", "statement": "The jump function is equivalent to exactly 2^64 generator steps, the generator has full period 2^128-1 on non-zero states, so for every seed giving a nonzero state the per-thread states set up by randomize() start disjoint subsequences of 2^64 numbers.", "quantifier": "all seeds, all pairs of threads, all positions up to 2^64", "why_tests_cant": "sequences of 2^64 numbers cannot be enumerated", "anchors": ["src/math_random.cpp:xoroshiro128plus_jump", "src/math_random.cpp:RandGenStorage::randomize"]}
{"id": "C21", "title": "Thread-private random streams", "statement": "Each thread draws from its own generator state, so the numbers drawn by one thread do not depend on how calls of other threads interleave with it.", "quantifier": "all interleavings of random() calls by several threads", "why_tests_cant": "schedules are unbounded and tests run one", "anchors": ["src/math_random.cpp:random", "src/math_random.h:random"]}
{"id": "C22", "title": "Random permutation", "statement": "getRandomPermutation fills the array with each of 0..count-1 exactly once, for every count and every random stream.", "quantifier": "all counts, all random streams", "why_tests_cant": "unbounded", "anchors": ["src/math_random.cpp:getRandomPermutation"]}
{"id": "C23", "title": "Random vectors and rotations", "statement": "getRandomUnitVector has unit norm; getRandomPerpendicularVector returns |vec| and a unit vector orthogonal to vec for every vec (including axis-aligned and null ones); getRandomRotationMatrix is orthogonal with determinant +1.", "quantifier": "all input vectors and random draws", "why_tests_cant": "continuum", "anchors": ["src/math_random.cpp:getRandomUnitVector", "src/math_random.cpp:getRandomPerpendicularVector", "src/math_random.cpp:getRandomRotationMatrix"]}
{"id": "C24", "title": "Halton sequence", "statement": "quasiRandomHalton(ind,base) terminates for every index iff base>=2, lies in [0,1), and distinct indices give distinct numbers.", "quantifier": "all indices and bases", "why_tests_cant": "unbounded", "anchors": ["src/math_random.cpp:quasiRandomHalton"]}
{"id": "C25", "title": "Hash-seeded generators", "statement": "hash() is a function of the data only, and two arrays of the same length differing in exactly one 8-byte word always have different hashes (so perturbing one coordinate always changes the seed).", "quantifier": "all arrays, all positions, all seeds", "why_tests_cant": "2^64 values per word", "anchors": ["src/math_random.cpp:hash"]}
{"id": "C26", "title": "Spherical-harmonic index is a bijection", "statement": "index(l,m)=l(l+1)+m maps pairs with |m|<=l<=lmax one-to-one onto 0..(lmax+1)^2-1 and index_l/index_m invert it.", "quantifier": "all l,m", "why_tests_cant": "unbounded", "anchors": ["src/math_sphharm.h:SphHarmIndices::index", "src/math_sphharm.cpp:index_l"]}
{"id": "C27", "title": "Symmetric index scheme keeps exactly the invariant harmonics", "statement": "Looping over a SphHarmIndices scheme visits (l,m) with |m|<=mmax, l<=lmax iff the corresponding real spherical harmonic is invariant under each reflection flagged in the symmetry type.", "quantifier": "all lmax, mmax, symmetry flags", "why_tests_cant": "unbounded orders", "anchors": ["src/math_sphharm.cpp:SphHarmIndices::SphHarmIndices"]}
{"id": "C28", "title": "Symmetry inferred from coefficients never loses a term", "statement": "getIndicesFromCoefs succeeds on every finite array of square length and the resulting scheme visits every nonzero coefficient.", "quantifier": "all coefficient arrays", "why_tests_cant": "unbounded", "anchors": ["src/math_sphharm.cpp:getIndicesFromCoefs"]}
{"id": "C29", "title": "Fourier transform round trip", "statement": "The forward azimuthal Fourier transform applied to samples of a trigonometric polynomial of order <= mmax returns its coefficients exactly (with and without sine terms).", "quantifier": "all mmax and all coefficients", "why_tests_cant": "unbounded", "anchors": ["src/math_sphharm.cpp:FourierTransformForward::transform"]}
{"id": "C30", "title": "Reference-counted pointers", "statement": "Under any sequence of construct/copy/assign/alias/swap/reset/destroy of the bundled shared_ptr, an object is deleted exactly once, exactly when its last owner disappears; no owner ever refers to a deleted object, and nothing leaks once all pointers are gone.", "quantifier": "all operation histories", "why_tests_cant": "unbounded histories", "anchors": ["src/shared_ptr.h"]}
{"id": "C31", "title": "Nested interrupt handlers", "statement": "For any properly nested creation/destruction of CtrlBreakHandler objects and any interrupts, the signal handler in force before the outermost object is restored, triggered() is true iff an interrupt arrived since the outermost construction.", "quantifier": "all nesting histories and interrupt times", "why_tests_cant": "signal timing", "anchors": ["src/utils.cpp:CtrlBreakHandler"]}
{"id": "C32", "title": "Band matrix element enumeration", "statement": "at(r,c) reads back what operator() stored, is zero outside the band; values() lists each in-band element exactly once; size() counts them; elem(i), 0<=i<size(), enumerates the same elements.", "quantifier": "all sizes, band widths and contents", "why_tests_cant": "unbounded sizes", "anchors": ["src/math_linalg.cpp:BandMatrix"]}
{"id": "C33", "title": "Band matrix-vector product", "statement": "blas_dgemv on a band matrix equals alpha*A*v+beta*y (or with A transposed) of the dense matrix with the same elements.", "quantifier": "all sizes, bands, vectors", "why_tests_cant": "unbounded", "anchors": ["src/math_linalg.cpp:blas_dgemv"]}
{"id": "C34", "title": "Band solver", "statement": "If no zero pivot is met, solveBand(A,b) returns x with A x = b exactly (in exact arithmetic), for tridiagonal and general bands.", "quantifier": "all sizes, band widths, matrices", "why_tests_cant": "unbounded", "anchors": ["src/math_linalg.cpp:solveBand"]}
{"id": "C35", "title": "Grid generators", "statement": "createUniformGrid/createExpGrid return strictly increasing grids of exactly the requested number of nodes whose end points are exactly xmin and xmax, and reject invalid parameters.", "quantifier": "all node counts and ranges", "why_tests_cant": "unbounded", "anchors": ["src/math_spline.cpp:createUniformGrid", "src/math_spline.cpp:createExpGrid"]}
{"id": "C36", "title": "Mirrored grids", "statement": "mirrorGrid of a strictly increasing grid starting at zero is a strictly increasing antisymmetric grid of 2n-1 nodes whose upper half is the input; any other input is rejected; the even-size symmetric grid is antisymmetric and increasing.", "quantifier": "all grids", "why_tests_cant": "unbounded", "anchors": ["src/math_spline.cpp:mirrorGrid", "src/math_spline.cpp:createSymmetricGrid"]}
{"id": "C37", "title": "B-spline basis is a partition of unity", "statement": "At any point of the grid the N+1 reported B-spline values are non-negative and sum to one, for every degree and every strictly increasing grid (clamped at the ends).", "quantifier": "all degrees, grids and points", "why_tests_cant": "continuum, unbounded sizes", "anchors": ["src/math_spline.cpp:bsplineValues"]}
{"id": "C38", "title": "Gauss-Legendre table layout", "statement": "prepareIntegrationTableGL writes every one of the N nodes/weights and nothing outside, nodes are symmetric about the midpoint with equal weights.", "quantifier": "all N>=1 and intervals", "why_tests_cant": "unbounded N", "anchors": ["src/math_core.cpp:prepareIntegrationTableGL"]}
{"id": "C39", "title": "Approximate comparison sign convention", "statement": "fcmp(x,y) returns -1 if x<y and +1 if x>y beyond the tolerance, 0 if approximately equal, for all finite numbers including zeros, and is antisymmetric.", "quantifier": "all pairs of numbers", "why_tests_cant": "continuum", "anchors": ["src/math_core.cpp:fcmp", "src/math_core.h:fcmp"]}
{"id": "C40", "title": "Unit conversions are consistent", "statement": "For every choice of internal length and time units, each to_X and from_X factor are reciprocal, and derived units are dimensionally consistent with G=1.", "quantifier": "all unit choices", "why_tests_cant": "continuum", "anchors": ["src/units.h:InternalUnits"]}
{"id": "C41", "title": "A hash-seeded generator is usable", "statement": "The generator state returned by hash() always starts a non-degenerate stream of random numbers (it never gets stuck returning zero).", "quantifier": "all input arrays and seeds", "why_tests_cant": "one in 2^64 inputs is bad", "anchors": ["src/math_random.cpp:hash", "src/math_random.cpp:xorshift64star_next"]}
{"id": "C42", "title": "Suffix test", "statement": "endsWithStr(str, end) is true iff str is some (possibly empty) string followed by end, for all strings including empty ones and ends longer than str.", "quantifier": "all pairs of strings", "why_tests_cant": "file-type dispatch relies on it for arbitrary names; repeated partial matches and degenerate lengths are not enumerable", "anchors": ["src/utils.cpp: endsWithStr"]}
{"id": "C43", "title": "Name demangling is local", "statement": "demangleName reproduces every character that is not part of an identifier, and replaces each maximal identifier independently by its demangled form (or leaves it as is if the demangler fails); in particular text is never lost or reordered.", "quantifier": "all input strings and every behaviour of the library demangler", "why_tests_cant": "ranges over all strings and all demangler results", "anchors": ["src/utils.cpp: demangleName"]}
{"id": "C44", "title": "Cubic roots", "statement": "solveCubic returns exactly the distinct real roots of a3 x^3+a2 x^2+a1 x+a0=0, sorted in increasing order, whenever the discriminant is zero or exceeds (relative to R^2) the rounding tolerance 2*DBL_EPSILON; for a3==0 it gives the roots of the quadratic. In exact arithmetic.", "quantifier": "all real coefficients with a discriminant outside the tolerance band", "why_tests_cant": "three different branches over a continuum of coefficients", "anchors": ["src/math_core.cpp: solveCubic", "src/math_core.cpp: polishRoot"]}
{"id": "C45", "title": "Function adapters report exact derivatives", "statement": "The product, shifted, log-log scaled and argument-scaled adapters report the exact value and derivatives of the combined function whenever the underlying functions do; Monomial and Gaussian report exact derivatives, and their analytic integrals (Monomial for every power; Gaussian for odd moments) equal the definite integral.", "quantifier": "all functions, points, powers and intervals", "why_tests_cant": "ranges over all functions and a continuum of points", "anchors": ["src/math_core.cpp: FncProduct::evalDeriv", "src/math_core.cpp: LogLogScaledFnc::evalDeriv", "src/math_core.cpp: Monomial", "src/math_core.cpp: Gaussian"]}
{"id": "C46", "title": "Minimum search", "statement": "findMin returns, for every finite function, a point of the interval at which the function is no larger than at both ends and at the initial guess; NaN is returned only if the function produces a non-finite value.", "quantifier": "all functions, intervals, guesses, tolerances, and every behaviour of the external minimizer within its contract", "why_tests_cant": "quantifies over all functions", "anchors": ["src/math_core.cpp: findMin"]}
{"id": "C47", "title": "Point neighbourhood estimates", "statement": "For a quadratic function the offsets reported by PointNeighborhood lead to a point where the function has strictly the requested sign, dxToNearestRoot is the nearest root and dxBetweenRoots is the distance between the two roots.", "quantifier": "all quadratic functions and points", "why_tests_cant": "continuum of functions", "anchors": ["src/math_core.cpp: PointNeighborhood"]}
{"id": "C48", "title": "Legendre function derivatives", "statement": "sphHarmArray fills lmax-m+1 elements; the derivative arrays hold the exact first and second derivatives by theta of the value array for every l and m (away from the axis by the code's threshold, and exactly on the axis), and the values have parity (-1)^(l+m) about the equator.", "quantifier": "all lmax, m, theta", "why_tests_cant": "holds for every order and angle; the recurrence must be shown to satisfy Legendre's equation for all l by induction", "anchors": ["src/math_sphharm.cpp:sphHarmArray", "src/math_sphharm.cpp:legendrePmm"]}
{"id": "C49", "title": "Azimuthal index list", "statement": "getIndicesAzimuthal lists m exactly when |m|<=mmax and cos(m phi)/sin(|m| phi) is invariant under every flagged symmetry (x, y, half-turn implied by z+mirror, z-rotation), each m once.", "quantifier": "all mmax, all symmetry flags", "why_tests_cant": "ranges over all orders and all flag combinations", "anchors": ["src/math_sphharm.cpp:getIndicesAzimuthal"]}
{"id": "C50", "title": "B-spline derivatives and smoothness", "statement": "The arrays reported for the derivatives of B-spline basis functions are the exact derivatives of the value arrays for every degree and order, the derivatives of all functions sum to zero, and values and derivatives of order below the degree agree at each node when computed from the segments on both sides.", "quantifier": "all degrees N, all orders, all strictly increasing grids, all segments and points", "why_tests_cant": "continuum of grids and points, every degree", "anchors": ["src/math_spline.cpp:bsplineValues", "src/math_spline.cpp:bsplineDerivs"]}
{"id": "C51", "title": "Natural cubic basis", "statement": "The natural cubic basis has exactly one function per grid node; the functions sum to one everywhere (including linear extrapolation), are non-negative inside the grid, are twice continuously differentiable and have zero second derivative at both ends of the grid.", "quantifier": "all grids of at least 2 nodes, all points", "why_tests_cant": "continuum of grids and points, all sizes including the special cases 2 and 3", "anchors": ["src/math_spline.cpp:bsplineNaturalCubic", "src/math_spline.cpp:bsplineValuesExtrapolated"]}
{"id": "C52", "title": "Fixed-order integration is exact for polynomials", "statement": "integrateGL accepts exactly the orders 1..40 and, using a tabulated rule of at least the requested order, integrates every polynomial of degree below twice the order over any interval, with relative error of a few 1e-16.", "quantifier": "all polynomials, intervals and orders", "why_tests_cant": "continuum of polynomials and intervals; each of 23 tables of literals must be right", "anchors": ["src/math_core.cpp:integrateGL", "src/math_glquadrature.h"]}
{"id": "C53", "title": "Computed Gauss-Legendre nodes and weights", "statement": "For every order, the nodes and weights computed on the fly are the roots of the Legendre polynomial of that order and the weights of the exact Gauss rule, so that all polynomials of degree below 2N are integrated exactly; the middle node of an odd rule is exactly zero.", "quantifier": "all orders N>=2 and all polynomials", "why_tests_cant": "unbounded order; exactness for all polynomials", "anchors": ["src/math_core.cpp:getGLnodeAndWeight", "src/math_core.cpp:prepareIntegrationTableGL"]}
{"id": "C54", "title": "Position conversions are consistent", "statement": "Converting a position between Cartesian, cylindrical and spherical coordinates and back returns the same point (angles modulo 2 pi, and up to the arbitrary angle on the axis), going through a third system gives the same result as the direct conversion, radii are non-negative, the azimuth is in (-pi,pi] and the polar angle in [0,pi], and distances are preserved.", "quantifier": "all points, including the axis and the origin where stated", "why_tests_cant": "continuum of points; special cases on the axis", "anchors": ["src/coord.cpp:toPos", "src/coord.h:toPos"]}
{"id": "C55", "title": "Phase-space conversions are consistent", "statement": "Converting position and velocity between Cartesian, cylindrical and spherical coordinates and back returns the same phase-space point (except at the very origin, where the azimuthal velocity is lost on the way through spherical coordinates); the converted velocity is the time derivative of the converted position along any motion; speed, Lz and total angular momentum do not depend on the coordinate system.", "quantifier": "all positions, velocities and differentiable motions", "why_tests_cant": "continuum of states; degenerate points on the axis and at the origin", "anchors": ["src/coord.cpp:toPosVel", "src/coord.cpp:Ltotal", "src/coord.cpp:Lz", "src/coord.cpp:toMomenta"]}
{"id": "C56", "title": "Derivatives of coordinate transformations", "statement": "The first and second derivatives returned by toPosDeriv are the partial derivatives of the returned coordinates with respect to the input coordinates.", "quantifier": "all points off the coordinate singularities, all six pairs of Cartesian/cylindrical/spherical systems", "why_tests_cant": "continuum of points; second derivatives of six transformations", "anchors": ["src/coord.cpp:toPosDeriv"]}
{"id": "C57", "title": "Gradients and Hessians convert by the chain rule", "statement": "If a function has the given gradient (and Hessian) in one coordinate system, the output of toGrad (toHess) is its gradient (Hessian) in the other one.", "quantifier": "all twice differentiable functions, all points off the coordinate singularities, all six pairs", "why_tests_cant": "quantifies over all functions", "anchors": ["src/coord.h:toGrad", "src/coord.cpp:toGrad", "src/coord.cpp:toHess", "src/coord.h:evalAndConvert"]}
{"id": "C60", "title": "Functions of the spherical radius", "statement": "evalAndConvertSph returns the gradient and Hessian of f(r) in Cartesian, cylindrical and spherical coordinates, including the Cartesian case at the origin for functions with zero slope there.", "quantifier": "all twice differentiable functions of radius and all points", "why_tests_cant": "quantifies over all functions", "anchors": ["src/coord.cpp:evalAndConvertSph"]}
{"id": "C61", "title": "Rotations of the reference frame", "statement": "The orientation built from Euler angles is the documented sequence of three elementary rotations; it is orthogonal with determinant one; forward and backward transformations of points, velocities, second moments, gradients and Hessians are mutually inverse; the opposite angles in reverse order give the inverse; the angles extracted from any rotation matrix are in the documented range and reproduce the matrix also in the degenerate case; rotated gradients and Hessians are those of the rotated function.", "quantifier": "all angles, rotation matrices, vectors, samples of velocities and functions", "why_tests_cant": "continuum of angles and functions; degenerate inclinations", "anchors": ["src/coord.cpp:Orientation", "src/coord.h:Orientation"]}
{"id": "C58", "title": "Prolate spheroidal coordinates", "statement": "Conversion between cylindrical and prolate spheroidal coordinates (lambda, nu, phi) with focal parameter Delta^2>0: the computed lambda>=Delta^2 and |nu|<=Delta^2 are exactly the two roots of R^2/(t-Delta^2)+z^2/t=1, nu carries the sign of z; conversions there and back are the identity in both directions; out-of-range lambda or nu are rejected; the returned first and second derivatives, velocities, gradients and Hessians are those of the coordinate maps; the derivatives at the focal points are rejected.", "quantifier": "all Delta^2>0, all points, all twice differentiable functions", "why_tests_cant": "continuum of points and parameters with cancellation-avoiding branches", "anchors": ["src/coord.cpp:toPosDeriv<Cyl,ProlSph>", "src/coord.cpp:toPosDeriv<ProlSph,Cyl>", "src/coord.cpp:toPosVel<Cyl,ProlSph>", "src/coord.cpp:toGrad", "src/coord.cpp:toHess"]}
{"id": "C59", "title": "Universal axisymmetric (Axi) coordinates", "statement": "Conversion between cylindrical coordinates and the Axi coordinates (rho, cot nu, phi) with parameter Delta^2 of either sign or zero satisfies R=chi sin nu, z=psi cos nu with psi^2=chi^2+Delta^2; conversions of positions and velocities there and back are the identity except at degenerate points; speed, Lz and L are preserved; momenta are the covariant velocity components; velocities are scale factors times the rates of change of the coordinates; first and second derivatives, gradients and Hessians are those of the coordinate maps.", "quantifier": "all real Delta^2, all points and velocities, all twice differentiable functions", "why_tests_cant": "continuum of parameters of both signs with cancellation-avoiding branches and infinite cotangents on the axis", "anchors": ["src/coord.cpp:toPosDeriv<Cyl,Axi>", "src/coord.cpp:toPosDeriv<Axi,Cyl>", "src/coord.cpp:getPosAxi", "src/coord.cpp:toPosVel<Cyl,Axi>", "src/coord.cpp:toPosVel<Axi,Cyl>", "src/coord.cpp:toGrad", "src/coord.cpp:toHess"]}
{"id": "C62", "title": "Potential derivatives are derivatives of the potential", "statement": "For the analytic potentials, the gradient and second derivatives returned by eval() are the partial derivatives of the potential value returned by the same call, at every point where the potential is smooth, in the coordinate system requested.", "quantifier": "all parameters accepted by the constructors, all points of smoothness, all requested outputs", "why_tests_cant": "finite differences at sample points cannot establish equality of functions; the branches near r=0 and at small radii are rarely sampled", "anchors": ["src/potential_analytic.cpp", "src/potential_analytic.h", "src/coord.cpp:evalAndConvertSph"]}
{"id": "C63", "title": "Density agrees with the potential (Poisson equation)", "statement": "For analytic potentials with an explicit density formula, the density equals the Laplacian of the potential divided by 4 pi, and the enclosed mass equals r^2 dPhi/dr.", "quantifier": "all parameters, all points away from singularities", "why_tests_cant": "a continuum of parameters and points", "anchors": ["src/potential_analytic.h:densitySph", "src/potential_analytic.cpp:densityCyl"]}
{"id": "C66", "title": "Orbit of the Kepler binary", "statement": "The positions and velocities of the two point masses obey Kepler/Newton dynamics: velocity is the time derivative of the position, the barycentre is at rest in the origin, the acceleration is the mutual Newtonian attraction; the solver of the Kepler equation returns a phase whose residual is at the rounding level.", "quantifier": "all masses, mass ratios, eccentricities <1, semimajor axes, times", "why_tests_cant": "all phases and eccentricities; convergence near e=1", "anchors": ["src/potential_analytic.cpp:KeplerBinaryParams::keplerOrbit", "src/math_specfunc.cpp:solveKepler"]}
{"id": "C64", "title": "Density from the Laplacian", "statement": "For a potential that provides only eval(), density() equals the Laplacian of the potential divided by 4 pi, whichever of the three coordinate systems the request and the potential use, including points on the z axis and at the origin.", "quantifier": "all twice differentiable potentials, all points", "why_tests_cant": "must hold for every potential and for points on the singular sets of the coordinate systems", "anchors": ["src/potential_base.cpp:BasePotential::densityCar", "src/potential_base.cpp:BasePotential::densityCyl", "src/potential_base.cpp:BasePotential::densitySph"]}
{"id": "C65", "title": "Averaging over angles", "statement": "The sphericalized and axisymmetrized versions of a potential return, for every combination of requested outputs, the means over the angles of the corresponding quantities, with first and second derivatives consistent with the averaged potential; symmetry-based shortcuts do not change the result; the average is exact for band-limited functions (m<=16, l<=14).", "quantifier": "all potentials, all radii, all combinations of requested outputs, all symmetry flags", "why_tests_cant": "eight combinations of outputs times symmetry variants times a continuum of potentials; exactness of a quadrature rule is a statement about a space of functions", "anchors": ["src/potential_base.cpp:sphericalAverage", "src/potential_base.cpp:azimuthalAverage", "src/potential_base.cpp:GetPotential", "src/potential_base.cpp:Sphericalized<BasePotential>::evalDeriv", "src/potential_base.cpp:Axisymmetrized<BasePotential>::evalCyl"]}
{"id": "C67", "title": "Composite and modified potentials", "statement": "A composite potential returns the sum of the potentials, gradients and Hessians of its components in the requested coordinate system, and its density and mass are the sums; a shifted, tilted, rotating or scaled potential is the original potential in the moved frame, with derivatives and density transformed accordingly; an evolving potential uses the first/last instance outside the time range and linear interpolation or the nearest instance inside.", "quantifier": "all component lists, all mixtures of native coordinate systems, all shifts/angles/scales, all time stamps", "why_tests_cant": "all combinations of components and coordinate systems; identities between functions", "anchors": ["src/potential_composite.cpp:evalComponents", "src/potential_composite.cpp:Composite::evalCar", "src/potential_composite.cpp:Rotating<BasePotential>::evalCar", "src/potential_composite.cpp:Scaled<BasePotential>::evalCyl", "src/potential_composite.h:Tilted", "src/potential_composite.h:Shifted", "src/potential_composite.cpp:Evolving::evalCar", "src/potential_composite.cpp:searchInterp"]}
{"id": "C68", "title": "Announced symmetries are true", "statement": "Every symmetry announced by symmetry() of a composite, evolving, shifted, tilted, rotating, scaled or analytic potential really holds for its potential, provided that it holds for the underlying potentials; unknown symmetry is contagious.", "quantifier": "all potentials, all combinations of flags, all modifiers, all times", "why_tests_cant": "invariance under all reflections and rotations at all points", "anchors": ["src/coord.h:SymmetryType", "src/potential_composite.cpp:Composite::symmetry", "src/potential_composite.cpp:Tilted<BasePotential>::symmetry", "src/potential_composite.cpp:Rotating<BasePotential>::symmetry", "src/potential_analytic.h"]}
{"id": "C69", "title": "Evaluation of 1d interpolators", "statement": "An evaluated 1d interpolator (linear, cubic, quintic) passes through the given values and slopes at the nodes; the derivatives it reports are the derivatives of the value it reports (to the order of its smoothness); outside the grid it is continued linearly; a polynomial of at most the interpolator's degree is reproduced exactly.", "quantifier": "all grids, node values and slopes, all points inside and outside of the grid", "why_tests_cant": "statement about a continuum of points and data, including the joins of segments", "anchors": ["src/math_spline.cpp:evalCubicSplines", "src/math_spline.cpp:evalQuinticSplines", "src/math_spline.cpp:CubicSpline::evalDeriv", "src/math_spline.cpp:QuinticSpline::evalDeriv", "src/math_spline.cpp:LinearInterpolator::evalDeriv"]}
{"id": "C70", "title": "Construction of cubic splines", "statement": "A cubic spline constructed from values at nodes and optional end slopes exists for every grid, is twice continuously differentiable, has the requested end conditions (given slope or zero second derivative), and is the only such spline.", "quantifier": "all grids of any size, all values, all combinations of end conditions", "why_tests_cant": "existence and uniqueness for linear systems of all sizes", "anchors": ["src/math_spline.cpp:constructCubicSpline", "src/math_spline.cpp:CubicSpline::CubicSpline"]}
{"id": "C71", "title": "Monotonicity-preserving regularization", "statement": "With the regularization option, the cubic spline is monotone on every segment whose node values and neighbours are monotone, and stays between the node values; monotone data give a monotone function everywhere; admissible slopes are left unchanged.", "quantifier": "all grids, values, end slopes, all points", "why_tests_cant": "monotonicity of a function between nodes for all data", "anchors": ["src/math_spline.cpp:regularizeSpline", "src/math_spline.cpp:CubicSpline::CubicSpline"]}
{"id": "C72", "title": "Construction of quintic splines", "statement": "A quintic spline constructed from values and slopes at nodes exists for every grid, has three continuous derivatives and zero fourth derivative at the ends, and is the only such spline.", "quantifier": "all grids of any size, all values and slopes", "why_tests_cant": "existence and uniqueness for linear systems of all sizes", "anchors": ["src/math_spline.cpp:constructQuinticSpline", "src/math_spline.cpp:QuinticSpline::QuinticSpline"]}
{"id": "C73", "title": "Integrals of interpolators against powers", "statement": "integrate(x1,x2,n) of an interpolator returns the integral of S(x)x^n between the limits restricted to the grid, for limits in any order and position, up to the rounding of the quadrature tables.", "quantifier": "all grids, all data, all limits, all powers within the tabulated range", "why_tests_cant": "exactness on a space of functions, all positions of limits relative to nodes", "anchors": ["src/math_spline.cpp:integratePiecewise", "src/math_spline.cpp:CubicSpline::integrate"]}
{"id": "C74", "title": "Integrals of an interpolator times an arbitrary function", "statement": "integrate(F,x1,x2) and the convolution variant return the integral of S(x)F(x) (resp. S(x)F(y-x)) between the limits, using only the moments of F, and the coefficients of the local polynomials are recovered exactly.", "quantifier": "all grids, data, limits, weight functions given by their moments", "why_tests_cant": "statement about all functions and all positions of the limits; reads of uninitialised memory do not show up in tests", "anchors": ["src/math_spline.cpp:integratePiecewise", "src/math_spline.cpp:vandermonde"]}
{"id": "C75", "title": "Roots of 1d interpolators", "statement": "roots(y,x1,x2) returns, in increasing order and without omissions or repetitions, exactly the points of the interval where the interpolator equals y.", "quantifier": "all grids, data, target values and intervals", "why_tests_cant": "completeness of a root list over a continuum, for all positions of the roots relative to nodes and tolerances", "anchors": ["src/math_spline.cpp:findRoots", "src/math_spline.cpp:RootsCubicSpline", "src/math_spline.cpp:CubicSpline::roots"]}
{"id": "C76", "title": "B-spline interpolators", "statement": "The B-spline interpolators of any degree: value and derivatives are those of a piecewise polynomial with the appropriate smoothness; values are bounded by the amplitudes; amplitudes of derivatives and antiderivatives represent exactly the derivative and the integral; the low-level evaluation of basis functions, accumulation of weighted points and the conversion to a cubic spline agree with it.", "quantifier": "all degrees, grids, amplitudes, points and derivative orders", "why_tests_cant": "identities between functions over a continuum, for every degree and grid", "anchors": ["src/math_spline.cpp:BsplineWrapper", "src/math_spline.cpp:BsplineInterpolator1d", "src/math_spline.cpp:bsplineDerivs", "src/math_spline.cpp:CubicSpline::CubicSpline"]}
{"id": "C77", "title": "Extrema of 1d interpolators", "statement": "extrema(x1,x2) returns an increasing list of points that begins with the lower end of the interval, such that the interpolator is monotone between adjacent points, turns at each interior one, and is constant from the last point to the upper end of the interval (usually the last point is that end).", "quantifier": "all grids, data and intervals", "why_tests_cant": "monotonicity between the returned points is a statement about a continuum, for every position of the stationary points", "anchors": ["src/math_spline.cpp:findRoots", "src/math_spline.cpp:RootsCubicSpline", "src/math_spline.cpp:RootsDerivQuinticSpline", "src/math_spline.cpp:findExtremaBspline"]}
{"id": "C78", "title": "Quartic roots", "statement": "solveQuartic returns exactly the distinct real roots of a4 x^4+a3 x^3+a2 x^2+a1 x+a0=0 in increasing order.", "quantifier": "all coefficients", "why_tests_cant": "exactness and completeness for all real coefficients, including multiple roots", "anchors": ["src/math_core.cpp:solveQuartic", "src/math_core.h:solveQuartic"]}
{"id": "C79", "title": "Polygons: clipping, area and inside test", "statement": "Clipping a polygon by a rectangle gives a polygon within the rectangle that contains exactly the points of the rectangle's interior that were inside the original one, and leaves a polygon inside the rectangle unchanged; the area is the integral of the winding number over the plane (negated by reversing the order of vertices); the inside test tells whether the point is covered by the polygon, independently of its orientation.", "quantifier": "all polygons (any number and position of vertices), rectangles and points", "why_tests_cant": "region identities over a continuum of points, for any number of vertices and all degenerate positions", "anchors": ["src/math_geometry.cpp:clipPolygonByRectangle", "src/math_geometry.cpp:polygonArea", "src/math_geometry.cpp:isPointInsidePolygon"]}
{"id": "C80", "title": "Integrals of B-splines over polygons", "statement": "computeBsplineIntegralsOverPolygon adds to the output array the integrals over the polygon of the tensor products of B-spline basis functions, for a polygon of any shape and orientation, also extending beyond the grid, and returns true exactly when some vertex is outside the grid.", "quantifier": "all grids, polygons and basis functions", "why_tests_cant": "equality with an integral, for any polygon and any relative position of its vertices and the grid", "anchors": ["src/math_geometry.cpp:computeBsplineIntegralsOverPolygon", "src/math_geometry.cpp:integrateOverPolygon", "src/math_geometry.cpp:integrateOverTriangle", "src/math_geometry.cpp:integrateOverRectangle"]}
{"id": "C81", "title": "Orbit integration loop and trajectory recording", "statement": "run(totalTime) presents to the runtime functions consecutive time intervals without gaps, starting at the current time and ending exactly at the requested one (forward or backward), unless the solver fails, a function asks to stop or the limit of steps is reached, and returns the solution at the end of the last interval; the recorded trajectory contains exactly one sample for each multiple of the sampling interval covered (interval>0), the initial point and the end of every step (interval=0), or only the final point (infinite interval). A repeated call of run() continues the orbit.", "quantifier": "all solvers and step sequences, sets of runtime functions, durations of either sign, sampling intervals", "why_tests_cant": "holds for every sequence of step lengths chosen by the integrator", "anchors": ["src/orbit.cpp:BaseOrbitIntegrator::run", "src/orbit.cpp:RuntimeTrajectory::processTimestep", "src/orbit.h:integrateTraj"]}
{"id": "C82", "title": "Equations of motion and coordinate frames of orbits", "statement": "In each coordinate system (Cartesian, cylindrical, spherical), the solution of the differential equations used by the integrator, as presented to the user in the frame rotating with frequency Omega, satisfies Newton's equations in the given potential, begins at the given initial conditions, and (for a potential static in that frame) conserves the Jacobi integral; normalization of coordinates (R<0, r<0, theta outside 0..pi) does not change the physical point; the Hermite integrator receives the time derivative of acceleration.", "quantifier": "all potentials, frequencies, times, phase-space points and trajectories", "why_tests_cant": "an identity between derivatives over all potentials and trajectories", "anchors": ["src/orbit.cpp:OrbitIntegrator::init", "src/orbit.cpp:OrbitIntegrator::getSolNative", "src/orbit.cpp:OrbitIntegrator::eval", "src/orbit.cpp:OrbitIntegrator::getAccuracyFactor"]}
{"id": "C83", "title": "Eighth-order Runge-Kutta integrator: steps, order, dense output", "statement": "OdeSolverDOP853: doStep(dt) with a given nonzero length advances the solution by exactly this length; doStep(0) tries decreasing lengths in the requested direction, accepting the first with an error estimate within tolerance (or after four attempts without improvement), returning the accepted length, or zero with no change if the length underflows; the next estimate is positive and at most 6 times longer; the result of one step differs from the exact solution by O(h^9) and the dense output by O(h^7); getSol reproduces both end points and the derivatives there; an index out of range is rejected.", "quantifier": "all ODE systems (for the order: autonomous with an analytic right-hand side), initial conditions, sequences of steps", "why_tests_cant": "the order of accuracy is a statement about all smooth systems (200 order conditions for the tabulated coefficients); acceptance logic is for all sequences of error estimates", "anchors": ["src/math_ode.cpp:OdeSolverDOP853", "src/math_ode.h:OdeSolverDOP853"]}
{"id": "C84", "title": "Hermite integrator", "statement": "OdeSolverHermite: a step of a given length is of the stated order of accuracy and is exact for polynomial motion; the dense output is continuous across steps; after init(), getSol returns the initial conditions; an element index out of range is rejected; the proposed timestep is a positive number.", "quantifier": "all systems and initial conditions, all step lengths", "why_tests_cant": "for all smooth motions and all states of the solver", "anchors": ["src/math_ode.cpp:OdeSolverHermite", "src/math_ode.h:OdeSolverHermite"]}
{"id": "C85", "title": "Collocation solvers for linear second-order systems (variational equations)", "statement": "Ode2SolverGL3/GL4 for x''=A(t)x+B(t)x': getSol reports on each step a polynomial (degree 4 or 5) that starts from the position and velocity at the end of the previous step, the reported velocity being its time derivative; the differential equation is satisfied at the Gauss-Legendre nodes up to an error that decreases as a power (6, 8 for the first step; a factor of power 3, 4 in subsequent ones) of the timestep; polynomial solutions up to this degree are continued exactly; the solution depends linearly on the initial vectors and the vectors do not influence each other; after init, getSol returns the initial vectors; an index out of range raises an exception.", "quantifier": "all matrices A(t), B(t), all numbers of vectors and dimensions, all initial vectors and sequences of timesteps", "why_tests_cant": "for all systems and histories of steps; linearity and independence are relational properties", "anchors": ["src/math_ode.cpp:Ode2SolverGL3", "src/math_ode.cpp:Ode2SolverGL4", "src/math_ode.h:BaseOde2Solver"]}
{"id": "C86", "title": "Cubature rule is exact for low-degree polynomials", "statement": "The rule used by integrateNdim on one box integrates polynomials of total degree up to 7 (in 2 or more dimensions) or degree up to 23 (in one dimension) exactly, up to the number of digits of the constants; the estimated error is never negative, and in 2 or more dimensions it vanishes (to the same accuracy) for polynomials of degree up to 5.", "quantifier": "all numbers of dimensions, all boxes, all polynomials up to the given degree", "why_tests_cant": "for all polynomials, boxes and dimensions", "anchors": ["src/cubature.cpp:rule75genzmalik_evalError", "src/cubature.cpp:rule15gauss_evalError"]}
{"id": "C87", "title": "Priority queue of regions", "statement": "In any sequence of insertions and extractions, the heap of subregions returns an element whose error is the largest among those currently stored, and the stored multiset changes by exactly this element; extraction from an empty heap is detected.", "quantifier": "all sequences of heap operations, all elements and initial memory contents", "why_tests_cant": "for all histories of operations", "anchors": ["src/cubature.cpp:heap_push", "src/cubature.cpp:heap_pop"]}
{"id": "C88", "title": "Adaptive multidimensional integration", "statement": "integrateNdim returns the sum of estimates of a rule over boxes which tile the integration volume without gaps or overlaps, and the sum of the corresponding error estimates; it stops when for every component the estimated error is below the relative tolerance or the limit of evaluations is reached; the number of evaluations does not exceed the given limit, and the reported number is the actual one; it terminates if the limit is given; each refinement splits the box with the largest error estimate along the dimension with the largest variation; the integrand is evaluated only inside the volume; multiplication of the integrand by a factor multiplies the result and does not change the sequence of evaluations; swapping the integration limits changes only the sign of the result; an exception in the integrand is propagated.", "quantifier": "all integrands, numbers of dimensions and components, integration volumes, tolerances, limits", "why_tests_cant": "for all integrands and adaptive histories; scale invariance is a relational property", "anchors": ["src/cubature.cpp:rulecubature", "src/cubature.cpp:hcubature", "src/math_core.cpp:integrateNdim"]}
{"id": "C89", "title": "Sampling from a multidimensional function", "statement": "For any function and any region, sampleNdim either returns exactly the requested number of samples, or throws an exception for one of the documented reasons (too many dimensions, empty region, interruption, the function throws or is negative inside the region, vanishes at all initial points, no convergence after 50 iterations); it never hangs, fails an internal assertion or accesses memory out of bounds. When it succeeds: the cells tile the region without gaps or overlaps; each cell contains all points of all its batches that lie in it, the weight of points is inversely proportional to their density; the reported integral is the weighted sum of function values times the volume, the error follows from their dispersion and the number of trials is the number of points; all output samples are distinct evaluated points with positive function values, and the number of samples drawn from each cell differs by less than one from the share of this cell in the integral. The function is never evaluated outside the region, and the result does not depend on the order in which parallel threads process blocks of points and cells.", "quantifier": "all functions (including throwing and negative ones), regions, dimensions, sample counts >0, random streams, thread schedules, moments of interruption", "why_tests_cant": "holds for every function, refinement history and thread schedule", "anchors": ["src/math_sample.cpp:sampleNdim", "src/math_sample.cpp:Sampler"]}
{"id": "C90", "title": "Actions, angles and frequencies in the isochrone potential", "statement": "For any isochrone potential (including the Kepler limit): the point obtained from regular actions (non-negative radial and vertical, non-zero azimuthal) and angles that grow uniformly in time with the reported frequencies moves according to the equations of motion in this potential; the frequencies are the derivatives of the Hamiltonian with respect to the actions; the radial action is the integral of the squared radial velocity over the radial period divided by 2pi. The two directions of the transformation are inverse to each other: the actions, frequencies and energy computed for the mapped point are those which were given, and so are the angles (the radial angle is zero for circular orbits, the vertical one for planar orbits); and any point on a bound orbit off the z axis with nonzero angular momentum about it is recovered from its actions and angles. The same is expected of angles outside the interval [0,2pi) and of orbits with zero azimuthal action.", "quantifier": "all masses, scale radii, actions, angles, times, phase-space points on bound orbits", "why_tests_cant": "continuum of orbits and phases, with case distinctions at measure-zero sets (circular, planar, polar orbits, apocentre)", "anchors": ["src/actions_isochrone.cpp:evalIsochrone", "src/actions_isochrone.cpp:mapIsochrone"]}
{"id": "C91", "title": "Classic spatial discretization of orbits", "statement": "The Classic target accepts exactly the valid parameters (increasing positive radii after dropping a non-positive first element, at least one strip per pane, positive axis ratios). Adding a point of given weight within the grid changes only valid elements of the array. With piecewise-constant elements, exactly one element changes by the weight, and it is the one of the cell (shell, pane, strips) containing the point. With trilinear elements, each element changes by the weight times the value of its basis function; these functions are non-negative, sum up to unity, are continuous everywhere within the grid including the boundaries between panes and the origin, and each one is unity at its own node and zero at other nodes. The name of each coefficient is the position of the centre of its cell or of its node. Points outside the grid change nothing, and points differing by signs of coordinates are equivalent. A point at the outermost radius belongs to the grid for any number of shells.", "quantifier": "all grids, axis ratios, numbers of strips, points, weights, previous contents of the array", "why_tests_cant": "continuum of points including measure-zero boundaries between panes, where indices of different panes must be identified", "anchors": ["src/galaxymodel_densitygrid.cpp:TargetDensityClassic"]}
{"id": "C92", "title": "Spherical-harmonic and cylindrical spatial discretization of orbits", "statement": "The spherical-harmonic and cylindrical targets accept exactly the valid parameters. Adding a point of given weight within the grid changes only valid elements of the array, each one by the weight times the value of its basis function: a product of piecewise-linear functions of the grid coordinates (or the indicator of a cell for the piecewise-constant cylindrical scheme) and the azimuthal or spherical harmonic of even order. The coefficients with zero angular indices sum up to the weight of the point. The name of each coefficient states the node (or the centre of the cell) and the order of the harmonic; different functions have different numbers and all numbers below the number of coefficients are used. Points outside the grid or with zero weight change nothing; points differing by signs of coordinates are equivalent.", "quantifier": "all grids, harmonic orders, points, weights, previous contents of the array", "why_tests_cant": "index arithmetic for every order and grid size, continuum of points", "anchors": ["src/galaxymodel_densitygrid.cpp:TargetDensitySphHarm", "src/galaxymodel_densitygrid.cpp:TargetDensityCylindrical"]}
{"id": "C93", "title": "Lossless spherical-harmonic transformation", "statement": "For every index scheme accepted by the constructor and every set of coefficients, sampling the sum of the corresponding spherical-harmonic series at the points prescribed by the forward transformation (which are only in the upper hemisphere when the scheme is symmetric in z, and only on half of the circle when it has no sine terms) and transforming the samples back returns exactly the coefficients of the harmonics in the scheme and zero for all other ones, without writing outside the array of coefficients; the stride of the array of samples does not matter as long as it is positive (otherwise an exception, unless there is only one coefficient). The inverse transformation equals the sum of the series in every direction, including the poles.", "quantifier": "all orders lmax and mmax, symmetries, coefficients, strides, directions", "why_tests_cant": "all orders and symmetries; the continuum of coefficient vectors and directions", "anchors": ["src/math_sphharm.cpp:SphHarmTransformForward", "src/math_sphharm.cpp:sphHarmTransformInverse", "src/math_sphharm.h:SphHarmTransformForward"]}
{"id": "C94", "title": "Density projection agrees with adding points", "statement": "For each of the three families of spatial discretization schemes and every valid grid, the projection of a density onto the scheme (the target values of Schwarzschild models) equals what the same scheme would accumulate from a set of point masses placed at the nodes of a product quadrature rule, each with mass equal to the density times a positive weight; the weights are the products of the volume element of the corresponding coordinates, the lengths of the grid segments and the weights of one-dimensional quadrature rules, and every node is strictly within its cell. In particular, the sum of all elements (classic scheme) or of the elements with zero angular indices (other schemes) is the quadrature approximation to the mass of the density within the grid. Shortcuts for spherical and axisymmetric densities do not change the result.", "quantifier": "all grids, orders of expansion, densities (for the spherical-harmonic scheme: symmetric w.r.t. reflection in z and with truthful symmetry flags), and all elements of the result", "why_tests_cant": "the claim is an identity between two different numbering/weighting codes for every grid, order and density; a test compares a few numbers to a loose tolerance on one grid", "anchors": ["src/galaxymodel_densitygrid.cpp: TargetDensityClassic::computeDensityProjection", "src/galaxymodel_densitygrid.cpp: TargetDensitySphHarm::computeDensityProjection", "src/galaxymodel_densitygrid.cpp: TargetDensityCylindrical::computeDensityProjection", "src/math_sphharm.cpp: SphHarmTransformForward"]}
{"id": "C95", "title": "Multidimensional interpolators are exact tensor products", "statement": "On every valid grid and for every set of node data, the two-dimensional cubic and quintic splines and the three-dimensional cubic spline reproduce the node values and derivatives, return NaN outside and only outside the grid (boundary included in the grid), have outputs z_x, z_y, z_xx, z_xy, z_yy that are the true partial derivatives of the output z, are continuously differentiable (quintic: twice) across cell boundaries, and are exact for every polynomial of degree 3 (quintic: 5) in each variable. The bilinear and trilinear interpolators are continuous, reproduce node values, are linear along each axis within a cell and stay between the smallest and the largest of the node values of the cell; the first derivatives reported by the bilinear one are the true derivatives inside cells.", "quantifier": "all grids of at least two nodes in each direction, all node data, all points", "why_tests_cant": "a continuum of points, grids and data; index errors in a branch (edges, last cell) affect sets of measure zero", "anchors": ["src/math_spline.cpp: LinearInterpolator2d::evalDeriv", "src/math_spline.cpp: CubicSpline2d::evalDeriv", "src/math_spline.cpp: QuinticSpline2d::evalDeriv", "src/math_spline.cpp: LinearInterpolator3d::value", "src/math_spline.cpp: CubicSpline3d::value"]}
{"id": "C96", "title": "Two-dimensional splines constructed from values", "statement": "Constructing a two-dimensional cubic spline without the regularization filter from values on a grid (with optional slopes at any of the four edges) succeeds, and gives the unique function whose sections along each grid line are the one-dimensional interpolating splines with the prescribed or natural end conditions and whose sections along any line parallel to an axis are twice continuously differentiable cubic splines with the same end conditions; the result does not depend on which direction is processed first. With or without the filter, on each grid line the two-dimensional spline and its derivatives along the line equal those of the one-dimensional spline built from the same values with the same options. A two-dimensional quintic spline constructed from values, first and mixed derivatives has three times continuously differentiable sections along both axes with vanishing fourth derivatives at the ends.", "quantifier": "all grids of at least two nodes in each direction, all values and boundary slopes compatible with the symmetry of the nodes", "why_tests_cant": "all grids and values; independence of the order of processing is an identity between solutions of different linear systems", "anchors": ["src/math_spline.cpp: CubicSpline2d::CubicSpline2d", "src/math_spline.cpp: QuinticSpline2d::setupWithMixedDeriv", "src/math_spline.cpp: constructCubicSpline"]}
{"id": "C97", "title": "Separable disk: documented profile, consistent forces, Poisson equation, total mass", "statement": "For any admissible disk parameters the radial factor is the documented surface density (exponential or Sersic, with optional hole and modulation) and its reported derivatives are its derivatives; the vertical factor is the documented normalized profile and the reported functions H, H' are its antiderivatives; the DiskAnsatz potential reports forces and second derivatives that are those of its potential and a density equal to the Laplacian of the potential divided by 4 pi; the density passed to the multipole solver plus the density of the analytic part equals the density of the disk; and the total mass reported by the parameters equals the integral of the density over space.", "quantifier": "all disk parameters accepted by the constructor (thin, exponential and isothermal vertical profiles; any Sersic index, hole radius and modulation amplitude), all points", "why_tests_cant": "continuum of parameters and points; the total mass is an improper integral with three different closed forms", "anchors": ["src/potential_disk.cpp: DiskDensityRadialExp, DiskDensityRadialRichExp, DiskDensityVerticalExp, DiskDensityVerticalIsothermal, DiskDensityVerticalThin", "src/potential_disk.cpp: DiskAnsatz::evalCyl, DiskAnsatz::densityCyl, DiskDensity::densityCyl, DiskParam::mass", "src/potential_factory.cpp: createGalaxyPotential (PT_DISK)"]}
{"id": "C98", "title": "Action-based distribution functions: documented values, non-negativity, consistent derivatives", "statement": "For any parameters accepted by the constructors, the double power-law, exponential and quasi-isothermal distribution functions return, for every physically possible triplet of actions, the documented function of actions, which is never negative; and the derivatives with respect to the actions that they report are the derivatives of the returned value (on each side of Jphi=0).", "quantifier": "all accepted parameters (slopes, steepness, cutoff, core, mixing coefficients, q-exponents, rotation), all actions with Jr, Jz >= 0 and any Jphi; for the quasi-isothermal model, all positive differentiable epicyclic frequencies", "why_tests_cant": "continuum of parameters and actions; limiting and singular points (origin, zero angular momentum) are easily missed by sampling", "anchors": ["src/df_halo.cpp: DoublePowerLaw::DoublePowerLaw, DoublePowerLaw::evalDeriv", "src/df_disk.cpp: QuasiIsothermal, Exponential", "src/math_specfunc.cpp: qexp", "src/df_halo.h, src/df_disk.h (documented formulae)"]}
{"id": "C99", "title": "Scaled actions are a faithful change of variables, and the total mass and composite DF follow from it", "statement": "Both scalings of the action space map the unit cube onto the possible triplets of actions (Jr>=0, Jz>=0, any Jphi) and back: converting there and back returns the same point (up to the 1e-13 accuracy of the cubic scaling), out-of-range input is rejected, and the reported jacobian is the absolute determinant of the derivative of actions by scaled variables. Consequently the function integrated over the unit cube to get the total mass (or entropy) has the same integral as (2 pi)^3 f (or -(2 pi)^3 f ln f) over all possible actions with amplitude in the documented range. A composite DF evaluated at many points returns, for each point, either the sum of all components or the values of all components in order, overwriting exactly these elements of the output arrays.", "quantifier": "all scaled variables, all actions, all scale parameters, all distribution functions, any number of points and components, any previous content of the output", "why_tests_cant": "a change of variables must hold at every point of a three-dimensional domain spanning 40 orders of magnitude; a wrong jacobian only biases the total mass", "anchors": ["src/df_base.cpp:ActionSpaceScalingTriangLog", "src/df_base.cpp:ActionSpaceScalingRect", "src/df_base.cpp:DFIntegrandNdim", "src/df_factory.cpp:CompositeDF::evalmany"]}
{"id": "C100", "title": "Ferrers, Dehnen and perfect-ellipsoid potentials: forces are derivatives, Poisson's equation, documented values", "statement": "For the Ferrers bar, the spherical Dehnen profile and the axisymmetric perfect ellipsoid, the gradient and the second derivatives returned by the evaluation function are the derivatives of the returned potential, the Laplacian of the potential equals 4 pi times the density returned by the same object, and the potential itself (not merely its derivatives) is the one of the advertised density: for Ferrers, the integral over homoeoids of the triaxial body; for Dehnen, the closed form up to a stated error of the large-radius expansion; for the perfect ellipsoid, the divided difference in spheroidal coordinates.", "quantifier": "all positions (inside, outside and far from the Ferrers ellipsoid; both sides of the equatorial plane; inside and outside the regions around focal points) and all parameters accepted by the constructors", "why_tests_cant": "piecewise formulae with several regimes; errors in one regime or on one side of the equatorial plane are easily missed by sampling; the equality of forces and derivatives must hold at every point", "anchors": ["src/potential_ferrers.cpp:Ferrers", "src/potential_dehnen.cpp:Dehnen", "src/potential_perfect_ellipsoid.cpp:PerfectEllipsoid"]}
{"id": "C101", "title": "Text snapshots: what is written is what is read", "statement": "An N-body snapshot written in the text format and read back by readSnapshot yields the same particles in the same order, with positions, velocities, masses and stellar attributes equal to the original ones to the printed accuracy; attributes absent in the written kind of particles get their documented defaults; no particle is lost or added whatever the header and time.", "quantifier": "any number of particles, all finite attributes, all three kinds of particles, any non-zero units, any one-line header and time", "why_tests_cant": "any number of particles and any real attributes; the tokeniser, comment detection and format detection must agree with the writer on every text that printf may produce", "anchors": ["src/particles_io.cpp:writeSnapshotText", "src/particles_io.cpp:readSnapshotText", "src/particles_io.cpp:readSnapshot", "src/particles_io.cpp:formatParticle"]}
{"id": "C102", "title": "NEMO snapshots are decodable and complete", "statement": "A file produced by the NEMO writer is a well-formed structured file in which a standard reader finds the history, number of bodies, time, coordinate system and the arrays of positions, velocities, masses, auxiliary values and softening lengths with the correct dimensions and the particles in the original order, and nothing else.", "quantifier": "any number of particles, all three kinds of particles, all units, any header and time", "why_tests_cant": "the self-delimiting binary format must be parsed unambiguously for every number of particles and content of the arrays", "anchors": ["src/particles_io.cpp:NemoSnapshotWriter", "src/particles_io.cpp:writeSnapshotNEMO"]}
{"id": "C103", "title": "Gauss-Hermite expansions are expansions in the documented orthogonal functions", "statement": "The Hermite polynomials obey the documented derivative rule and normalisations. The expansion object evaluates A/(sqrt(2 pi) w) exp(-y^2/2) times the sum of h_n H_n(y), y=(x-c)/w; the reported norm is its integral over the real axis; projecting an expansion on the basis returns its coefficients, whatever its order. The coefficients of a general function are the 99-point trapezoidal sums of the projection integral; the conversion matrix applied to B-spline amplitudes gives the same coefficients as the code for interpolators; the functions integrated to get the starting values are those of the normalisation, mean and standard deviation; the fitting functions report the derivatives by amplitude, centre and width, and at the point where the fit is stationary the coefficients have h_0=1, h_1=0 and h_2 equal to that of a gaussian.", "quantifier": "all orders, coefficients, parameters with nonzero width and amplitude, all integrable functions, grids and B-spline degrees", "why_tests_cant": "tests compare a few expansions with tolerances; orthogonality and the closure under projection are statements about every degree and every function", "anchors": ["src/math_gausshermite.cpp:hermiteArray", "src/math_gausshermite.cpp:computeGaussHermiteMoments", "src/math_gausshermite.cpp:computeGaussHermiteMatrix", "src/math_gausshermite.cpp:GaussHermiteFitterFnc", "src/math_gausshermite.cpp:GaussHermiteFitterInterp", "src/math_gausshermite.cpp:GaussHermiteExpansion"]}
{"id": "C104", "title": "A Fokker-Planck step is an unconditionally stable implicit step of the flux equation", "statement": "For any increasing grid in phase volume, any advection and positive diffusion coefficients and any time step, the finite-difference solver's step succeeds and its result satisfies the backward-Euler equations: the mass in each cell changes by the difference of the Chang-Cooper fluxes through its sides plus the source minus the loss-cone drain, with fixed values at the outer (and absorbing inner) boundary. Without the extrapolation term a non-negative distribution function remains non-negative for any time step, and a distribution function that is in equilibrium at the nodes (ratio of neighbours = exponent of the ratio of advection and diffusion coefficients) does not change at all.", "quantifier": "all grids, coefficients, time steps, distribution functions, sources and loss rates", "why_tests_cant": "a test evolves one or two models; positivity and solvability must hold for every matrix that may be assembled", "anchors": ["src/galaxymodel_fokkerplanck.cpp:FokkerPlanckImplChangCooper", "src/galaxymodel_fokkerplanck.cpp:FokkerPlanckSolver::evolve"]}
{"id": "C105", "title": "The recorded masses of the Fokker-Planck solver account for the change of the total mass", "statement": "In each step the change of the mass of a component equals the recorded mass created by the source plus the recorded mass lost through the inner boundary and the loss cone, and the step can be made for every accepted combination of parameters.", "quantifier": "all grids, coefficients, time steps, boundary conditions and loss rates", "why_tests_cant": "a balance can be checked by a test only for particular models and to a tolerance", "anchors": ["src/galaxymodel_fokkerplanck.cpp:FokkerPlanckSolver::evolve", "src/galaxymodel_fokkerplanck.cpp:FokkerPlanckData"]}
{"id": "C106", "title": "Stars captured by the black hole(s) are found and accounted for", "statement": "During a Monte-Carlo (Raga) episode a particle whose orbit passes within the capture radius of a black hole is captured once, at the moment of closest approach; the record of time, distance, energy and black hole is true, and the orbit ends there. The capture radius is the larger of 8GM/c^2 and the tidal radius for the mass of each black hole. At the end of the episode the captured particles have zero mass, others are unchanged, the given fraction of the captured mass is added to the black hole that captured it, and the count grows by the number of captured particles.", "quantifier": "all orbits, timesteps, black-hole parameters, particle masses and sets of captured particles", "why_tests_cant": "captures depend on the orbit between timesteps; a test covers particular orbits and the accounting errors appear only for binaries", "anchors": ["src/raga_losscone.cpp:RuntimeLosscone::processTimestep", "src/raga_losscone.cpp:RagaTaskLosscone::createRuntimeFnc", "src/raga_losscone.cpp:RagaTaskLosscone::finishEpisode"]}
{"id": "C107", "title": "A binary black hole loses the energy and angular momentum that stars gain", "statement": "Each passage of a particle through the critical radius makes one record with the duration and changes of energy and angular momentum caused by the binary, whatever the timesteps are. The orbit of the binary evolves so that its energy (and, to first order, angular momentum) changes by minus the total gained by stars, plus the rates of Peters (1964) for gravitational waves; the evolution ends, with a positive semimajor axis and eccentricity within [0, 0.999], or with coalescence.", "quantifier": "all orbits, timesteps, encounters and parameters of the binary", "why_tests_cant": "conservation laws and termination must hold for every set of encounters; tests run particular simulations", "anchors": ["src/raga_binary.cpp:RuntimeBinary::processTimestep", "src/raga_binary.cpp:computeLztorque", "src/raga_binary.cpp:evolveBH", "src/raga_binary.cpp:RagaTaskBinary::finishEpisode"]}
{"id": "C108", "title": "Relaxation in the Monte-Carlo code samples orbits uniformly and heats particles at the right rate", "statement": "The phase volume of each particle is stored at equal intervals of time, each sample once, whatever the timesteps are; bad samples are removed without mixing up the others. The random velocity kick changes the mean energy at the rate given by the diffusion coefficients. The extrapolated distribution function is continuous, has finite mass and derivatives consistent with its value; the inner slope of the spherical potential is at least 1/4; the diagnostic energies are consistent.", "quantifier": "all sequences of timesteps, diffusion coefficients, random numbers, arrays of samples and fitted functions", "why_tests_cant": "a stochastic kick can be tested only statistically, and sample bookkeeping depends on the timesteps", "anchors": ["src/raga_relaxation.cpp:RuntimeRelaxation::processTimestep", "src/raga_relaxation.cpp:CautiousLogLogSpline", "src/raga_relaxation.cpp:eliminateBadSamples", "src/raga_relaxation.cpp:createSphericalPotential", "src/raga_core.cpp:computeTotalEnergyModel"]}
{"id": "C109", "title": "Double-power-law spheroids have the documented profile, symmetry and total mass", "statement": "For every accepted set of parameters the density at a point is the documented double power law (with optional exponential cutoff) of the ellipsoidal radius, the same in the three coordinate systems, with the announced symmetry, with the documented slopes in the centre and at infinity, positive, and decreasing outwards when the inner slope is not negative. The value of mass() is the integral of the density over the whole space; it is infinite when that integral diverges; parameters with a divergent mass in the centre are rejected.", "quantifier": "all parameters, all points of space", "why_tests_cant": "the mass is a closed formula or a numerical integral for a seven-parameter family; tests compare a few members", "anchors": ["src/potential_spheroid.cpp:SpheroidDensityFnc", "src/potential_spheroid.cpp:SpheroidParam::mass", "src/potential_spheroid.cpp:createSpheroidDensity", "src/potential_spheroid.cpp:SpheroidDensity"]}
{"id": "C110", "title": "Nuker and Sersic models are deprojections of the documented surface density and have its mass", "statement": "For every accepted set of parameters the values from which the density profile of a Nuker model is built are the Abel deprojection of the documented surface density, and mass() is its integral over the plane. For a Sersic model, mass() is the integral of the documented surface density, the coefficient b exists, is unique and makes the scale radius enclose half of the mass, and the tabulated density is the deprojection of the surface density up to truncation of the integral.", "quantifier": "all parameters and radii", "why_tests_cant": "identities between integrals over continuous families of parameters", "anchors": ["src/potential_spheroid.cpp:NukerIntegrand", "src/potential_spheroid.cpp:NukerParam::mass", "src/potential_spheroid.cpp:createNukerDensity", "src/potential_spheroid.cpp:SersicIntegrand", "src/potential_spheroid.cpp:SersicBRootFinder", "src/potential_spheroid.cpp:SersicParam::mass", "src/potential_spheroid.cpp:createSersicDensity"]}
{"id": "C111", "title": "LogLogSpline of positive data is a smooth, positive, monotonicity-preserving interpolant with power-law extrapolation", "statement": "Constructed from function values at increasing positive nodes, LogLogSpline takes the given values at the nodes and is continuous for all positive arguments, also when some of the values are zero or negative; it is nowhere negative if no value is negative. If all values are positive, it is positive and continuously differentiable everywhere, its first derivative (and between the nodes its second derivative) is the reported one, outside of the grid it is the power law with the logarithmic slope of the end point, it is monotone on the whole half-line if the values are monotone, and power laws are reproduced exactly. A derivative supplied at an end is the derivative of the interpolant there unless it is changed by the slope limiter (or the points are symmetric).", "quantifier": "all numbers of nodes, grids, values of any sign, end derivatives, and positive arguments", "why_tests_cant": "a claim about all data arrays and all arguments; tests use a few functions and compare values to a tolerance", "anchors": ["src/math_spline.cpp:LogLogSpline::LogLogSpline", "src/math_spline.cpp:LogLogSpline::evalDeriv", "src/math_spline.h:LogLogSpline"]}
{"id": "C112", "title": "LogLogSpline with given derivatives honours them, is twice differentiable and preserves monotonicity", "statement": "Constructed from positive values and derivatives whose logarithmic slopes do not exceed three times the adjacent secants (and have their sign at the ends), LogLogSpline has the given values and derivatives at the nodes, is positive, twice continuously differentiable inside the grid with the reported derivatives, extrapolated by power laws, exact for power laws, and monotone for monotone data.", "quantifier": "all numbers of nodes, grids, positive values, derivatives satisfying the condition, and positive arguments", "why_tests_cant": "a claim about all data arrays and all arguments; the loss of monotonicity occurs for special combinations of slopes", "anchors": ["src/math_spline.cpp:LogLogSpline::LogLogSpline", "src/math_spline.cpp:LogLogSpline::evalDeriv"]}
{"id": "C113", "title": "Velocity assignment keeps the particles and gives bound velocities with the right moments", "statement": "assignVelocity* returns an array of the same length; the i-th element has the mass of the i-th input particle and its position in Cartesian coordinates, and its velocity depends only on this particle and its number, not on the other particles or on the order in which threads execute iterations. Eddington variant: the speed is the first sampled one below the escape speed, or zero after 100 failures, so that the particle is bound. Jeans variants: the components along the local axes are products of the dispersions and normal deviates (plus the mean rotation), taken from the first of at most 100 draws for which the particle is bound; in the spherical variant the mean squares of the components are sigma_r^2 and sigma_r^2(1-beta). Documented: assigned velocities do not exceed the escape velocity and are Gaussian.", "quantifier": "every array of particles, every execution order, every potential and moments/dispersion functions, every generator with values in [0,1]", "why_tests_cant": "all random sequences including a hundred consecutive rejections, all schedules; moments are integrals over all deviates", "anchors": ["src/galaxymodel_velocitysampler.cpp: assignVelocityEdd, assignVelocityJeansSph, assignVelocityJeansAxi", "src/galaxymodel_velocitysampler.h"]}
{"id": "C114", "title": "Normal random numbers have exactly the standard normal distribution", "statement": "If the underlying random numbers are independent and uniform in [0,1), the two numbers returned by getNormalRandomNumbers are independent standard normal deviates; for every possible value of the generator they are finite and bounded by sqrt(128 ln 2).", "quantifier": "all pairs of uniform deviates (a statement about the joint distribution, i.e. about every measurable set)", "why_tests_cant": "equality of distributions cannot be established by sampling", "anchors": ["src/math_random.cpp: getNormalRandomNumbers"]}
{"id": "C115", "title": "King models are consistent tables of a truncated isothermal sphere", "statement": "createKingModel rejects non-positive mass, radius, W0 and truncation parameter outside [0,3.5); otherwise, if it succeeds, its radii increase, the potential is negative and increases, the force is attractive, the density is nonnegative and decreases to zero at the last radius, where the potential and its derivative are those of a point mass equal to the total mass; potential, derivative and density satisfy the Poisson equation; the density is the lower-incomplete-gamma function of the King family (with a bounded error below the threshold), normalized to one at the centre and monotonic. It succeeds if the solver reaches the truncation radius within the allowed number of steps.", "quantifier": "all parameters, all sequences of solver steps, all solutions of the differential equation", "why_tests_cant": "all parameters and step sequences; identities between functions", "anchors": ["src/potential_king.cpp: KingPotentialIntegrator, createKingModel"]}
{"id": "C116", "title": "The spherical Jeans model solves the Jeans equation and is capped at the escape velocity", "statement": "If createJeansSphModel succeeds, the nodes of the returned interpolator are, in increasing order, those points of the grid (without the outer points where the density is not positive) at which the density is nonzero and the pressure r^2b rho sigma^2 (the integral of r^2b rho dPhi/dr to infinity) is positive, and the value at a node with positive density and negative potential is sqrt(min(pressure/(rho r^2b), -2 Phi)). The uncapped dispersion obeys d(rho sigma^2)/dr + (2b/r) rho sigma^2 = -rho dPhi/dr. The integral beyond the last point is exact if density and potential are power laws there. If density and force are positive, and the integrals converge, the model is created and the dispersion is positive at all radii.", "quantifier": "all densities, potentials, anisotropies and grids (exact integrals)", "why_tests_cant": "a differential equation for all functions and all radii; arrays of any length", "anchors": ["src/galaxymodel_jeans.cpp: createJeansSphModel, JeansSphIntegrand"]}
{"id": "C117", "title": "Self-consistent iterations update all components in one potential and keep potential and action finder together", "statement": "doIteration: if it completes, every component with a DF has the density computed in the same (previous) total potential with its action finder, other objects are unchanged, and the total potential is then the sum over components of their potentials and the potentials generated by their densities, each counted once; the action finder is that of the total potential. The result does not depend on the order of components. A model is a fixed point of the iteration iff it is self-consistent. If an exception is thrown, only the components before the failing one are updated, and potential and action finder are kept. After any history of iterations, updates and changes of components (with exceptions anywhere) the action finder belongs to the total potential.", "quantifier": "all lists of components (with repetitions), all failures, all histories of operations", "why_tests_cant": "crash points, histories and orders are unbounded", "anchors": ["src/galaxymodel_selfconsistent.cpp: updateActionFinder, doIteration, updateTotalPotential", "src/galaxymodel_selfconsistent.h: BaseComponent, ComponentStatic, BaseComponentWithDF, SelfConsistentModel"]}
{"id": "C118", "title": "Orbit-related functions of a potential and its interpolator are consistent", "statement": "Energy scaling and unscaling are inverse to each other on energies between Phi(0) and 0, with exact derivatives. The functions whose roots give Rmax(E), Rcirc(E), R from Lz and the peri/apocentre radii vanish exactly at radii with these properties, and their derivatives are exact. Near the origin of a power-law potential, radii of the circular orbit and both turning points are exact and each bracket contains exactly one root for 0<=L<=Lcirc. innerSlope recovers a power law exactly. Epicyclic frequencies are the second derivatives of the effective potential. The tables of the Interpolator contain the exact derivatives of scaled potential, log L and scaled E of circular orbits; the potential from the tables or extrapolated beyond them has exact derivatives up to third order; the extrapolation matches the value and first derivative of the potential at the last node (and second derivative unless the slope is rounded to -1).", "quantifier": "all energies, angular momenta, radii, and potentials with two continuous derivatives", "why_tests_cant": "continuum of inputs and potentials", "anchors": ["src/potential_utils.cpp: RmaxRootFinder, RcircRootFinder, RfromLRootFinder, RPeriApoRootFinder, RPeriApoRootFinderPowerLaw, scaleE, unscaleE, unscaleDeltaE, epicycleFreqs, innerSlope, findPlanarOrbitExtent, Interpolator"]}
{"id": "C119", "title": "Projected density, potential, gradient and Hessian are line-of-sight integrals in the observed frame", "statement": "projectedDensity is the integral over Z of the density at the point (X,Y,Z) of the observed frame for any orientation; projectedEval with any combination of requested outputs returns the integrals of the first and second derivatives in the observed coordinates, and as the value the integral of Phi(X,Y,Z)-Phi(0,0,Z) along the lines of sight. The Euler angles returned by principalAxes lie in the documented ranges and describe the same right-handed frame up to reversal of two axes; the mirrored integration points are the eight reflections, each once.", "quantifier": "all densities and potentials, points, orientations, combinations of outputs, Euler angles", "why_tests_cant": "continuum of inputs and arbitrary functions", "anchors": ["src/potential_utils.cpp: projectedDensity, projectedEval, ProjectedDensityIntegrand, ProjectedEvalIntegrand, PrincipalAxesIntegrand, principalAxes", "src/potential_utils.h: projectedEval"]}
{"id": "C120", "title": "Oblate perfect ellipsoid: exact derivatives, domain, agreement with the other implementation", "statement": "OblatePerfectEllipsoid can be created exactly for 0<c<a; evalScalar throws exactly for coordinates outside |nu|<=Delta^2<=lambda; the value is that of the documented formula and equals that of the class PerfectEllipsoid with the same parameters at the same point; the first and second derivatives in lambda and nu (both signs) are exact; G and its derivatives are exact above the thresholds, and below the threshold G is replaced with a relative error at most 1e-16/3.", "quantifier": "all masses, axes, points, both sides of the equatorial plane", "why_tests_cant": "continuum of inputs, thresholds", "anchors": ["src/potential_perfect_ellipsoid.cpp: OblatePerfectEllipsoid::OblatePerfectEllipsoid, evalScalar, evalDeriv", "src/potential_perfect_ellipsoid.h: OblatePerfectEllipsoid"]}
{"id": "C121", "title": "Deviation vectors: exact variational equation, renormalization invisible to the user", "statement": "The deviation vectors returned with an orbit satisfy dDx/dt = Dv - Omega x Dx, dDv/dt = -hess Dx - Omega x Dv in the rotating frame, whatever Omega, and start from the identity matrix; however the integration is split into timesteps and however often the internal vectors are renormalized, the stored vectors are the initial vectors carried by the linear equation from the initial moment, and the recorded log-magnitude at the end of every timestep of nonzero length is that of the largest true vector; the internal vectors stay bounded by e^10 between timesteps.", "quantifier": "all pattern speeds, Hessians, sequences of timesteps (of any lengths, forward or backward), linear propagators, numbers of vectors", "why_tests_cant": "all sequences of timesteps and renormalizations; chaotic orbits amplify any mismatch so numeric comparison is inconclusive", "anchors": ["src/orbit_variational.cpp: RuntimeVariational::eval, processTimestep, storeSolution, renormalize, logMagnitude"]}
