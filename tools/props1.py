import json
P=[]
def p(id,title,statement,quantifier,why,anchors):
    P.append(dict(id=id,title=title,statement=statement,quantifier=quantifier,why_tests_cant=why,anchors=anchors))
p("C01","Tokenising a string","splitString(src, delim) returns exactly the maximal runs of non-delimiter characters of src, in order: every token is non-empty and contains no delimiter, tokens are separated in src by at least one delimiter, nothing but delimiters is lost, and the result is empty iff src holds only delimiters.","all source strings and all delimiter sets (including empty ones)","strings and delimiter sets are unbounded; tests sample a few literals",["src/utils.cpp:splitString","src/utils.h"])
p("C02","Case-insensitive string equality is an equivalence","The two stringsEqual overloads agree on every pair of (NUL-free) strings, and the relation is reflexive, symmetric and transitive, and equals equality after lower-casing; a NULL second argument is never equal.","all pairs/triples of byte strings","transitivity/agreement over all strings cannot be sampled",["src/utils.cpp:stringsEqual"])
p("C03","Parameter map behaves as a case-insensitive map","After any sequence of set/unset/add/pop operations on a KeyValueMap, reading a (non-empty) key returns the value most recently stored under any case-variant of that key, or the default if it was removed / never stored; contains() agrees; no two stored keys are equal up to case; operations on one key never affect reads of a different key.","all histories of operations, all keys and values","histories and keys are unbounded",["src/utils_config.cpp:KeyValueMap::set","src/utils_config.cpp:KeyValueMap::unset","src/utils_config.cpp:KeyValueMap::add","src/utils_config.cpp:KeyValueMap::getString"])
p("C04","Duplicate parameters are rejected and everything else is preserved in order","Parsing a list of lines into a KeyValueMap fails iff two key=value lines have keys equal up to case; otherwise the dump contains one line per input line, in order, with comments and blank lines retained verbatim (after stripping leading blanks).","all lists of input lines","unbounded inputs",["src/utils_config.cpp:KeyValueMap::add","src/utils_config.cpp:KeyValueMap::dumpLines"])
p("C05","Synonymous keys","getStringAlt/popStringAlt(key1,key2) raises an error iff both keys are present, else returns the value of the one present or the default; after a successful pop neither key is present and all other keys are unchanged.","all maps, all key pairs","unbounded state space",["src/utils_config.cpp:KeyValueMap::getStringAlt","src/utils_config.h:popStringAlt"])
p("C06","Dump/parse round trip of a parameter map","Re-parsing the lines dumped from any map built by parsing, set (with well-formed key/value) and unset reproduces the same list of entries, so nothing is lost or reinterpreted when parameters are saved and reloaded.","all maps reachable by parse/set/unset with well-formed arguments","unbounded text",["src/utils_config.cpp:KeyValueMap::dumpLines","src/utils_config.cpp:KeyValueMap::add"])
p("C07","INI parsing is memory-safe and merges sections","Reading any file never indexes a section outside the list; every non-section line is stored in the section most recently opened (or in the nameless first section if none was), section names are matched ignoring case, and listSections has no two names equal up to case.","all file contents","arbitrary text files",["src/utils_config.cpp:ConfigFile::ConfigFile"])
p("C08","INI save/load round trip, and untouched files are not rewritten","Destroying a ConfigFile writes the file iff some section was modified by set/unset; reading the written file back gives the same sections with the same key/value pairs in the same order.","all files and all modification histories with well-formed values","unbounded files/histories",["src/utils_config.cpp:ConfigFile::~ConfigFile"])
p("C09","String to number/bool conversion","toInt never overflows: it returns the truncated value when it fits and saturates at INT_MAX/INT_MIN otherwise, and raises iff nothing parseable or not finite (empty gives 0). toBool is decided by the first non-blank character: true for y,Y,t,T,1, false for n,N,f,F,0,end, error otherwise.","all strings / all parsed values","infinite input domain",["src/utils.cpp:toInt","src/utils.cpp:toBool"])
p("C10","Pretty-printing fits exactly the requested width","pp(num,width) returns a string of exactly `width` characters for every number.","all numbers and widths","infinite numbers, rounding-up corner cases at every power of ten",["src/utils.cpp:pp","src/utils.h:pp"])
p("C11","Binary search returns the bin containing x","For a strictly increasing array, binSearch returns the unique k with arr[k]<=x<arr[k+1] (last bin closed), -1 if x<arr[0] or x is NaN or the array is empty, and size-1 if x is above the last element; it never reads outside the array and always terminates, whatever the rounding error in its interpolated first guess.","all array sizes, all sorted arrays, all x, all first guesses","unbounded sizes and rounding behaviours",["src/math_core.cpp:binSearch"])
p("C12","Integer powers","pow(x,n) equals x^n for every integer n (including 0 and negatives, with x!=0 for negatives).","all x and all n (n != INT_MIN)","infinite domain",["src/math_core.cpp:pow"])
p("C13","Angle wrapping","wrapAngle(x) is in [0,2pi) and differs from x by an integer multiple of 2pi; unwrapAngle(x,prev) differs from x by an integer multiple of 2pi and is within pi of prev.","all angles","continuum of inputs",["src/math_core.cpp:wrapAngle","src/math_core.cpp:unwrapAngle"])
p("C14","Running average","After adding any sequence of numbers, Averager.mean() is their arithmetic mean, count() their number, and disp() the unbiased variance sum (x-mean)^2/(N-1) (0 if N<2).","all sequences","unbounded sequences",["src/math_core.h:Averager"])
p("C15","Quadratic and linear equations","solveQuadratic/solveLinear return exactly the set of distinct real roots, in increasing order, and their number, for all non-degenerate coefficients.","all coefficients","continuum",["src/math_core.cpp:solveQuadratic","src/math_core.h:solveLinear"])
p("C16","Root finder stays in its bracket","findRoot returns NaN iff the end values do not bracket a root (or a non-finite value is met); otherwise the returned point lies between the two end points, the iteration stops after at most 64 steps, and (for continuous F, if converged) a true root lies within the requested tolerance.","all functions, intervals, tolerances","quantifies over all functions",["src/math_core.cpp:findRoot","src/math_core.cpp:hermiteInterpMonotone"])
p("C17","Scaling transformations are mutually inverse","For each of the scaling transformations unscale maps [0,1] onto the stated interval monotonically, the endpoints go to the endpoints, scale inverts it (where scale is closed form), and the reported du/ds is the derivative of unscale.","all intervals and arguments","continuum",["src/math_core.cpp:scale","src/math_core.cpp:unscale"])
p("C18","Hermite interpolation is exact","hermiteInterp reproduces the given values and slopes at the end points and every cubic polynomial exactly; hermiteDerivs returns the exact 2nd..5th derivatives of every polynomial of degree <=5 for every choice of three distinct nodes.","all nodes and polynomials","continuum",["src/math_core.h:hermiteInterp","src/math_core.cpp:hermiteDerivs"])
p("C19","Uniform random numbers lie in [0,1)","random() returns a number in the half-open range [0,1) for every generator state.","all 2^128 (or 2^64) generator states","the offending states have probability ~2^-54 and will not be met by testing",["src/math_random.cpp:random"])
p("C20","Parallel random streams do not overlap","The jump function is equivalent to exactly 2^64 generator steps, the generator has full period 2^128-1 on non-zero states, so for every seed giving a nonzero state the per-thread states set up by randomize() start disjoint subsequences of 2^64 numbers.","all seeds, all pairs of threads, all positions up to 2^64","sequences of 2^64 numbers cannot be enumerated",["src/math_random.cpp:xoroshiro128plus_jump","src/math_random.cpp:RandGenStorage::randomize"])
p("C21","Thread-private random streams","Each thread draws from its own generator state, so the numbers drawn by one thread do not depend on how calls of other threads interleave with it.","all interleavings of random() calls by several threads","schedules are unbounded and tests run one",["src/math_random.cpp:random","src/math_random.h:random"])
p("C22","Random permutation","getRandomPermutation fills the array with each of 0..count-1 exactly once, for every count and every random stream.","all counts, all random streams","unbounded",["src/math_random.cpp:getRandomPermutation"])
p("C23","Random vectors and rotations","getRandomUnitVector has unit norm; getRandomPerpendicularVector returns |vec| and a unit vector orthogonal to vec for every vec (including axis-aligned and null ones); getRandomRotationMatrix is orthogonal with determinant +1.","all input vectors and random draws","continuum",["src/math_random.cpp:getRandomUnitVector","src/math_random.cpp:getRandomPerpendicularVector","src/math_random.cpp:getRandomRotationMatrix"])
p("C24","Halton sequence","quasiRandomHalton(ind,base) terminates for every index iff base>=2, lies in [0,1), and distinct indices give distinct numbers.","all indices and bases","unbounded",["src/math_random.cpp:quasiRandomHalton"])
p("C25","Hash-seeded generators","hash() is a function of the data only, and two arrays of the same length differing in exactly one 8-byte word always have different hashes (so perturbing one coordinate always changes the seed).","all arrays, all positions, all seeds","2^64 values per word",["src/math_random.cpp:hash"])
p("C26","Spherical-harmonic index is a bijection","index(l,m)=l(l+1)+m maps pairs with |m|<=l<=lmax one-to-one onto 0..(lmax+1)^2-1 and index_l/index_m invert it.","all l,m","unbounded",["src/math_sphharm.h:SphHarmIndices::index","src/math_sphharm.cpp:index_l"])
p("C27","Symmetric index scheme keeps exactly the invariant harmonics","Looping over a SphHarmIndices scheme visits (l,m) with |m|<=mmax, l<=lmax iff the corresponding real spherical harmonic is invariant under each reflection flagged in the symmetry type.","all lmax, mmax, symmetry flags","unbounded orders",["src/math_sphharm.cpp:SphHarmIndices::SphHarmIndices"])
p("C28","Symmetry inferred from coefficients never loses a term","getIndicesFromCoefs succeeds on every finite array of square length and the resulting scheme visits every nonzero coefficient.","all coefficient arrays","unbounded",["src/math_sphharm.cpp:getIndicesFromCoefs"])
p("C29","Fourier transform round trip","The forward azimuthal Fourier transform applied to samples of a trigonometric polynomial of order <= mmax returns its coefficients exactly (with and without sine terms).","all mmax and all coefficients","unbounded",["src/math_sphharm.cpp:FourierTransformForward::transform"])
p("C30","Reference-counted pointers","Under any sequence of construct/copy/assign/alias/swap/reset/destroy of the bundled shared_ptr, an object is deleted exactly once, exactly when its last owner disappears; no owner ever refers to a deleted object, and nothing leaks once all pointers are gone.","all operation histories","unbounded histories",["src/shared_ptr.h"])
p("C31","Nested interrupt handlers","For any properly nested creation/destruction of CtrlBreakHandler objects and any interrupts, the signal handler in force before the outermost object is restored, triggered() is true iff an interrupt arrived since the outermost construction.","all nesting histories and interrupt times","signal timing",["src/utils.cpp:CtrlBreakHandler"])
p("C32","Band matrix element enumeration","at(r,c) reads back what operator() stored, is zero outside the band; values() lists each in-band element exactly once; size() counts them; elem(i), 0<=i<size(), enumerates the same elements.","all sizes, band widths and contents","unbounded sizes",["src/math_linalg.cpp:BandMatrix"])
p("C33","Band matrix-vector product","blas_dgemv on a band matrix equals alpha*A*v+beta*y (or with A transposed) of the dense matrix with the same elements.","all sizes, bands, vectors","unbounded",["src/math_linalg.cpp:blas_dgemv"])
p("C34","Band solver","If no zero pivot is met, solveBand(A,b) returns x with A x = b exactly (in exact arithmetic), for tridiagonal and general bands.","all sizes, band widths, matrices","unbounded",["src/math_linalg.cpp:solveBand"])
p("C35","Grid generators","createUniformGrid/createExpGrid return strictly increasing grids of exactly the requested number of nodes whose end points are exactly xmin and xmax, and reject invalid parameters.","all node counts and ranges","unbounded",["src/math_spline.cpp:createUniformGrid","src/math_spline.cpp:createExpGrid"])
p("C36","Mirrored grids","mirrorGrid of a strictly increasing grid starting at zero is a strictly increasing antisymmetric grid of 2n-1 nodes whose upper half is the input; any other input is rejected; the even-size symmetric grid is antisymmetric and increasing.","all grids","unbounded",["src/math_spline.cpp:mirrorGrid","src/math_spline.cpp:createSymmetricGrid"])
p("C37","B-spline basis is a partition of unity","At any point of the grid the N+1 reported B-spline values are non-negative and sum to one, for every degree and every strictly increasing grid (clamped at the ends).","all degrees, grids and points","continuum, unbounded sizes",["src/math_spline.cpp:bsplineValues"])
p("C38","Gauss-Legendre table layout","prepareIntegrationTableGL writes every one of the N nodes/weights and nothing outside, nodes are symmetric about the midpoint with equal weights.","all N>=1 and intervals","unbounded N",["src/math_core.cpp:prepareIntegrationTableGL"])
p("C39","Approximate comparison sign convention","fcmp(x,y) returns -1 if x<y and +1 if x>y beyond the tolerance, 0 if approximately equal, for all finite numbers including zeros, and is antisymmetric.","all pairs of numbers","continuum",["src/math_core.cpp:fcmp","src/math_core.h:fcmp"])
p("C40","Unit conversions are consistent","For every choice of internal length and time units, each to_X and from_X factor are reciprocal, and derived units are dimensionally consistent with G=1.","all unit choices","continuum",["src/units.h:InternalUnits"])
with open('/verif/properties.jsonl','w') as f:
    for q in P: f.write(json.dumps(q)+"\n")
print(len(P))
