# Design of the formal model of SplineLib

The source in `/repo` is C++ (header templates over the parametric dimension `DIM`). The model and the proofs are in
Lean 4 under `/verif/lean/Verif`. Every model definition carries a comment with the file and lines it models.

## Trusted base

* Lean's kernel (4.33.0) and the Mathlib definitions used in statements.
* Axioms: every property theorem depends on a subset of `propext`, `Classical.choice`, `Quot.sound`. There are no own
  axioms, no `sorry`, no `native_decide`, no `bv_decide`. `AXIOMS.txt` is the output of `#print axioms` for every theorem
  of `MANIFEST.json`.
* That the model says what the C++ does. The translation is by hand, function by function. What is idealised:
  * `double` is an arbitrary linearly ordered field `K` (exact arithmetic; `ℚ` for examples, `ℝ` where `sqrt`, derivatives
    or integrals occur). Rounding is outside of the model (except in `Model/Rounded*.lean`). The tolerance `kEpsilon = 10 * 2^-52` *is* modelled with its
    value at every place where the code uses it.
  * `sqrt` is a parameter (`HasSqrt`); theorems that need it assume `LawfulSqrt` (over ℝ: `Real.sqrt`). For examples over
    ℚ there is `ratSqrt`, which is exact on squares of rationals.
  * A division by zero is the outcome `Err.nonfinite` (the C++ value would be inf or NaN).
  * `int` and `size_t` are unbounded integers. Conversions of a negative `int` to `size_t` wrap modulo 2^64 where the code
    relies on it or suffers from it. Reading numbers from text (`std::stoi`, a `double` cast to `int`) does check the range.
  * Out-of-bounds accesses of `std::vector`, `std::array` and iterators are the outcome `Err.ub` (the library is built
    without `DEBUG`). C++ exceptions are `Err.thrown kind`. Loops that need not end have a `fuel` argument with the outcome
    `Err.diverges`; the theorems show that the fuel suffices, or that no fuel does.
  * `std::lower_bound` and `std::upper_bound` are modelled by the bisection of libstdc++.
  * Memory allocation never fails. `shared_ptr` sharing is modelled in `Model/Heap` (C25); elsewhere a spline is a value.
  * Files are lists of characters. Opening a file either fails or gives its contents.
  * `operator<<` and `std::to_string` of a `double` print the decimal rounding to the given number of digits (`Model/Printing`,
    `Model/VtkText`); how ties are broken is left open.
    In the exact field a number with up to 17 significant digits is read back exactly; for IEEE doubles the relative error
    10^-17 of 18 printed digits is below 2^-54, which is why the round trip of the IGES writer carries over.
  * The times and file names in IGES headers, the results of `asctime`, the values of the random engines and the solver
    `arma::solve` are parameters. Theorems hold for all values, the solver under `LawfulSolve` (it returns a solution
    whenever it returns). Armadillo's matrix operations are exact.

## Layout

| module | models |
|---|---|
| `Model/Outcome` | result monad `M = Except Err`, checked indexing and division |
| `Model/MultiIndex` | `util/multi_index_handler.h` |
| `Model/KnotVector` | `baf/knot_vector.cc`, `util/numeric_settings.h` |
| `Model/Basis` | `baf/*basis_function*.cc` |
| `Model/ParameterSpace` | `spl/parameter_space.h` |
| `Model/PhysicalSpace` | `spl/physical_space.h`, `spl/weighted_physical_space.h`, `baf/control_point.cc` |
| `Model/Spline` | `spl/spline.h`, `spl/b_spline.h`, `spl/nurbs.h`: construction, evaluation, derivatives, comparison |
| `Model/KnotInsertion`, `Model/KnotRemoval`, `Model/Degree` | the shape-preserving operations and the Bezier segments of the same files |
| `Model/Heap` | the same objects with identities and sharing |
| `Model/Elements` | `util/element_generator.h`, `example/iga/src/element*.h`, `itg/*` |
| `Model/Projection` | `util/vector_utils.h`, `spl/projection.h` |
| `Model/Rounded` | construction and evaluation once more, with rounded operations |
| `Model/RoundedStrings` | `StringToDouble` once more, with rounded operations |
| `Model/Programs` | the nine conversion programs acting on files |
| `Model/IntRange` | index arithmetic of `Evaluate` and `EvaluateDerivative` once more, with 32 bit integers |
| `Model/Generators` | `spl/*generator*`, `spl/random_spline_utils.h`, `util/random.h`, `spl/square_generator.cc` |
| `Model/Sweep` | `spl/surface_generator.cc` |
| `Model/Strings`, `Model/Printing` | `util/string_operations.h`, formatting of numbers |
| `Model/Irit`, `Model/Xml`, `Model/Iges`, `Model/Vtk`, `Model/VtkText` | readers and writers in `src/io` |
| `Model/Converter`, `Model/ConverterLog` | `io/io_converter.cc`, `io/executables/*` |
| `Model/Pugi` | the part of `external/pugixml/pugixml.cpp` that loads and saves XML files (UTF-8) |
| `Model/Emit` | what the writers have written when they throw an exception |
| `Model/Files` | whole files and chains of conversions between the formats |
| `Model/RoundedSampling` | comparison and VTK points with rounded arithmetic |
| `Model/RoundedProjection` | projection and the output of solutions with rounded arithmetic |
| `Model/Special` | evaluation and comparison with NaN and infinite values |
| `Model/Examples` | `example/ex1.cc` and `example/testcase_optimizer.cc` |
| `Model/VtkInt` | the VTK writer once more, its counts, offsets and indices with 32 bit integers |
| `Model/Iga` | `example/iga/src`: basis functions, mapping, assembly, boundary conditions, BDF, Poisson problem |
| `Spec/*` | independent specifications: Cox-de Boor recursion, tensor products, derivatives, decimal literals, grids, elements, ... |
| `Core/*` | mathematics about the specifications, and the lemmas that connect model and specification |
| `Props/*` | the property theorems `C01_...`, with examples that their hypotheses are satisfiable |
| `Tests/*` | the unit tests of the repository, run on the model (`example`s, no theorems) |

`std::array<T,DIM>` is a list (its length is DIM, so all dimensions are covered at once). Loops are folds or recursion.

## What is not modelled

* Rounding (except in `Model/Rounded*.lean`, see C70, C75, C76, C79, C100, C104 and C105), overflow of `int` (except in `Model/IntRange.lean` and `Model/VtkInt.lean`, see C80 and C108), memory exhaustion, and IEEE special values beyond `nonfinite` (except in `Model/Special.lean`, see C102).
* pugixml's other encodings, parse options and output formats; iostream state beyond `getline`, the file system, the terminal output of the programs.
* Armadillo (`solve` is a parameter) and the values of the random engines.
* `atof` and the terminal output in `example/testcase_optimizer.cc`.

## Is it a model of this code?

`Tests/*.lean` repeats the unit tests of /repo/test (baf, spl, util, io) on the model: the splines of the tests, the calls and the expected values.
Every expected value repeated there agrees. Mocked objects of the tests are replaced by the objects of the model; sampled grids are thinned out; left out are the
projection on surfaces (exact rationals become too long), tests with random splines and tests with Armadillo. One difference is a finding: the tests of degree
elevation expect equal splines, the model says that the elevated spline has NaN coordinates (C21). Both are right: the comparison in the
tests calls NaN distances equal (C102). `tools/sample_files.txt` reads and converts the sample files of /repo/test/io/test_files with the compiled
model; numbers of splines, degrees, knots, values and sizes of VTK files are those that the tests expect. Reading back IGES surfaces is
undefined behaviour in the model (C38), where the tests rely on luck.

## Properties: how they are proved, and what was found

* C01 `Evaluate` (handler loop, cached basis function objects, flat control point vector) equals the full tensor sum over
  the Cox-de Boor basis. The recursive basis function equals the recursion; the span search gives the only non-zero
  indices; the handler loop is a sum over a box of indices. C02 adds the range check and C11 the weights.
* C03, C04: induction on the degree, restricted to one span. Distinct knots must be kEpsilon apart (witness otherwise).
  C05, C06, C07 follow. C08, C09 use `HasDerivWithinAt`; C10 is the Leibniz rule.
* C12, C13: Boehm's identity and a loop invariant for the in-place update. C14 is false of the code: inserting the first
  knot always fails, inserting the last one moves the end of every spline to its last but one control point.
* C15-C18: algebra of the blending coefficients and loop invariants. C17 is false for an even difference of degree and
  multiplicity (on every knot vector), for several removals at once and for NURBS with large tolerances. C19, C20: knot insertion and locality.
* C21 is false of the code: elevation never succeeds, because the control point with index p is never written. C22 is proved
  at the level of Bezier segments and for elevated splines; it is false in general.
* C23-C25: invariants over histories of calls, constructors, and a heap model. Splines made by generators share data.
* C26, C27: mixed radix arithmetic. C28, C29: bisection, insertion and removal in lists. C30, C31: comparison is not
  transitive, and splines whose range does not start at 0 cannot be compared geometrically.
* C32, C49, C50: tensor products, frames and sweeps. C33-C35: number syntax; literals like `1e5` are misread.
* C36-C38, C46-C48, C51: writers and readers. IGES surfaces read behind their data; IRIT loses coordinates of NURBS with
  small weights. C39: VTK. C40: positions of earlier calls are written again.
* C41: the projection. Its start value and its limits are wrong for some ranges. C42: generators. C43-C45: elements and
  quadrature, exact over ℝ.
* C52-C60: the isogeometric example. The derivatives of rational functions are wrong unless the weights are equal; boundary
  conditions on the last directions are wrong; an unsteady run after a steady one doubles the equation.
* C61-C63: log files and conversion programs. Sections must be separated by empty lines, and a log file without options is
  undefined behaviour.
* C64: conversions of whole files and chains of them are exact. C65, C66: the vector functions, and the bounds computed from
  the control points. The expansion ignores negative coordinates.
* C67: the assembled matrices are the integrals of the weak form, by the exactness of the Gauss-Legendre rules on piecewise
  polynomials. C68: the systems are regular and the solutions unique. A quadratic form that is zero makes the (derivatives of
  the) functions zero at the integration points, hence as polynomials in every element, hence their coefficients by
  the independence of the basis functions. `CompleteSolve` (the solver returns for every regular matrix) is assumed only there.
* C69: evaluation of everything the constructors accept. Only ranges shorter than kEpsilon lead to undefined behaviour. For
  unsorted knots the model follows libstdc++'s bisection, since the standard leaves `std::lower_bound` undefined there.
* C70: `Model/Rounded.lean` repeats construction and evaluation with a rounding after each operation, in the order of the C++
  code. Without rounding it equals the exact model (`C70_exact_arithmetic`). Positive quantities keep a small relative error, the
  others an error relative to the sum of the absolute values. Rounding is abstract (monotone, symmetric, relative error u); rounding
  to nearest even is an instance. Overflow, underflow and fused operations are excluded.
* C71, C72: XML files as texts. `Spec/XmlText.lean` is a grammar that assigns trees to texts; the parser of pugixml reads every text of the
  grammar, and what it saves belongs to the grammar. It ends on every text with a tree or an error. Whatever it accepts as a prefix of a
  text is also what it reads first from the whole text (`run_ext`), so files that were cut off are refused.
* C73: the characters of VTK files. `Spec/VtkFormat.lean` describes the legacy format; a text is at most one grid. Numbers have six digits,
  so distinct points may be written as one.
* C74: IRIT and IGES files that were cut off. The readers return first splines (IRIT), or all or none (IGES); they do not refuse such files
  and run behind the end of their data for other cuts.
* C75: `StringToDouble` with a rounding after every operation (`Model/RoundedStrings.lean`); `pow(10, n)` is a parameter with a relative
  error. Integers are read exactly, other numbers with a small relative error.
* C76: `InsertKnot` and `RefineKnots` with a rounding after every operation (`Model/RoundedInsertion.lean`). `Drift f s s'` says how far
  the spline moved; with `exactRounding` the functions are those of `Model/KnotInsertion.lean` for all arguments. Subdivision is C100; knot removal,
  degree elevation and the remaining algorithms are only modelled with exact numbers.
* C79: `EvaluateDerivative` of NURBS with a rounding after every operation (`Model/Rounded.lean`). The error is relative to the quotient
  rule with all terms added (`ratMag`); `C79_not_relative` shows that a bound relative to the derivative is impossible.
* C80: `Evaluate` and `EvaluateDerivative` with 32 bit index arithmetic (`Model/IntRange.lean`), related to the models with unbounded
  integers. The conditions are sharp: `C80_too_many_coordinates` and `C80_large_order` show undefined behaviour beyond them.
* C81: the programs of C63 with the readers and writers of C64 (`Model/Programs.lean`); what a program does with a log file that an
  undefined writer left behind is left open.
* C82: C09 and C10 give derivatives from the right at knots; C82 gives the derivatives from both sides and continuity where the
  multiplicities allow them (`Core/Smooth.lean`).
* C83 to C85: Spec/Greville.lean defines the control points of monomials by elementary symmetric functions of knots, without reference
  to the model; Core/Marsden.lean proves Marsden's identity by induction on the degree. Core/Variation.lean proves variation
  diminution by inserting knots until the chosen parameters have full multiplicity, so that their points are control points of
  the refined curve; the separation of knots that insertion needs is obtained by scaling the parameter. C85 combines both.
* C86: Spec/IgesGlobal.lean is a reader of the free format of IGES files that is independent of the library's own reader, which
  ignores the global section. Model/IgesTime.lean models the time stamp as a function of the fields of `struct tm`; `localtime_r`
  is not modelled.
* C87: Interpolation. Zeros of a spline are separated by inserted knots; around each zero the coefficients have both signs, and insertion does not create
  sign changes, so a spline with as many zeros as coefficients is zero (Core/Interpolation). Hence the interpolation problem is uniquely solvable if and
  only if no basis function vanishes at the parameter with its index, and averaged knots satisfy this condition (Props/Interpolation).
* C88: Knots closer than `kEpsilon`. The other theorems about evaluation assume that different knots are at least `kEpsilon` apart, which the constructors
  do not check. Core/CloseKnots.lean evaluates without this assumption: in spans of length at least `kEpsilon` the values are right, in shorter spans all
  basis functions of positive degree evaluate to zero, because quotients with small denominators are dropped.
* C89: Control nets. A slope of a control net is a difference of neighbouring coefficients divided by the knots between them (`u_{i+p} - u_i`), that is a
  coefficient of the derivative up to a factor. The bound `L` is explicit and taken from the original spline: knots are at least `kEpsilon` apart, so a
  constant that may depend on the refined spline would make the claim empty. `h` is the mesh size of the result and cannot be smaller than `kEpsilon`.
* C90, C91, C92: Equivalent descriptions. `Redesc` (Core/Redescribe) relates two splines whose control points, weights and basis functions correspond up to a
  renaming of indices, and factors for derivatives and weights; equal values and derivatives follow for B-splines and NURBS together. For a reversed direction
  basis functions with spans that are closed on the right are compared with those that are closed on the left (Core/Reverse): they agree where the
  spline is smooth enough. The reversed and exchanged splines are described by relations (`Reversed`, `Swapped`), as the library has no such operations. An order of the directions is a permutation `σ` of their numbers (`Reordered`, Props/DirectionOrder); Core/Permute reaches it by exchanges of neighbours.
* C93: Bernstein polynomials, Bézier spans and arcs are defined in Spec/Bernstein and Props/Bezier. The arc condition is stated with scalar products and
  weights, so that it can be met in any ordered field; the example is a full circle with rational data.
* C94: First derivatives at corners. `endSlope` is the degree divided by the length of the outermost span, with sign.
* C95: The counterpart of C88 for `EvaluateDerivative`. `codeDerivFns` and `windowDerivSum` are what the loops of the code compute for any clamped knots; in
  long spans they agree with the Cox-de Boor derivatives, in short spans they are zero.
* C96: The discrete steady state as the minimiser of the energy `∫ |∇v|² - 2 ∫ v` (both by the quadrature of the code), and the implicit Euler steps
  as a contraction towards it. The rate comes from C68 by Cauchy-Schwarz alone, so it holds over every ordered field.
* C97: the only use of `kEpsilon` in knot insertion and removal is the test for the last knot. `Core/ScaleKnots` proves that both commute with scaling all knots, which separates them, so the results for separated knots hold at any distance (`FreeSpl`). Within `kEpsilon` of the last knot the code divides by zero.
* C98: `SudivideSpline` on knots at any distance, from C19 by scaling the parameter as in C97 (Core/ScaleCut: constructors, division of knot vectors and the whole
  operation commute with scaling as long as the parameter is not taken for the last knot).
* C99: the B-spline of the scaled differences of control points (Props/Hodograph): its points are the derivatives of the original, by summation by parts in one
  direction.
* C100: `SudivideSpline` with a rounding after every operation (`Model/RoundedSubdivision.lean`). The last inserted copy of the knot makes the neighbouring
  control points equal without any arithmetic, so that the parts meet exactly; elsewhere the errors are those of C76.
* C101: at a parameter of full multiplicity one basis function is one (`AtFull`); with C12 and C13 the control points of a refined spline are its points.
* C102: `Model/Special.lean` adds NaN and ±∞ to the field (`X K`); `InWindow` is the window of a parameter, `shadow` the spline with the special values replaced by numbers.
* C103: `PolygonSlope` bounds the slopes of the control polygon; `accepted_curve` lists the samples of curves.
* C104: `flSample`, `flGrid`: the computed parameters. `7.0 / 100 * 100` is greater than `7.0` in double precision, so comparing a curve over [0,7] with itself throws.
* C105: `lastParam`, `flOutPoint`: the computed parameters of `ProjectionOnSurface` and of the output of solutions. `10 * 0.11 / 10` is greater than `0.11` in double precision, so no point can be projected onto a surface over [0,0.11] with the default arguments. Curves do not have this problem.
* C106: `ValuesWithin e s r`: at every parameter in the range of `s` and in every coordinate both splines evaluate, and the values differ by at most `e`. The knots must have six decimals; otherwise the range changes (`C106_range_changes`).
* C107: the optimizer with the pointer as argument; the program itself passes the null pointer, calling through it is `ub`.
* C108: the VTK writer with 32 bit integers (`Model/VtkInt.lean`), related to the one with unbounded integers; exactly when it overflows.
* C109: the integral of a B-spline over the parameter range, and its antiderivative as another B-spline (`Props/SplineIntegral.lean`).
* C110: equal values give equal derivatives of all orders (uniqueness of one-sided derivatives), applied to insertion, refinement and subdivision (`Props/SameDerivatives.lean`).
* C111: the error of the polylines in VTK files; convexity of `f + M x²/2` gives the bound of the chord (`Props/SamplingError.lean`).
* C112: derivatives of all orders as B-splines of repeated differences, with the resulting bounds (`Props/HigherDifferences.lean`).
* C113: curves are not longer than their control polygons (`Props/CurveLength.lean`).
* C114: increasing and convex control polygons give increasing and convex splines (`Props/ShapePreserving.lean`).
* C115: isoparametric curves of splines of any dimension (`Props/Isoparametric.lean`) and their derivatives (`Props/IsoparametricNurbs.lean`).
* C116: the error of the quadrilaterals and hexahedra in VTK files, from the error of chords along the directions (`Props/SurfaceSampling.lean`,
  `Props/VolumeSampling.lean`).
* C77: `KnotVector::operator-`.
* C78: `Model/Emit.lean` models the writers as sequences of outputs, so that the contents of a file are known when a writer throws an
  exception. For writers that return, these are the files of `Model/Irit`, `Model/Iges` and `Model/VtkText` (`C78_complete_files`).

`MANIFEST.json` says for each property whether the whole statement is proved. Where the code violates it there is a
theorem with a witness (`..._counterexample` or a descriptive name) and the part that holds is proved.

## Wrong programs

`seeded/LOG.jsonl` records edits of the model, one per line: the definition, the edit, the claim it breaks, the theorems
that failed, and the theorems that were tightened because they did not fail.

Entries with the field `instances_false` were not rebuilt: the edited model was run on fixed instances instead, `theorems_failed` is empty and `instances_false`
names the claims of which a consequence came out false. They show that the claims exclude the edit, not that a particular proof stops working.
