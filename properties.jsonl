{"id": "C01", "title": "Evaluate returns the tensor-product B-spline value", "statement": "For a well-formed B-spline, Evaluate at any parameter in the knot range returns, for every requested coordinate, the textbook value: the sum over all control points of the product of the Cox-de Boor basis functions times the control point coordinate.", "quantifier": "every well-formed B-spline: every parametric dimension, degree, knot vector, set of control points, in-range parameter (both ends and all interior knots included) and list of requested coordinates. Well-formed (here and below): accepted by the constructor, knots sorted with each end repeated at least degree+1 times, different knots of a direction at least kEpsilon apart, positive weights. (C88 is about closer knots.)", "why_tests_cant": "The parameter is a continuum and the local (p+1)^d sum must agree with the global one at every knot, multiplicity and end point; tests sample a few curves.", "anchors": ["src/spl/spline.h:Spline::Evaluate", "src/spl/parameter_space.h:GetBasisFunctions", "src/spl/parameter_space.h:GetArrayOfFirstNonZeroBasisFunctions", "src/spl/b_spline.h:GetEvaluatedControlPoint"]}
{"id": "C02", "title": "Evaluate rejects exactly the parameters outside the range", "statement": "Evaluate and EvaluateDerivative throw range_error if and only if some component of the parameter lies outside [first knot, last knot] of its direction; for parameters inside they neither throw nor touch memory out of bounds.", "quantifier": "every well-formed spline and every parameter tuple", "why_tests_cant": "All values including the ones next to the ends have to be covered, and absence of out-of-bounds access cannot be observed in a passing test.", "anchors": ["src/spl/parameter_space.h:ThrowIfParametricCoordinateOutsideKnotVectorRange", "src/baf/knot_vector.cc:IsInKnotVectorRange", "src/spl/spline.h:Evaluate", "src/spl/spline.h:EvaluateDerivative"]}
{"id": "C03", "title": "Basis functions sum to one", "statement": "At every parameter in the knot range the basis functions returned by EvaluateAllNonZeroBasisFunctions sum to exactly one (in exact arithmetic).", "quantifier": "every sorted clamped knot vector with distinct knots at least kEpsilon apart, every degree, every parameter in range", "why_tests_cant": "Needs all knot multiplicities and all parameters, including the last knot which has a separate code path.", "anchors": ["src/spl/parameter_space.h:EvaluateAllNonZeroBasisFunctions", "src/baf/b_spline_basis_function.cc:EvaluateOnSupport", "src/baf/knot_vector.cc:GetKnotSpan"]}
{"id": "C04", "title": "Basis functions are non-negative and vanish outside their support", "statement": "Every basis function value is >= 0 on the knot range, and basis function i of degree p is zero outside [u_i, u_{i+p+1}]; the p+1 functions returned for a parameter are the only ones that can be non-zero there.", "quantifier": "every sorted clamped knot vector with distinct knots at least kEpsilon apart, degree, index and parameter", "why_tests_cant": "Continuum of parameters and unbounded families of knot vectors.", "anchors": ["src/baf/basis_function.cc:IsCoordinateInSupport", "src/baf/basis_function.cc:Evaluate", "src/baf/b_spline_basis_function.cc:EvaluateOnSupport"]}
{"id": "C05", "title": "Convex hull property", "statement": "Each coordinate of an evaluated B-spline point, and of an evaluated NURBS point with positive weights, lies between the minimum and the maximum of that coordinate over the control points.", "quantifier": "every well-formed spline, every in-range parameter", "why_tests_cant": "Inequality over a continuum of parameters and arbitrary control nets.", "anchors": ["src/spl/spline.h:Evaluate", "src/spl/nurbs.h:GetEvaluatedControlPoint"]}
{"id": "C06", "title": "Clamped splines interpolate their corner control points", "statement": "Evaluating at a corner of the parameter domain (first or last knot in every direction) returns the corresponding corner control point exactly, for B-splines and for NURBS with non-zero corner weight.", "quantifier": "every well-formed spline whose end knots have multiplicity exactly p+1, every corner", "why_tests_cant": "2^d corners for every d and all knot vectors; the right ends use a special rule in the code.", "anchors": ["src/spl/spline.h:Evaluate", "src/baf/knot_vector.cc:GetKnotSpan", "src/baf/basis_function.cc:IsCoordinateInSupport"]}
{"id": "C07", "title": "Affine invariance", "statement": "Applying an affine map to all control points and then evaluating gives the affine image of the original evaluation.", "quantifier": "every well-formed spline, every affine map, every in-range parameter", "why_tests_cant": "Universally quantified over maps, nets and parameters.", "anchors": ["src/spl/spline.h:Evaluate"]}
{"id": "C08", "title": "Basis function derivatives are the true derivatives", "statement": "EvaluateDerivative(u,k) of a basis function is the k-th derivative of the basis function: it is the derivative at u of EvaluateDerivative(.,k-1), two-sided inside a knot span, right-sided at a knot, left-sided at the last knot.", "quantifier": "every sorted clamped knot vector with distinct knots at least kEpsilon apart, degree, index, order k and in-range parameter", "why_tests_cant": "Derivatives are limits; finite differences in tests only approximate at samples.", "anchors": ["src/baf/basis_function.cc:EvaluateDerivative", "src/baf/b_spline_basis_function.cc:EvaluateDerivativeOnSupport", "src/baf/zero_degree_b_spline_basis_function.cc:EvaluateDerivativeOnSupport"]}
{"id": "C09", "title": "B-spline EvaluateDerivative is the true partial derivative", "statement": "B-spline EvaluateDerivative for order (k_1..k_d) is the mixed partial derivative of Evaluate: raising one order by one differentiates in that direction; order zero is Evaluate; an order above the degree gives zero.", "quantifier": "every well-formed B-spline, every multi-order, every in-range parameter", "why_tests_cant": "Limits over a continuum, all orders.", "anchors": ["src/spl/spline.h:EvaluateDerivative", "src/spl/b_spline.h:GetEvaluatedDerivativeControlPoint", "src/spl/parameter_space.h:GetBasisFunctionDerivatives"]}
{"id": "C10", "title": "NURBS EvaluateDerivative is the true derivative of the rational spline", "statement": "NURBS EvaluateDerivative equals the derivative of the rational curve/surface A/w of the requested order.", "quantifier": "every well-formed NURBS with positive weights, every order, every in-range parameter", "why_tests_cant": "Recursive quotient rule of unbounded order over a continuum.", "anchors": ["src/spl/nurbs.h:GetRationalBasisFunctionDerivative", "src/spl/nurbs.h:GetDerivativesSum", "src/spl/nurbs.h:binomialCoefficient"]}
{"id": "C11", "title": "NURBS Evaluate returns the rational value", "statement": "NURBS Evaluate returns sum(N_i w_i P_i)/sum(N_i w_i); asking for coordinate PointDim returns the denominator; with all weights equal it agrees with the B-spline with the same control points.", "quantifier": "every well-formed NURBS with positive weights, every in-range parameter", "why_tests_cant": "Continuum of parameters and all nets.", "anchors": ["src/spl/nurbs.h:GetEvaluatedControlPoint", "src/spl/nurbs.h:GetEvaluatedWeightSum", "src/spl/weighted_physical_space.h:GetHomogenousControlPoint"]}
{"id": "C12", "title": "Inserting a knot does not change a B-spline", "statement": "InsertKnot with a knot inside the range (an existing one, or one at least kEpsilon away from all others) and any multiplicity leaves Evaluate unchanged at every parameter, adds the knot that many times and adds the matching layers of control points.", "quantifier": "every well-formed B-spline of every dimension, every direction, every such knot value, every multiplicity, every parameter", "why_tests_cant": "Function equality on a continuum for unbounded families; control points are rewritten in place.", "anchors": ["src/spl/spline.h:InsertKnot", "src/spl/b_spline.h:AdjustControlPoints", "src/spl/b_spline.h:GetNewControlPoint", "src/spl/parameter_space.h:InsertKnot", "src/baf/knot_vector.cc:InsertKnot"]}
{"id": "C13", "title": "Inserting a knot does not change a NURBS", "statement": "Same as C12 for NURBS with positive weights; additionally all weights stay positive.", "quantifier": "every well-formed NURBS with positive weights, every direction, knot, multiplicity and parameter", "why_tests_cant": "As C12, with rational blending and a second in-place array.", "anchors": ["src/spl/nurbs.h:AdjustControlPoints", "src/spl/nurbs.h:GetNewControlPoint", "src/spl/nurbs.h:GetNewWeight", "src/spl/spline.h:InsertKnot"]}
{"id": "C14", "title": "Inserting a boundary knot is safe", "statement": "InsertKnot with the first or the last knot value of a direction is memory safe and leaves the geometry unchanged.", "quantifier": "every well-formed spline and both ends of every direction", "why_tests_cant": "Out-of-bounds reads need not be visible in a test, and the last knot takes a special branch.", "anchors": ["src/spl/spline.h:InsertKnot", "src/baf/knot_vector.cc:IsLastKnot"]}
{"id": "C15", "title": "Multiple insertion equals repeated insertion", "statement": "InsertKnot(u, dir, r) gives exactly the same spline as r calls of InsertKnot(u, dir, 1), and RefineKnots is the sequence of single insertions.", "quantifier": "every well-formed spline, interior knot, multiplicity", "why_tests_cant": "All multiplicities; the implementation uses the old knot vector for all r rounds.", "anchors": ["src/spl/spline.h:InsertKnot", "src/spl/spline.h:RefineKnots"]}
{"id": "C16", "title": "Removing an inserted knot restores the spline", "statement": "After InsertKnot(u,dir,m), RemoveKnot(u,dir,tol,m) with tol >= 0 reports m and gives back the original knots, control points and weights exactly.", "quantifier": "every well-formed B-spline/NURBS, interior knot, direction, tolerance >= 0 and m with resulting multiplicity at most the degree; exact arithmetic", "why_tests_cant": "Equality of whole nets for unbounded sizes; tests use fixed degrees and random nets.", "anchors": ["src/spl/spline.h:RemoveKnot", "src/spl/b_spline.h:RemoveControlPoints", "src/spl/b_spline.h:GetTempNewControlPoints", "src/spl/b_spline.h:SetNewControlPoints"]}
{"id": "C17", "title": "A reported knot removal does not change the geometry beyond the tolerance", "statement": "When RemoveKnot reports a removal, the geometry changed by at most the tolerance at every parameter.", "quantifier": "every well-formed spline, interior knot, tolerance, parameter", "why_tests_cant": "Must hold for adversarial control nets, which random tests do not hit.", "anchors": ["src/spl/b_spline.h:IsKnotRemovable", "src/spl/spline.h:RemoveKnot"]}
{"id": "C18", "title": "A refused knot removal changes nothing and counts are right", "statement": "RemoveKnot reports how many knots were removed: the knot vector loses exactly that many copies, each direction loses that many control point layers, and if it reports 0 the spline is untouched.", "quantifier": "every well-formed spline, interior knot of the vector with multiplicity at most the degree, tolerance and requested multiplicity at most that of the knot", "why_tests_cant": "All histories of partial success.", "anchors": ["src/spl/spline.h:RemoveKnot", "src/spl/parameter_space.h:RemoveKnot", "src/baf/knot_vector.cc:RemoveKnot"]}
{"id": "C19", "title": "Subdivision produces two splines that agree with the original", "statement": "SudivideSpline at an interior parameter returns two well-formed splines whose knot ranges meet at the parameter and which agree with the original on their ranges.", "quantifier": "every well-formed spline, direction, interior parameter of multiplicity at most the degree, evaluation parameter (at multiplicity p+1 the left part agrees strictly before the parameter)", "why_tests_cant": "Equality on a continuum, all dimensions and multiplicities.", "anchors": ["src/spl/b_spline.h:SudivideSpline", "src/spl/nurbs.h:SudivideSpline", "src/spl/parameter_space.h:GetDividedKnotVectors", "src/spl/physical_space.h:GetDividedControlPoints"]}
{"id": "C20", "title": "Subdivision at a boundary parameter is rejected", "statement": "SudivideSpline at the first or last knot throws runtime_error instead of returning degenerate pieces, and leaves the spline unchanged.", "quantifier": "every well-formed spline and direction with end knots of multiplicity exactly p+1 and interior knots of multiplicity at most p", "why_tests_cant": "All spline sizes.", "anchors": ["src/spl/b_spline.h:SudivideSpline", "src/spl/parameter_space.h:ThrowIfKnotVectorDoesNotStartAndEndWith"]}
{"id": "C21", "title": "Degree elevation does not change the geometry", "statement": "ElevateDegreeForDimension raises the degree by one in the direction and leaves Evaluate unchanged at every parameter.", "quantifier": "every well-formed spline, direction, parameter", "why_tests_cant": "Function equality on a continuum; the sampling comparison in the tests accepts NaN as equal.", "anchors": ["src/spl/spline.h:ElevateDegreeForDimension", "src/spl/spline.h:DegreeElevateBezierSegment", "src/spl/spline.h:ProduceBezierSegments", "src/spl/spline.h:RemoveBezierKnots"]}
{"id": "C22", "title": "Degree reduction respects the tolerance", "statement": "ReduceDegreeForDimension returning true changed every Bezier segment by less than the tolerance (in homogeneous coordinates); a segment that is the elevation of a lower degree segment is recovered exactly; returning false leaves the geometry unchanged.", "quantifier": "every well-formed spline, direction, tolerance", "why_tests_cant": "Inequality over a continuum for all degrees.", "anchors": ["src/spl/spline.h:ReduceDegreeForDimension", "src/spl/spline.h:DegreeReduceBezierSegment"]}
{"id": "C23", "title": "Operations keep splines well-formed", "statement": "Any sequence of knot insertions (interior), knot refinements, removals and evaluations keeps the representation invariant: sorted clamped knots, number of control points equal to the product over directions of (#knots - degree - 1), cached basis functions up to date.", "quantifier": "every finite history of operations starting from any constructed spline", "why_tests_cant": "Histories are unbounded.", "anchors": ["src/spl/spline.h:InsertKnot", "src/spl/spline.h:RemoveKnot", "src/spl/spline.h:RefineKnots", "src/spl/parameter_space.h:RecreateBasisFunctions"]}
{"id": "C24", "title": "Constructors accept exactly the valid data", "statement": "Constructing a B-spline/NURBS succeeds iff every knot vector has at least 2p+2 knots with first and last knot of multiplicity p+1, the number of control points matches, all control points have the same dimension and (NURBS) there is one weight per control point; otherwise runtime_error.", "quantifier": "all argument tuples with at least one control point and non-negative degrees", "why_tests_cant": "Infinite input space of invalid data.", "anchors": ["src/spl/parameter_space.h:ThrowIfKnotVectorDoesNotStartAndEndWith", "src/spl/physical_space.h:PhysicalSpace", "src/spl/weighted_physical_space.h:WeightedPhysicalSpace", "src/spl/b_spline.h:BSpline", "src/spl/nurbs.h:NURBS"]}
{"id": "C25", "title": "A copied spline is independent of its original", "statement": "After copy-construction (or construction from knot vectors and control points) no sequence of mutations through one spline, or of the caller's knot vectors, changes what the other evaluates to.", "quantifier": "every spline, every interleaving of mutations on original and copy", "why_tests_cant": "All histories; sharing through shared_ptr is invisible until mutation.", "anchors": ["src/spl/spline.h:Spline(const Spline&)", "src/spl/b_spline.h:BSpline(const BSpline&)", "src/spl/parameter_space.h:ParameterSpace(const ParameterSpace&)", "src/spl/b_spline.h:BSpline(BSplineGenerator)", "src/spl/nurbs_generator.h"]}
{"id": "C26", "title": "The multi-index handler enumerates every index exactly once", "statement": "Starting from zero, Get1DLength increments visit every multi-index of the box exactly once, the i-th visited index has 1D index i, and one more increment returns to zero; decrement is the inverse of increment; Get1DIndex is a bijection onto [0, length).", "quantifier": "every dimension and every tuple of positive lengths", "why_tests_cant": "All dimensions and lengths.", "anchors": ["src/util/multi_index_handler.h"]}
{"id": "C27", "title": "Set1DIndex reaches the requested index", "statement": "Set1DIndex(i) terminates with 1D index i for every i in [0,length) from every state, and does not terminate for i outside.", "quantifier": "every box, state and index", "why_tests_cant": "Non-termination cannot be tested and all states are needed.", "anchors": ["src/util/multi_index_handler.h:Set1DIndex"]}
{"id": "C28", "title": "GetKnotSpan finds the knot span", "statement": "For a sorted knot vector and u in range GetKnotSpan(u) is the unique k with u_k <= u < u_{k+1}, and for the last knot the last non-empty span.", "quantifier": "every sorted knot vector with distinct knots at least kEpsilon apart, every parameter in range", "why_tests_cant": "Binary search over unbounded vectors and a continuum of parameters.", "anchors": ["src/baf/knot_vector.cc:GetKnotSpan", "src/baf/knot_vector.cc:IsLastKnot"]}
{"id": "C29", "title": "Knot vector insertion and removal", "statement": "KnotVector::InsertKnot keeps the vector sorted and raises the multiplicity of exactly that value by one; RemoveKnot of a present value lowers it by one and changes nothing else; RemoveKnot of an absent value changes nothing.", "quantifier": "every sorted knot vector and value", "why_tests_cant": "All vectors and values, including absent ones.", "anchors": ["src/baf/knot_vector.cc:InsertKnot", "src/baf/knot_vector.cc:RemoveKnot", "src/baf/knot_vector.cc:GetMultiplicity"]}
{"id": "C30", "title": "Tolerance comparison of knot vectors and splines", "statement": "AreEqual is reflexive and symmetric for every positive tolerance, implies equal sizes/degrees and pointwise closeness, and operator== on knot vectors is an equivalence relation.", "quantifier": "all knot vectors, splines and tolerances", "why_tests_cant": "Universally quantified relations; transitivity of tolerance comparison fails only on specific triples.", "anchors": ["src/baf/knot_vector.cc:AreEqual", "src/baf/knot_vector.cc:operator==", "src/spl/parameter_space.h:AreEqual", "src/spl/physical_space.h:AreEqual", "src/spl/weighted_physical_space.h:AreEqual", "src/util/numeric_settings.h"]}
{"id": "C31", "title": "AreGeometricallyEqual accepts identical splines", "statement": "AreGeometricallyEqual of a spline with itself returns true without throwing, for every admissible parameter range.", "quantifier": "every well-formed spline", "why_tests_cant": "All parameter ranges; tests only use ranges starting at zero.", "anchors": ["src/spl/spline.h:AreGeometricallyEqual"]}
{"id": "C32", "title": "Translational sweep surface", "statement": "The surface built by SurfaceGenerator(T,C) satisfies S(u,v) = T(u) + C(v) for all parameters.", "quantifier": "all NURBS curves T, C with positive weights and equal space dimension, all in-range (u,v)", "why_tests_cant": "Equality on a continuum.", "anchors": ["src/spl/surface_generator.cc:JoinPhysicalSpaces", "src/spl/surface_generator.cc:JoinParameterSpaces"]}
{"id": "C33", "title": "StringToDouble parses decimal numbers", "statement": "For every decimal literal [-]digits[.digits][(e|E)[+|-]digits] StringToDouble returns its value.", "quantifier": "all decimal literals", "why_tests_cant": "Infinite set of literals; particular shapes are misread.", "anchors": ["src/util/string_operations.h:StringToDouble"]}
{"id": "C34", "title": "File formats are recognised by suffix", "statement": "EndsWith(s,t) is true iff t is a suffix of s, and the converter chooses the file format by the suffix of the name.", "quantifier": "all strings", "why_tests_cant": "Infinite input space; unsigned wrap-around shows only for special lengths.", "anchors": ["src/util/string_operations.h:EndsWith", "src/io/io_converter.cc:GetFileFormat"]}
{"id": "C35", "title": "Delimited lists are split correctly", "statement": "DelimitedStringToVector terminates on every string and on a list of fields separated by ',' and ended by ';' returns the fields in order; split and trim return the non-empty pieces / the stripped string.", "quantifier": "all strings", "why_tests_cant": "Termination and all strings.", "anchors": ["src/util/string_operations.h:DelimitedStringToVector", "src/util/string_operations.h:split", "src/util/string_operations.h:trim"]}
{"id": "C36", "title": "IRIT write/read round trip", "statement": "Reading back a file written by IRITWriter gives the same number of splines with the same degrees, sizes and all numbers equal up to the six printed decimals.", "quantifier": "all lists of B-splines/NURBS of dimension 1..3", "why_tests_cant": "All sizes and values; character-level layout.", "anchors": ["src/io/irit_writer.cc", "src/io/irit_writer_utils.h", "src/io/irit_reader.cc", "src/io/irit_reader_utils.h"]}
{"id": "C37", "title": "XML write/read round trip", "statement": "Reading back the document produced by XMLWriter gives the same splines up to the printed decimals.", "quantifier": "all lists of splines of dimension 1..4", "why_tests_cant": "All sizes and values.", "anchors": ["src/io/xml_writer.cc:24-120", "src/io/xml_writer_utils.h:30-76", "src/io/xml_reader.cc:22-126", "src/io/xml_reader_utils.h:31-59"]}
{"id": "C38", "title": "IGES layout and round trip", "statement": "Every line written by IGESWriter has 80 columns with the section letter in column 73, directory pointers address the right parameter lines, and IGESReader recovers the splines without reading out of bounds.", "quantifier": "all lists of splines of dimension 1 and 2", "why_tests_cant": "All sizes; over-reads are silent.", "anchors": ["src/io/iges_writer.cc:25-340", "src/io/iges_reader.cc:25-180"]}
{"id": "C39", "title": "VTK cells are the cells of the sampling grid", "statement": "The VTK file lists each grid cell exactly once, with the correct corner indices, all indices within the point list of their spline, and header counts equal to the numbers of lines.", "quantifier": "all dimensions 1..3, all positive scatterings of matching sizes, all lists of splines", "why_tests_cant": "All grid sizes.", "anchors": ["src/io/vtk_writer.cc", "src/io/vtk_writer_utils.h"]}
{"id": "C40", "title": "Repeated conversion gives the same result", "statement": "ConvertFile writes the requested splines (that the format supports) in the requested order and returns their positions, independently of earlier calls on the same converter object.", "quantifier": "all histories of ConvertFile calls, all spline lists and positions", "why_tests_cant": "Depends on call history.", "anchors": ["src/io/io_converter.cc:GetPositions", "src/io/io_converter.cc:ConvertFile"]}
{"id": "C41", "title": "Projection terminates with a parameter inside the range", "statement": "Projection on a curve/surface terminates within 1001 iterations and returns a parameter inside the knot range.", "quantifier": "all curves/surfaces and points", "why_tests_cant": "Numerical iteration on arbitrary input; termination.", "anchors": ["src/spl/projection.h:29-202", "src/util/vector_utils.h:28-79"]}
{"id": "C42", "title": "Generated splines are valid", "statement": "RandomBSplineGenerator, RandomNURBSGenerator and SquareGenerator produce data that their constructors accept, for every random outcome.", "quantifier": "all random outcomes, numbers of directions, parameter ranges, maximal degrees of at least 1 and dimensions; for the square generator all degrees p of at least 1 and at least 2p+2 knots (smaller values are undefined behaviour, shown by counterexamples)", "why_tests_cant": "All random outcomes.", "anchors": ["src/spl/random_spline_utils.h", "src/spl/square_generator.cc"]}
{"id": "C43", "title": "Elements tile the parameter range", "statement": "ElementGenerator returns, per direction, the non-empty knot spans in order: consecutive, starting at the first and ending at the last knot, one fewer than the number of different knots.", "quantifier": "every well-formed spline", "why_tests_cant": "All knot vectors.", "anchors": ["src/util/element_generator.h", "example/iga/src/element_generator.h", "src/baf/knot_vector.cc:GetNumberOfDifferentKnots"]}
{"id": "C44", "title": "Gauss rules are exact", "statement": "The n-point rule (n=1..5) integrates every polynomial of degree <= 2n-1 exactly over [-1,1].", "quantifier": "all polynomials of the degree", "why_tests_cant": "All polynomials.", "anchors": ["example/iga/src/itg"]}
{"id": "C45", "title": "Averaged knot vectors are valid", "statement": "The averaging KnotVector constructor yields a sorted clamped knot vector with nbControlPoints + degree + 1 knots whenever the parameters are increasing and start at 0.", "quantifier": "all degrees p of at least 1, all numbers of control points greater than p, all parameter lists with at least as many parameters as control points", "why_tests_cant": "All lists.", "anchors": ["src/baf/knot_vector.cc:KnotVector(std::vector<ParamCoord>, Degree, int)"]}
{"id": "C46", "title": "Different knots are counted exactly", "statement": "GetNumberOfDifferentKnots of a knot vector with ascending knots is the number of different knot values.", "quantifier": "all non-empty ascending knot vectors", "why_tests_cant": "All knot vectors, in particular all multiplicity patterns.", "anchors": ["src/baf/knot_vector.cc:GetNumberOfDifferentKnots"]}
{"id": "C47", "title": "Connectivity matches the non-zero basis functions", "statement": "ConnectivityHandler::GetGlobalIndex(element, local) is one plus the position of the control point whose basis function is the local-th non-vanishing one on the element, also for knots of higher multiplicity.", "quantifier": "every well-formed spline of any dimension, every element, local basis function and coordinate in the element (including the end of the range)", "why_tests_cant": "All multiplicity patterns and dimensions; the tests use two knot vectors.", "anchors": ["example/iga/src/connectivity_handler.h:GetGlobalIndex", "example/iga/src/element_generator.h:GetKnotMultiplicityIndexShift"]}
{"id": "C48", "title": "Elements are found and numbered consistently", "statement": "GetElementNumberAtParamCoord returns the number of the element in which the coordinate lies; element numbers and element indices are converted inversely; Reference2ParameterSpace maps the reference interval into the element.", "quantifier": "every well-formed spline, every element, every coordinate in the range (the last knot of a direction counts to the last element)", "why_tests_cant": "All coordinates and knot vectors.", "anchors": ["example/iga/src/element_generator.h:GetElementNumberAtParamCoord", "example/iga/src/mapping_handler.h:Reference2ParameterSpace"]}
{"id": "C49", "title": "Frames of a sweep", "statement": "If SurfaceGenerator(nurbs_T, nurbs_C, nbInter, scaling) succeeds, control point (i, j) of the generated surface is control point j of nurbs_C, multiplied by the scaling factors number i and placed into a coordinate frame of nurbs_T at the i-th of nbInter equidistant parameters: the origin is the point of the trajectory, the first axis its unit tangent, and where the first two derivatives are linearly independent the axes are orthonormal and right-handed with the third axis perpendicular to both derivatives, so that unscaled sections are congruent to nurbs_C. Where the derivatives are linearly dependent this is false in general.", "quantifier": "For all well-formed NURBS curves T and C in space, all numbers of sections greater than the degree of T and all scaling factors; all positions, derivatives and previous axes for the single frame.", "why_tests_cant": "The tests compare sampled points for a handful of trajectories; orthonormality for every trajectory and the behaviour where derivatives become dependent are not sampled.", "anchors": ["src/spl/surface_generator.cc:54-102", "src/spl/surface_generator.cc:150-209", "src/baf/control_point.cc:64-73"]}
{"id": "C50", "title": "Swept surfaces", "statement": "Every point S(u, v) of a surface generated by a sweep is the weighted mean of the positions of C(v) in the sections; S(first, v) and S(last, v) are the images of C(v) in the first and the last frame. A sweep can only succeed if the parameter range of the trajectory starts at 0. With no more sections than the degree of the trajectory the generated spline is accepted but cannot be evaluated.", "quantifier": "For all well-formed NURBS curves T and C in space, all numbers of sections greater than the degree of T, all scaling factors, all parameters u and v of the surface.", "why_tests_cant": "The statement is about all parameters and all curves; tests evaluate at a few parameters of two example surfaces.", "anchors": ["src/spl/surface_generator.cc:54-102", "src/baf/knot_vector.cc:34-50"]}
{"id": "C51", "title": "The geometry determines the control net, and the order of insertions is irrelevant", "statement": "Two valid splines of the same kind with the same knot vectors and degrees that Evaluate to the same values everywhere (for NURBS including the weight function) have identical control points and weights, provided no knot has a multiplicity above degree + 1. Consequently RefineKnots with the same knots in any order, and InsertKnot calls in two different parametric directions in either order, end in the identical object.", "quantifier": "All valid B-spline and NURBS objects of any number of parametric and physical dimensions, all pairs of such objects over the same parameter space, all admissible lists of knots and all their permutations, all pairs of directions, knots and multiplicities.", "why_tests_cant": "Equality of geometry is a statement about infinitely many parameters, and tests insert a handful of knots in a single order; the linear independence of the B-spline basis for arbitrary knot vectors is what makes the result unique.", "anchors": ["src/spl/spline.h:163-187", "src/spl/b_spline.h:60-77 AdjustControlPoints", "src/spl/nurbs.h:70-89 AdjustControlPoints"]}
{"id": "C52", "title": "Basis functions at integration points", "statement": "EvaluateAllElementNonZeroNURBSBasisFunctions(e, rule) returns one entry for every combination of points of the rule; each belongs to the affine image of that combination in the element, carries the product of the weights and the Jacobian determinant there, and its values are the rational basis functions N_I w_I / sum(N w) with the numbers GetGlobalIndex(e, k). They are not negative, add up to one, and every function that is not zero at the point is among them.", "quantifier": "All valid NURBS of any number of parametric directions, all elements, all rules with points in [-1, 1).", "why_tests_cant": "Tests compare a few values on one or two splines; the statement ranges over all degrees, knot vectors, dimensions and rules.", "anchors": ["example/iga/src/basis_function_handler.h:41-67", "example/iga/src/basis_function_handler.h:126-150", "example/iga/src/connectivity_handler.h"]}
{"id": "C53", "title": "Derivatives of the rational basis functions", "statement": "EvaluateAllNonZeroNURBSBasisFunctionDerivatives returns the partial derivatives of the rational basis functions of the element, which add up to zero in every direction.", "quantifier": "All valid NURBS, all parameters inside an element. False for weights different from one (counterexample proved): the quotient rule is applied to the already normalised function, and only the first DIM functions are normalised.", "why_tests_cant": "The tests use unit weights, for which the error is invisible.", "anchors": ["example/iga/src/basis_function_handler.h:152-197"]}
{"id": "C54", "title": "The mapping to physical space", "statement": "GetJacobianDeterminant is the root of the Gram determinant of the derivatives of the geometry times the half lengths of the element: for square Jacobians the absolute value of the determinant times the half lengths, positive where the geometry is regular. GetDxiDx is the inverse of the Jacobian matrix. The physical derivatives obey the chain rule, add up to zero and differentiate the coordinates to one and zero.", "quantifier": "All valid NURBS of any dimensions, all elements and parameters in them; inverse where the determinant is not zero; physical derivatives for unit weights (see C53).", "why_tests_cant": "Tests check two parameters of one surface; the identities hold for every geometry and dimension.", "anchors": ["example/iga/src/mapping_handler.h:30-80", "example/iga/src/basis_function_handler.h:199-214"]}
{"id": "C55", "title": "Assembled matrices", "statement": "The time discretisation matrix is the mass matrix: entry (a, b) is the quadrature over all elements of R_a R_b; it is symmetric, its entries add up to the quadrature of one, and it is positive semidefinite for rules with weights that are not negative. GetRightSide adds to entry a the quadrature of R_a times the source field. GetLeftSide adds the conductivity times the quadrature of the products of the gradients; the matrix is symmetric, its rows add up to zero and it is positive semidefinite. BDF1 gives A + M/dt and b + M/dt u.", "quantifier": "All valid NURBS, all rules, all given matrices and vectors; GetLeftSide for unit weights and geometries that are regular at the integration points.", "why_tests_cant": "Tests compare with matrices computed once for one geometry; symmetry, row sums and definiteness are statements about all geometries.", "anchors": ["example/iga/src/element_integral_calculator.h:37-71", "example/iga/src/linear_equation_assembler.h:35-47", "example/iga/src/bdf_handler.h:33-63"]}
{"id": "C56", "title": "Boundary conditions", "statement": "SetZeroBC and SetDirichletBC turn exactly the rows of the boundary control points into unit rows with the prescribed right side (zero, or the given values in the order of the control point numbers) and leave every other row. The discrete field on the boundary of the parameter domain depends only on the coefficients of the boundary control points, so it vanishes there if they are zero.", "quantifier": "All valid splines of any number of directions, all matrices and vectors of the right size, all boundary parameters.", "why_tests_cant": "Tests check one matrix; that no inner function reaches the boundary is a statement about all knot vectors.", "anchors": ["example/iga/src/linear_equation_assembler.h:127-167"]}
{"id": "C57", "title": "Boundary splines and Neumann conditions", "statement": "The connectivity of a direction lists the numbers of the control points with the first and the last index in that direction; the boundary splines are the restrictions of the geometry to the sides; GetRightSideNeumann adds for every side the quadrature over the boundary spline of the functions of its control points times the given field.", "quantifier": "All valid NURBS of at least two directions. False unless the first DIM-1 knot vectors and degrees are those of the side: GetBoundarySplines uses the wrong index, and a surface with different numbers of control points in its directions makes it throw (proved for all such surfaces).", "why_tests_cant": "The boundary splines are not tested at all.", "anchors": ["example/iga/src/linear_equation_assembler.h:49-125"]}
{"id": "C58", "title": "The solution as spline and as VTK data", "statement": "SolutionSpline has the geometry of the given spline and the discrete field as additional last coordinate; the point data of the VTK file are the values of the field at the grid points, in the order in which the points are written.", "quantifier": "All valid NURBS, all solution vectors of the right length, all positive numbers of grid intervals.", "why_tests_cant": "Tests check the written file for one solution.", "anchors": ["example/iga/src/solution_spline.h:27-40", "example/iga/src/solution_vtk_writer.h:36-56"]}
{"id": "C59", "title": "Steady Poisson problem", "statement": "On a new PoissonProblem, GetSteadyStateSolution returns coefficients that are zero for the boundary control points and satisfy the discrete equations of -Laplace u = 1 for all inner ones; apart from the linear solver nothing can fail.", "quantifier": "All valid NURBS and rules with a geometry that is regular at the integration points, all correct linear solvers; the matrix is the one of the Laplace operator for unit weights.", "why_tests_cant": "One test compares the last unsteady step with the steady solution on one line; the statement is about all geometries.", "anchors": ["example/iga/src/poisson_problem.h:30-44"]}
{"id": "C60", "title": "Unsteady Poisson problem and repeated calls", "statement": "On a new PoissonProblem, GetUnsteadyStateSolution(dt, tEnd, Dirichlet) returns the zero start and floor(tEnd/dt) implicit Euler steps with the given boundary values. GetSteadyStateSolution after GetSteadyStateSolution or GetUnsteadyStateSolution solves the same equations as on a new problem. GetUnsteadyStateSolution after GetSteadyStateSolution does not: the members accumulate, and it solves the equation with the double conductivity and the double source.", "quantifier": "All valid NURBS and rules as in C59, all dt > 0 and tEnd >= 0, all correct linear solvers.", "why_tests_cant": "One test makes one sequence of calls; the wrong order is not tested, and the number of steps is unbounded.", "anchors": ["example/iga/src/poisson_problem.h:39-63"]}
{"id": "C61", "title": "Reading a log file", "statement": "ConverterLog(log_file) reads the input path, the output path, the requested positions and the rows of scattering from the sections of a log file, whatever the order of the sections and the text between them, if each section ends in an empty line or at the end of the file. A file that cannot be opened is refused with std::runtime_error. Appending the text that WriteLog writes changes nothing of what is read from the file. Sections that follow each other without an empty line are not read correctly.", "quantifier": "All log files made of such sections, all paths without line ends, all positions and rows that int can hold; for the appended text all files whatsoever that do not end in a bare header of a path.", "why_tests_cant": "Files have any number of sections and lines; the tests read five files.", "anchors": ["src/io/executables/converter_log.cc:27-58", "src/io/executables/converter_log.cc:97-132", "src/util/string_operations.h:62-68"]}
{"id": "C62", "title": "Positions and scattering of a log file", "statement": "On a ConverterLog that was just read, GetPositions returns all possible positions if the options are \"all\", and otherwise the requested positions that are possible, in the order of the options. GetScattering then returns the row of each written spline: the row of its option line, or the row with its position under \"all\"; too few rows are refused with std::runtime_error. Without options the behaviour is undefined. A second call of GetPositions returns the positions twice.", "quantifier": "All log objects, all lists of possible positions.", "why_tests_cant": "The combinations of options, possible positions and rows are unbounded; the tests try a few, and never an empty options section or a second call.", "anchors": ["src/io/executables/converter_log.cc:68-95", "src/util/vector_utils.h:69-79"]}
{"id": "C63", "title": "The conversion programs", "statement": "Each of the nine programs hands to the writer exactly the splines of the input file that are requested in the log file and that the output format can hold, in that order, with the rows of scattering that belong to them for VTK; then it appends one entry to the log file that names exactly the written positions. It writes the same as a new IOConverter, and running it again does the same again. Asked for help it does nothing; wrong arguments, an unreadable log file and every exception of the reader give std::runtime_error and leave no output and no log entry; a log entry is written only after the writer succeeded.", "quantifier": "All log files, input files, lists of splines, formats and outcomes of readers and writers.", "why_tests_cant": "The tests run a handful of conversions of one file; the log file and the input file are unbounded.", "anchors": ["src/io/executables/irit_to_xml.cc:21-49", "src/io/executables/iges_to_vtk.cc:22-52", "src/io/executables/xml_to_iges.cc:21-50", "src/io/io_converter.cc:30-39"]}
{"id": "C64", "title": "Converting files", "statement": "Converting a file with a new IOConverter changes only the output file. It then contains what the writer of its format makes of the requested splines that the format can hold, in the requested order. If the input cannot be read, no file changes. Any chain of conversions without positions between files that store the splines exactly (six decimals for XML and IRIT, with the products of weights and coordinates for IRIT; 18 digits and curves in three dimensions for IGES) succeeds and every file of the chain is read as the original splines. B-splines with arbitrary numbers are rounded to six decimals by the first IRIT or XML file, and every further chain of IRIT and XML files gives exactly these rounded splines: rounding errors do not accumulate.", "quantifier": "All files, names, lists of splines, lists of positions, chains of any length.", "why_tests_cant": "The tests convert single files once; chains of conversions and the sets of numbers that are preserved are unbounded.", "anchors": ["src/io/io_converter.cc:17-125", "src/io/irit_writer.cc:24-38", "src/io/irit_reader.cc:23-47", "src/io/xml_writer.cc:24-32", "src/io/xml_reader.cc:22-35", "src/io/iges_writer.cc:25-57", "src/io/iges_reader.cc:25-56"]}
{"id": "C65", "title": "Vector utilities", "statement": "For vectors of equal length ComputeDifference, ComputeScalarProduct, ScaleVector, ComputeTwoNorm and ComputeDistance are the difference, scalar product, multiple, Euclidean norm and Euclidean distance; the distance is a metric. CrossProduct of vectors with three entries is the cross product (orthogonal to both, Lagrange's identity, orientation) and undefined for shorter ones. For different lengths the scalar product is undefined if the second vector is shorter, and otherwise its remaining entries are added. FilterVector returns the entries at the given positions, and refuses a position that is too high with std::runtime_error.", "quantifier": "All vectors of all lengths.", "why_tests_cant": "Identities such as the triangle inequality and orthogonality hold for all vectors; tests check a few vectors of equal length.", "anchors": ["src/util/vector_utils.h:28-79"]}
{"id": "C66", "title": "Bounds from the control points", "statement": "GetMaximumDistanceFromOrigin is the largest norm of a control point, and every point of the spline lies in the ball with this radius. GetMinimumWeight is the smallest weight. GetExpansion is the largest coordinate or zero, and no coordinate of a point of the spline exceeds it; it does not bound the magnitude of negative coordinates.", "quantifier": "All well-formed B-splines and NURBS of any dimensions, all parameters in the domain.", "why_tests_cant": "A bound over all points of all splines cannot be tested; the tests compare single values and never use negative coordinates.", "anchors": ["src/spl/physical_space.h:141-161", "src/spl/weighted_physical_space.h:69-75"]}
{"id": "C67", "title": "The assembled matrices are the integrals of the weak form", "statement": "With the Gauss-Legendre rules of the example, the mass matrix, the right side, the stiffness matrix and the volume it adds up to are equal to the integrals over the parameter domain (with the volume factor of the geometry), not merely to quadrature sums, as long as the degrees are small enough for the number of integration points.", "quantifier": "All geometries with weights one and a Jacobian determinant of constant sign, in as many dimensions as they have directions; all degrees up to the bound of the rule; 1 to 5 integration points; the stiffness matrix for affine geometries.", "why_tests_cant": "An integral is no finite computation, and the tests compare with stored numbers from another program.", "anchors": ["example/iga/src/element_integral_calculator.h:37-71", "example/iga/src/linear_equation_assembler.h:35-47", "example/iga/src/bdf_handler.h:45-63", "example/iga/src/itg/one_point_gauss_legendre.h:22-25", "example/iga/src/itg/two_point_gauss_legendre.h:25-29", "example/iga/src/itg/three_point_gauss_legendre.h:25-31", "example/iga/src/itg/four_point_gauss_legendre.h:25-32", "example/iga/src/itg/five_point_gauss_legendre.h:25-33"]}
{"id": "C68", "title": "The discrete problems have exactly one solution", "statement": "The mass matrix is positive definite, and the matrix of the Laplace operator is positive definite on the functions that are zero at the boundary. Hence the steady problem has exactly one discrete solution and every step of the implicit Euler method is determined; GetSteadyStateSolution and GetUnsteadyStateSolution on a new problem always return, and they return these solutions.", "quantifier": "All well-formed NURBS geometries of any number of directions that are regular at the integration points, with as many coordinates as directions; all degrees below the number of integration points of the rule, in particular for the Gauss-Legendre rules with 1 to 5 points; any weights for the mass matrix and the time steps, weights one and continuous functions for the steady problem; every linear solver that returns correct solutions of regular systems. The unsteady solution: positive time steps whose number fits into an int, and at least as many boundary values as boundary control points.", "why_tests_cant": "Regularity of all matrices of all geometries, degrees and sizes is no finite check; the tests solve a few fixed systems.", "anchors": ["example/iga/src/poisson_problem.h:39-63", "example/iga/src/linear_equation_assembler.h:35-47", "example/iga/src/linear_equation_assembler.h:127-167", "example/iga/src/bdf_handler.h:33-63"]}
{"id": "C69", "title": "Evaluating an accepted spline is defined", "statement": "Every spline object that a constructor accepts can be evaluated: inside the parameter range Evaluate and EvaluateDerivative return as many numbers as were asked for (a NURBS may instead divide by a weight function that is zero there), outside they throw std::range_error. There is no undefined behaviour, no other exception and no endless recursion.", "quantifier": "All numbers of directions, degrees, knot vectors that the constructors accept (sorted or not), control points and weights of any sign, all parameters, all lists of coordinates below the dimension of the points, all orders of differentiation.", "why_tests_cant": "Undefined behaviour depends on knots that no test uses (equal or unsorted knots, ranges shorter than the tolerance), and a test that runs into it need not fail.", "anchors": ["src/spl/spline.h:49-84", "src/spl/parameter_space.h:130-147", "src/spl/parameter_space.h:210-227", "src/baf/knot_vector.cc:100-105", "src/baf/knot_vector.cc:139-145", "src/spl/nurbs.h:135-210"]}
{"id": "C70", "title": "Rounding errors of evaluation are bounded", "statement": "In floating point arithmetic (every operation rounded with relative error at most u, no overflow or underflow) the basis functions are non-negative, zero outside their support and accurate up to the relative error of 6p operations. Evaluate finds the same knot spans as exact arithmetic and returns the exact point up to ((1/(1-u))^m - 1) times the sum of N_I |P_I| (NURBS: R_I |P_I|), where m depends only on the degrees; the same holds for the derivatives of B-splines with the sum of the absolute values of the recursion.", "quantifier": "All monotone, symmetric roundings with relative error u < 1 for which kEpsilon is representable (among them round to nearest even with 53 bits); all well-formed splines of any dimension, degrees, control points and positive weights; all parameters in range; all orders of differentiation of B-splines.", "why_tests_cant": "Tests compare a few values with a tolerance; they cannot show that errors stay bounded for all degrees, knots and control points.", "anchors": ["src/baf/b_spline_basis_function.cc:20-64", "src/baf/basis_function.cc:17-50", "src/baf/knot_vector.cc:100-105", "src/spl/parameter_space.h:112-136", "src/spl/spline.h:49-84", "src/spl/b_spline.h:118-130", "src/spl/nurbs.h:135-146", "src/spl/nurbs.h:187-214", "src/util/numeric_settings.h:27-33"]}
{"id": "C71", "title": "XML files are read and written as XML", "statement": "Reading an XML text gives the tree of elements, attributes and texts that XML assigns to it: any layout, either kind of quotes, character references, CDATA sections, comments, processing instructions and a byte order mark. Every other text is parsed to some tree or refused with std::runtime_error; a text without an element is refused; reading always ends. What WriteFile writes is an XML text for the document, and reading it gives the written splines: up to six decimals in general, exactly if they have no more. The layout of a file has no influence on the splines.", "quantifier": "All character sequences as input files; all documents with proper names, without blank or adjacent texts, without carriage returns in texts and tabs in attributes; all lists of well-formed splines of dimension 1 to 4.", "why_tests_cant": "Tests read a few files that the library or its authors wrote; they cannot cover all layouts of a file or all inputs on which the parser must not crash or hang.", "anchors": ["src/io/xml_reader.cc:22-35", "src/io/xml_writer.cc:24-32", "external/pugixml/pugixml.cpp:2310-3288", "external/pugixml/pugixml.cpp:3640-3996"]}
{"id": "C72", "title": "Truncated XML files are refused", "statement": "If an XML file that the library wrote is cut off anywhere, reading it throws std::runtime_error; only the line end at the end of the file may be missing, and then all splines are read. The reader never returns some of the splines, or splines with fewer points, of a file that was cut off.", "quantifier": "All lists of well-formed splines of dimension 1 to 4 (also the empty list), all prefixes of the file.", "why_tests_cant": "A file has as many prefixes as characters; tests can try a few of them for a few files.", "anchors": ["src/io/xml_reader.cc:22-28", "external/pugixml/pugixml.cpp:3022-3217", "external/pugixml/pugixml.cpp:3242-3288"]}
{"id": "C73", "title": "VTK files contain the sampling grid as text", "statement": "The characters written by the VTK writer are a file of the legacy VTK format (unstructured grid). Read back, its points are the points of the geometry on the sampling grids, each coordinate being a nearest decimal number with six significant digits (exact if six digits suffice, relative error at most 1e-5 otherwise); its cells are the cells of the grids, each exactly once, with the corners in the order of the format and the matching cell type; all counts agree with the lists behind them. The text determines points, cells and types. The file with a solution of the isogeometric example also contains one value per point, a nearest six-digit number to the discrete solution there. Six digits need not tell the points of a grid apart: there is a line whose sampled points differ and are written as one point.", "quantifier": "All lists of well-formed splines of dimension 1 to 3, all positive scatterings of matching sizes, all ways to break ties when rounding to six digits; all coefficient vectors of the solution.", "why_tests_cant": "Numbers are formatted in three ways depending on their size, and lines depend on the dimensions; tests compare single files.", "anchors": ["src/io/vtk_writer.cc:20-169", "src/io/vtk_writer_utils.h:52-71", "example/iga/src/solution_vtk_writer.h:34-69"]}
{"id": "C74", "title": "Truncated IRIT and IGES files never yield wrong splines, but are not refused", "statement": "If a written IRIT file is cut off anywhere and the reader returns normally, the returned splines are the first splines of the file, each read exactly as from the complete file; a written IGES file that was cut off yields all splines or none. No spline with changed knots, points or weights is ever returned. But the readers do not notice that the file is incomplete: an IRIT file that ends between two splines is read without the splines behind the cut, and an IGES file that ends before its directory entries is read as a file without splines, both without an exception. Other cuts lead to undefined behaviour: every IRIT file with a spline has such a cut, and so does every cut inside of the first 71 columns of a line of an IGES file. If only the terminate section of an IGES file is missing, all splines are read.", "quantifier": "All lists of well-formed splines that can be written to the format (IRIT: dimension 1 to 3, weights at least 1e-6; IGES: dimension 1 and 2, fewer than 10^7 lines), all prefixes of the file, all ways to break ties when rounding to the written digits.", "why_tests_cant": "A file has as many prefixes as characters, and out-of-range accesses need not be visible; tests read a few complete files.", "anchors": ["src/io/irit_reader.cc:23-57", "src/io/irit_reader.cc:114-163", "src/io/iges_reader.cc:25-58"]}
{"id": "C75", "title": "Numbers in files are read with small rounding errors, but not exactly", "statement": "With floating point arithmetic StringToDouble returns for every decimal literal (with a decimal point, or without exponent) its value up to a relative error of one rounding per digit and a few more. Literals that denote integers which are exact in the arithmetic (for double: up to 2^53) are read exactly, so counts, degrees and integer knots survive writing and reading in every format. A number written to an IGES file is read in double arithmetic with a relative error of at most 4e-15. Reading is not exact otherwise, even where the text is exact: 0.75 is written as 0.75 and read as 0.75 + 2^-53, every further writing and reading may change the number again, and neighbouring numbers can change their order.", "quantifier": "All decimal literals, all rounding functions with a relative error below one (round to nearest even with 53 bits is an instance), all implementations of pow with a bounded relative error, all ways to break ties when printing. Overflow and underflow are excluded.", "why_tests_cant": "Tests compare values that were read with tolerances and for a few numbers; the errors depend on the digits.", "anchors": ["src/util/string_operations.h:88-116", "src/io/iges_writer.cc:274-280"]}
{"id": "C76", "title": "Knot insertion in floating point arithmetic moves the spline only by rounding errors", "statement": "With rounded arithmetic InsertKnot (any multiplicity) and RefineKnots on a B-spline succeed, produce the same knot vectors as exact arithmetic and the same domain, and with n inserted knots move no point of the spline by more than ((1+3g)^n - 1) B, where B bounds the coordinates of the control points and g is the relative error of six operations. For NURBS all weights stay positive and with e = (1+3h)^n - 1, h the relative error of eight operations, no point moves by more than 2 e W / (w - e W) B, where w and W are the smallest and the largest weight. A refined spline evaluated in rounded arithmetic differs from the exact value of the original one by the combined bound. The geometry is not preserved exactly: inserting 0.2 into a constant curve in double arithmetic gives a control point outside of the convex hull of the old ones.", "quantifier": "All well-formed B-splines and NURBS of any dimension, all admissible knots and multiplicities resp. lists of knots, all points of the domain, all rounding functions with a relative error below one (for NURBS also rnd 1 = 1). Overflow and underflow are excluded.", "why_tests_cant": "Tests compare refined splines at a few points with a tolerance; they do not bound the error over the whole domain, nor how errors accumulate over many insertions.", "anchors": ["src/spl/spline.h:163-187", "src/spl/b_spline.h:60-77", "src/spl/b_spline.h:132-151", "src/spl/nurbs.h:70-89", "src/spl/nurbs.h:245-282", "src/baf/knot_vector.cc:147-150"]}
{"id": "C77", "title": "Differences of knot vectors", "statement": "The difference of two knot vectors contains, for every knot of the left operand, that knot minus the knot of the right operand at the same position. For knot vectors of equal length all its entries are smaller than a tolerance in absolute value exactly if AreEqual calls them equal for this tolerance. The lengths are not compared: further knots of a longer right operand are ignored, so the difference of different knot vectors can be zero, and a shorter right operand is read behind its end.", "quantifier": "All pairs of knot vectors of any lengths, all tolerances.", "why_tests_cant": "The unit test subtracts a knot vector from itself; the behaviour for other lengths is not visible in a test that happens not to crash.", "anchors": ["src/baf/knot_vector.cc:52-56", "src/baf/knot_vector.cc:65-78"]}
{"id": "C78", "title": "What a failed writer leaves behind", "statement": "The writers open (and thereby empty) the output file before they check their arguments. If the IRIT writer refuses a spline because of its dimension, the splines in front of it stay in the file and the reader returns exactly these without an error. If the IGES writer throws an exception, the file is empty, and the reader returns no splines for it. If the VTK writer throws an exception, the file is not a grid: only the first lines are left if the scattering has wrong sizes, and the first lines with the points of the splines in front if a spline has four dimensions. The XML writer leaves the old file as it was. So a conversion to VTK with a scattering of a wrong size destroys the old contents of the output file.", "quantifier": "All lists of splines in front of and behind the refused one, all scatterings, all former contents of the files.", "why_tests_cant": "The tests check that an exception is thrown, for one input each, and do not look at the file afterwards.", "anchors": ["src/io/irit_writer.cc:24-53", "src/io/iges_writer.cc:25-57", "src/io/vtk_writer.cc:20-66", "src/io/vtk_writer.cc:98-111", "src/io/vtk_writer_utils.h:52-65", "src/io/xml_writer.cc:23-32", "src/io/io_converter.cc:17-28"]}
{"id": "C79", "title": "Rounding errors of derivatives of NURBS", "statement": "Derivatives of NURBS of any order, computed with a rounding after every operation, succeed wherever the exact computation succeeds, and differ from the exact derivative by at most the growth factor of a number of operations that depends on the degrees and the orders of differentiation only, times the value that the formulas give if all differences in them are replaced by sums. The error is not small relative to the derivative itself: in double arithmetic the derivative of a constant curve can come out as nonzero.", "quantifier": "All well-formed NURBS of all dimensions and degrees, all orders of differentiation, all coordinates of the parameter range, all rounding functions that are monotone, odd and have a relative error below 1.", "why_tests_cant": "The tests compare derivatives of a few splines at a few coordinates with a tolerance; they cannot bound the error for other splines.", "anchors": ["src/spl/nurbs.h:148-185", "src/spl/nurbs.h:187-221", "src/spl/nurbs.h:231-243", "src/spl/spline.h:67-84"]}
{"id": "C80", "title": "Evaluation and the range of int", "statement": "If dimension, number of control points and number of coordinates of a well-formed spline fit into int, evaluating points with 32 bit index arithmetic gives the same result as with unbounded integers, for every coordinate and every list of dimensions, including exceptions. The same holds for derivatives as long as the binomial coefficients of the orders and the number of lower orders fit into int; total orders up to 33 always do. Otherwise the behaviour is undefined: the last point of a spline with more than 2^31 coordinates cannot be evaluated, and derivatives of NURBS with an order of 34 or more in some direction cannot be computed, wherever they are requested.", "quantifier": "All well-formed B-splines and NURBS of all dimensions and degrees, all parametric coordinates, all lists of requested dimensions, all non-negative orders of differentiation.", "why_tests_cant": "The tests use small splines and low orders; overflow of int needs either very large data or high orders, and undefined behaviour need not show in a test.", "anchors": ["src/util/multi_index_handler.h:40-50", "src/util/multi_index_handler.h:102-136", "src/spl/physical_space.h:69-78", "src/spl/weighted_physical_space.h:50-67", "src/spl/spline.h:49-84", "src/spl/nurbs.h:135-243"]}
{"id": "C81", "title": "The conversion programs and the files", "statement": "A run of one of the nine conversion programs changes at most the output file named in the log file and the log file. On success the output file holds what the writer of the program's format makes of the requested splines, whatever the name of the file is and also if it is the input file, and the log file is its old text with one entry appended; if output file and log file coincide, the log is lost. If the writer throws, no entry is written, an XML file is unchanged and an IRIT or IGES file is truncated to what was written before. If the log file or the input file is missing or the input is refused, and when help is asked for, no file changes. Any number of repeated runs gives the same output file and one entry for each run. If the names fit, the files are those that the converter class makes, and splines that suit the format are read back exactly.", "quantifier": "All contents of all files, all names, all nine pairs of formats, all requests, any number of runs at any times.", "why_tests_cant": "The tests run the programs on a few log files; log files, input files, coinciding names and repeated runs are unbounded.", "anchors": ["src/io/executables/irit_to_xml.cc:21-49", "src/io/executables/iges_to_vtk.cc:22-52", "src/io/executables/converter_log.cc:97-111", "src/io/irit_writer.cc:24-38", "src/io/xml_writer.cc:24-32"]}
{"id": "C82", "title": "Smoothness at knots", "statement": "At a parameter inside the range that occurs m times among the knots of a direction of degree p, every derivative of order k in this direction with k + m < p (any k if the parameter is no knot) can be differentiated once more from both sides, and EvaluateDerivative returns this two-sided derivative, for B-splines and NURBS and mixed with derivatives in the other directions. If k + m <= p for every interior knot of every direction, the derivative is a continuous function of all parameters together; in particular points are continuous if no interior knot occurs more than p times. The bound is sharp: a curve of degree 1 with an interior knot of multiplicity 2 jumps.", "quantifier": "All well-formed B-splines and NURBS over the reals of all dimensions and degrees, all orders of differentiation, all parameters inside the range.", "why_tests_cant": "The tests compare values and derivatives at single parameters; a derivative that is right from one side only, or a jump at a knot, shows only in a limit.", "anchors": ["src/spl/spline.h:49-84", "src/baf/b_spline_basis_function.cc:33-43", "src/baf/zero_degree_b_spline_basis_function.cc:20-27", "src/spl/nurbs.h:135-243"]}
{"id": "C83", "title": "Splines reproduce polynomials", "statement": "Every polynomial whose degree in each direction is at most the degree of the spline is represented exactly: if a coordinate of the control points is the combination of normalised elementary symmetric functions of p consecutive knots that belongs to the polynomial's coefficients, Evaluate returns the value of the polynomial at every parameter in the range. In particular control points placed at the averages of p consecutive knots make Evaluate return the parameter itself. This holds for B-splines and for NURBS with equal weights.", "quantifier": "All well-formed B-splines and NURBS with equal weights, of all dimensions and degrees, all polynomials of at most these degrees, all parameters in the range.", "why_tests_cant": "Tests compare single points of a few splines; the statement covers all knot vectors, polynomials and parameters.", "anchors": ["src/spl/spline.h:49-84", "src/baf/b_spline_basis_function.cc:33-43", "src/baf/zero_degree_b_spline_basis_function.cc:20-27", "src/spl/nurbs.h:135-243"]}
{"id": "C84", "title": "Curves cross planes no more often than their control polygons", "statement": "If points of a B-spline curve or NURBS curve with positive weights at increasing parameters lie strictly on alternating sides of a plane, there are control points with increasing indices on the same sides; so a curve changes sides no more often than its control polygon. A curve is monotone in every direction in which its control points are. Inserting knots into splines of any dimension creates no additional changes of sides along any line of control points in the direction of the insertion.", "quantifier": "All well-formed curves, all planes of the physical space, all finite increasing sequences of parameters; for insertion all well-formed splines, directions, admissible knots and multiplicities.", "why_tests_cant": "Oscillation between sampled parameters is not visible in tests, and planes, degrees and numbers of crossings are unbounded.", "anchors": ["src/spl/spline.h:49-84", "src/baf/b_spline_basis_function.cc:33-43", "src/baf/zero_degree_b_spline_basis_function.cc:20-27", "src/spl/nurbs.h:135-243", "src/spl/spline.h:InsertKnot", "src/spl/b_spline.h:GetNewControlPoint", "src/spl/nurbs.h:GetNewControlPoint"]}
{"id": "C85", "title": "Speed and convexity of curves follow their control polygons", "statement": "Place the control points of a B-spline curve of degree at least 1 at the averages of p consecutive knots. If a linear function of the points changes between neighbouring control points by at most L times the distance of these averages, it changes along the curve by at most L times the distance of the parameters. If the averages increase strictly and the slopes of a linear function do not decrease from control point to control point, its slopes do not decrease along the curve: a convex control polygon gives a convex curve.", "quantifier": "All well-formed B-spline curves of degree at least 1, all linear functions, all bounds L, all parameters in the range.", "why_tests_cant": "Both are statements about all pairs or triples of parameters for all curves; tests look at single points.", "anchors": ["src/spl/spline.h:49-84", "src/baf/b_spline_basis_function.cc:33-43", "src/baf/zero_degree_b_spline_basis_function.cc:20-27"]}
{"id": "C86", "title": "The global section of IGES files", "statement": "A program that follows the free format of IGES files (strings preceded by their length and H) finds in the global section written by IGESWriter the separators, the name of the file, the names of the programs, the ranges of numbers, scale and unit, the date and time in the form YYYYMMDD.HHNNSS, the largest coordinate of all control points and the version, for every name of the file and every moment.", "quantifier": "all lists of curves and surfaces, all file names, all moments", "why_tests_cant": "The tests write one file name and read the file back with the library's own reader, which ignores the global section; the time is different in every run.", "anchors": ["src/io/iges_writer.cc:63-93", "src/io/iges_writer.cc:258-280", "src/io/iges_writer.cc:301-306", "src/io/iges_writer.cc:308-340"]}
{"id": "C87", "title": "Averaged knots make interpolation solvable", "statement": "If KnotVector(coords, degree, nbControlPoints) is called with parameters that start at 0 and increase by at least kEpsilon, one per control point, and degree >= 1, then for any points there is exactly one B-spline with the resulting knot vector whose Evaluate returns these points at the parameters. For arbitrary clamped knots and increasing parameters in their range, interpolation is uniquely solvable if and only if no basis function vanishes at the parameter with the same index.", "quantifier": "all degrees, numbers of control points, parameters, dimensions and points; all clamped knot vectors and increasing parameters for the equivalence", "why_tests_cant": "The two unit tests of the averaging constructor compare the knots with literals; solvability is a statement about a matrix of arbitrary size for every parameter list.", "anchors": ["src/baf/knot_vector.cc:34-50 KnotVector(std::vector<ParamCoord>, Degree, int)", "src/spl/spline.h:49-65 Evaluate"]}
{"id": "C88", "title": "Evaluation does not depend on the distances between knots", "statement": "For every spline that the constructors accept and whose knots are sorted, Evaluate returns the value of the spline at every parameter in the range, also when different knots are closer than kEpsilon (as the doubles 0.3 and 0.1+0.2 are).", "quantifier": "all dimensions, degrees, control points and weights, all sorted clamped knot vectors without a lower bound on the distances of knots, all parameters", "why_tests_cant": "The unit tests use knots that are far apart; the failing parameters form intervals shorter than 2.3e-15.", "anchors": ["src/baf/b_spline_basis_function.cc:62-64 InverseWithPossiblyZeroDenominator", "src/baf/b_spline_basis_function.cc:20-31", "src/baf/knot_vector.cc:100-105 GetKnotSpan", "src/spl/spline.h:49-65 Evaluate"]}
{"id": "C89", "title": "Refinement brings the control points to the spline", "statement": "Inserting knots never makes the net of control points steeper relative to the knots: if neighbouring control points of a B-spline differ by at most L times the length of the knots between them, this also holds after any calls of InsertKnot and RefineKnots. Each control point of the result then lies within L times the sum of 2p^2 over the directions times h of the point that Evaluate returned for the original spline at parameters between the knots of that control point, where h is the largest distance of neighbouring knots of the result. For NURBS the same holds with homogeneous control points, divided by the smallest original weight.", "quantifier": "all well-formed B-splines and NURBS of any dimension and degrees, all sequences of InsertKnot and RefineKnots calls with interior knots, all slope bounds L, all control points of the result", "why_tests_cant": "The claim bounds an error for all sequences of insertions; tests compare a few inserted knots with known control points.", "anchors": ["src/spl/spline.h:163-181 InsertKnot", "src/spl/spline.h:183-187 RefineKnots", "src/spl/spline.h:49-65 Evaluate"]}
{"id": "C90", "title": "Affine reparametrisation and common factors of weights do not change the geometry", "statement": "If the knots of one direction are shifted by m and scaled by a positive factor r (and the result still is a well-formed spline), Evaluate at r*a+m in this direction returns exactly what Evaluate returned at a, and EvaluateDerivative returns the former derivative divided by r for each order in this direction. Multiplying all weights of a NURBS by the same positive factor changes neither Evaluate nor EvaluateDerivative.", "quantifier": "all well-formed B-splines and NURBS of any dimension and degrees, all directions, factors and shifts, all parameters in the range, all derivative orders and lists of coordinates", "why_tests_cant": "The claim compares two splines for all parameters and all orders of derivatives; the tests evaluate fixed splines.", "anchors": ["src/spl/spline.h:49-65 Evaluate", "src/spl/spline.h:67-84 EvaluateDerivative", "src/baf/b_spline_basis_function.cc:33-43 EvaluateOnSupport and EvaluateDerivativeOnSupport", "src/spl/nurbs.h:135-221"]}
{"id": "C91", "title": "Reversing a direction does not change the geometry", "statement": "If one direction of a spline is described backwards (knots first+last-u, control points and weights in reverse order), Evaluate at first+last-a returns exactly what Evaluate returned at a, and EvaluateDerivative returns the former derivative with one change of sign for each order in this direction. This holds at both ends of the range and wherever the spline is continuous (the derivative, respectively): a is no knot, or its multiplicity plus the order is at most the degree. At a knot with multiplicity p+1 the two descriptions evaluate to different sides of the jump.", "quantifier": "all well-formed B-splines and NURBS of any dimension and degrees, all directions, all parameters that satisfy the continuity condition, all derivative orders and lists of coordinates", "why_tests_cant": "The half-open spans are treated differently at the right end of the range; that this asymmetry is invisible for all parameters, knots with multiplicities and orders is not a matter of samples.", "anchors": ["src/spl/spline.h:49-65 Evaluate", "src/spl/spline.h:67-84 EvaluateDerivative", "src/baf/knot_vector.cc:100-105 GetKnotSpan", "src/baf/b_spline_basis_function.cc:33-43 EvaluateOnSupport and EvaluateDerivativeOnSupport"]}
{"id": "C92", "title": "The order of the directions does not matter", "statement": "If the directions of a spline are put in another order (knots, degrees, and the indices of control points and weights), Evaluate with the parameters in the new order returns what it returned before, and EvaluateDerivative with the parameters and the orders in the new order returns the former derivatives. Every order of the directions is possible.", "quantifier": "all well-formed B-splines and NURBS of any dimension and degrees, all permutations of the directions, all parameters in the range, all derivative orders and lists of coordinates", "why_tests_cant": "Control points are stored in one vector with the first index running fastest; the tests evaluate few surfaces and compare no two orders of the directions.", "anchors": ["src/spl/spline.h:49-65 Evaluate", "src/spl/spline.h:67-84 EvaluateDerivative", "src/spl/parameter_space.h:120-128 GetBasisFunctionDerivatives", "src/spl/nurbs.h:156-185"]}
{"id": "C93", "title": "Bézier spans and exact circles", "statement": "In a span whose two knots are repeated p times in each direction, Evaluate returns the (rational) tensor product Bézier patch, in Bernstein form, of the control points that belong to the span; a curve without interior knots is the (rational) Bézier curve of its control points (and weights) on the whole range including both ends. A quadratic NURBS curve whose spans are arcs (outer control points on the circle, middle control point on the tangents there, matching weights) lies exactly on the circle: every point that Evaluate returns has distance r from the centre.", "quantifier": "all well-formed B-splines and NURBS of any dimension and degrees, all Bézier spans and parameters in them; all quadratic NURBS curves with arc data, any number of arcs, any centre, radius and dimension, all parameters in the range", "why_tests_cant": "Tests evaluate single points; that the whole curve lies on the circle is a statement about infinitely many parameters and all arc data.", "anchors": ["src/spl/spline.h:49-65 Evaluate", "src/spl/nurbs.h:135-146 GetEvaluatedControlPoint", "src/baf/b_spline_basis_function.cc:33-36 EvaluateOnSupport", "src/baf/knot_vector.cc:100-105 GetKnotSpan"]}
{"id": "C94", "title": "Tangents at the corners", "statement": "At each corner of the parameter range of a spline whose end knots have multiplicity p+1, the first derivative in each direction that EvaluateDerivative returns is the degree divided by the length of the outermost span, times the difference of the control points next to the corner in this direction (neighbour minus corner at the start, corner minus neighbour at the end); for NURBS additionally times the quotient of the weights of neighbour and corner.", "quantifier": "all well-formed B-splines and NURBS of any dimension and degrees, all corners, all directions, all lists of coordinates", "why_tests_cant": "The claim holds for all knots, degrees, weights and corners; tests compare a few derivatives with numbers.", "anchors": ["src/spl/spline.h:67-84 EvaluateDerivative", "src/baf/b_spline_basis_function.cc:38-43 EvaluateDerivativeOnSupport", "src/spl/nurbs.h:156-185 GetRationalBasisFunctionDerivative"]}
{"id": "C95", "title": "Derivatives do not depend on the distances between knots", "statement": "For every spline that the constructors accept and whose knots are sorted, EvaluateDerivative returns the mixed partial derivatives of the spline at every parameter in the range, also when different knots are closer than kEpsilon.", "quantifier": "all dimensions, degrees, control points and weights, all sorted clamped knot vectors without a lower bound on the distances of knots, all parameters, all orders of derivative", "why_tests_cant": "The unit tests use knots that are far apart; the failing parameters form intervals shorter than 2.3e-15, and the claim is about derivatives of all orders in all directions.", "anchors": ["src/baf/b_spline_basis_function.cc:38-43 EvaluateDerivativeOnSupport", "src/baf/b_spline_basis_function.cc:62-64 InverseWithPossiblyZeroDenominator", "src/spl/spline.h:67-84 EvaluateDerivative", "src/spl/nurbs.h:156-185"]}
{"id": "C96", "title": "The time steps of the Poisson problem tend to the steady state", "statement": "For all boundary values there is exactly one steady solution, and it is the only minimiser of the discrete energy among the fields with its boundary values. Every step of GetUnsteadyStateSolution brings the field nearer to the steady solution with the same boundary values, and the difference of the coefficients decreases geometrically: when the end time grows, the last solution that GetUnsteadyStateSolution returns tends to that steady solution. Without given boundary values this is the solution that GetSteadyStateSolution returns, also when both are called on the same problem, the unsteady one first.", "quantifier": "All well-formed NURBS geometries of any number of directions that are regular at the integration points, with as many coordinates as directions, with weights one and continuous functions (the single step: any weights); all rules with more points than the degrees and positive weights; all positive time steps, all end times, all boundary values, every linear solver that returns correct solutions.", "why_tests_cant": "One test compares the 200th step on one line with the steady solution to 0.0005; the limit over all end times, geometries and time steps is no finite check.", "anchors": ["example/iga/src/poisson_problem.h:39-63", "example/iga/src/bdf_handler.h:33-63", "example/iga/src/linear_equation_assembler.h:35-47"]}
{"id": "C97", "title": "Knot insertion does not depend on the distances between knots", "statement": "For every spline with sorted clamped knots, InsertKnot and RefineKnots of any parameters strictly inside the range add exactly these knots and leave the spline the same function, and RemoveKnot undoes an insertion exactly as long as the multiplicity of the knot is at most the degree, also when the new knots or the existing ones are closer than kEpsilon to each other or to the ends of the range.", "quantifier": "all dimensions, degrees, control points and positive weights, all sorted clamped knot vectors without a lower bound on the distances of knots, all parameters strictly inside the range, all multiplicities", "why_tests_cant": "The unit tests insert knots far from all others; the parameters at which the claim fails form an interval shorter than 2.3e-15 at the end of the range.", "anchors": ["src/spl/spline.h:163-181 InsertKnot", "src/spl/spline.h:183-187 RefineKnots", "src/spl/spline.h:189-208 RemoveKnot", "src/baf/knot_vector.cc:100-105 GetKnotSpan", "src/baf/knot_vector.cc:143-145 IsLastKnot"]}
{"id": "C98", "title": "Subdivision does not depend on the distances between knots", "statement": "For every spline with sorted clamped knots, SudivideSpline at any parameter strictly inside the range whose multiplicity is at most the degree succeeds: the original stays the same function, the two parts have the knots before and after the parameter (and degree + 1 copies of it), their domains are the two parts of the domain, and there they are the same function as the original; also when knots are closer than kEpsilon to each other or to the parameter.", "quantifier": "all dimensions, degrees, control points and positive weights, all sorted clamped knot vectors without a lower bound on the distances of knots, all directions and all parameters strictly inside the range", "why_tests_cant": "The unit tests subdivide at single parameters far from all other knots; the parameters at which the claim fails form an interval shorter than 2.3e-15 at the end of the range.", "anchors": ["src/spl/b_spline.h:93-111 SudivideSpline", "src/spl/nurbs.h:107-128 SudivideSpline", "src/spl/parameter_space.h:191-207 GetDividedKnotVectors", "src/baf/knot_vector.cc:143-145 IsLastKnot"]}
{"id": "C99", "title": "The derivative of a B-spline is a B-spline", "statement": "Take a B-spline whose degree p in a direction is at least 1, and the B-spline of degree p-1 in this direction over the same knots without the first and the last one, whose control points are p times the differences of neighbouring control points divided by the differences of the knots p apart. EvaluateDerivative of the first spline, of order one more in this direction, returns what EvaluateDerivative of the second one returns; the first derivative is what Evaluate of the second one returns. So first derivatives lie between the smallest and the largest scaled difference of neighbouring control points.", "quantifier": "All well-formed B-splines of all dimensions with any interior multiplicities, all directions of positive degree, all orders of differentiation in all directions, all parameters in the range.", "why_tests_cant": "The tests compare derivatives of single splines with numbers; no test relates the derivatives of one spline object to the points of another one.", "anchors": ["src/spl/spline.h:67-84 EvaluateDerivative", "src/spl/spline.h:49-65 Evaluate", "src/spl/b_spline.h:118-131 GetEvaluatedDerivativeControlPoint", "src/baf/b_spline_basis_function.cc:38-43 EvaluateDerivativeOnSupport"]}
{"id": "C100", "title": "Subdivision in floating point arithmetic gives parts that fit together exactly and differ from the original only by rounding errors", "statement": "With rounded arithmetic SudivideSpline at a parameter that occurs at most p times among the knots succeeds. The knots and the domains of both parts are those of exact arithmetic, and the control points and weights of the parts are copies of those of the refined spline, which is what InsertKnot with multiplicity p+1-m leaves behind. At the cut both parts have exactly the same points. On its domain each part of a B-spline differs from the original by at most ((1+3g)^(p+1-m) - 1) B, where B bounds the coordinates of the control points and g is the relative error of six operations; evaluated in rounded arithmetic, by this bound combined with the error of the evaluation. For NURBS the bound is 2 e W / (w - e W) B as for knot insertion. The parts are in general not exact: the constant curve 3 cut at 0.2 in double arithmetic gives parts that are not constant.", "quantifier": "All well-formed B-splines and NURBS of all dimensions, all directions, all admissible parameters inside of the range (knots or not) of multiplicity m at most p, all points of the domain, all rounding functions with a relative error below one (for NURBS also rnd 1 = 1). Sizes below 2^63; overflow and underflow of floating point numbers are excluded.", "why_tests_cant": "Tests compare the parts of a few splines with the original at some points with a tolerance; a gap of the size of a rounding error between the parts would go unnoticed, and no bound over the whole domain follows.", "anchors": ["src/spl/b_spline.h:93-111 SudivideSpline", "src/spl/nurbs.h:107-128 SudivideSpline", "src/spl/parameter_space.h:191-207 GetDividedKnotVectors", "src/spl/spline.h:163-187 InsertKnot"]}
{"id": "C101", "title": "Evaluation by knot insertion", "statement": "Where every parameter of a point occurs as often among the knots of its direction as the degree (or is an end of the range), Evaluate returns a control point; its index in each direction is one less than the number of knots below the parameter. Hence inserting the parameters of any point with InsertKnot up to this multiplicity, direction by direction, makes GetControlPoint of the new spline return what Evaluate returns for the original one. In rounded arithmetic the control point of a B-spline curve that results differs from the exact point of the original curve by at most ((1+3g)^(p-m) - 1) B as in C76.", "quantifier": "All well-formed B-splines and NURBS of all dimensions, all points with admissible parameters strictly inside of the range and multiplicity m at most the degree in each direction (ends of the range for the first statement as well), all coordinates. For the rounded statement: all B-spline curves and all rounding functions with a relative error below one.", "why_tests_cant": "Tests compare evaluated points of a refined spline with those of the original one; they do not relate Evaluate to the control points, and not at all parameters.", "anchors": ["src/spl/spline.h:163-181 InsertKnot", "src/spl/spline.h:49-65 Evaluate", "src/spl/spline.h:151-153 GetControlPoint", "src/baf/knot_vector.cc:107-109 GetMultiplicity"]}
{"id": "C102", "title": "NaN and infinite values in evaluation and comparison", "statement": "Evaluate and EvaluateDerivative throw range_error for parametric coordinates that are NaN or infinite, as for those outside of the knot vector. A coordinate of Evaluate depends only on the control points of the (p+1)^DIM window of the parameter: if that coordinate and the weights in the window are finite, the result is the same as without NaN and infinite values elsewhere. If one of them is not finite, the result is not finite; a NaN coordinate or a NaN or infinite weight gives NaN even where its basis function vanishes (so at a corner the corner control point is not returned), an infinite coordinate gives NaN where its basis function vanishes and otherwise its own value if all others are finite. The same holds for derivatives of B-splines. AreEqual is false whenever a coordinate or weight is not finite, also for a spline and itself. AreGeometricallyEqual, on the contrary, never reports a difference if one coordinate is NaN in all control points of the spline it is called on.", "quantifier": "All well-formed B-splines and NURBS of all dimensions whose control points and weights may be NaN or infinite (finite weights positive, knots finite), all parameters including NaN and infinities, all coordinates and orders of derivative, all tolerances.", "why_tests_cant": "No test evaluates or compares splines with NaN or infinite values on purpose; a test that compares with AreGeometricallyEqual passes when the result is NaN.", "anchors": ["src/baf/knot_vector.cc:139-141 IsInKnotVectorRange", "src/spl/parameter_space.h:138-147 ThrowIfParametricCoordinateOutsideKnotVectorRange", "src/spl/spline.h:49-84 Evaluate, EvaluateDerivative", "src/spl/spline.h:96-121 AreGeometricallyEqual", "src/spl/b_spline.h:118-130 GetEvaluatedControlPoint", "src/spl/nurbs.h:135-146 GetEvaluatedControlPoint", "src/util/numeric_settings.h:31-33 AreEqual", "src/spl/physical_space.h:56-67 AreEqual"]}
{"id": "C103", "title": "What acceptance by AreGeometricallyEqual guarantees", "statement": "AreGeometricallyEqual returns true exactly if at every sampling parameter both splines can be evaluated and their points are at most the tolerance apart; for curves the parameters are T/100*i, i = 0,...,100, where T is the length of the range. If two B-spline curves over the same range [0,T] are accepted and the slopes of a coordinate of their control polygons (relative to the averages of p consecutive knots) are at most L and L', this coordinate differs by at most the tolerance plus (L+L')T/200 at every parameter. If two B-spline curves have the same knots and degree, and for every basis function a sample can be chosen, increasing with the index, at which it does not vanish (for example Bezier curves of degree at most 100), then acceptance with tolerance zero means that they are equal. For every B-spline curve with more than 101 control points, on the contrary, there are a parameter and, for every number B, another curve with the same knots and degree that is accepted with tolerance zero although it differs by B at that parameter.", "quantifier": "All pairs of splines, the first one well-formed, of all dimensions and all tolerances (meaning); all well-formed B-spline curves of the stated kind, all parameters of the range, all tolerances and all numbers B (other parts). The square root is exact.", "why_tests_cant": "Tests use AreGeometricallyEqual as their judge; they cannot tell what it misses between the samples.", "anchors": ["src/spl/spline.h:96-121 AreGeometricallyEqual", "src/spl/spline.h:49-65 Evaluate"]}
{"id": "C104", "title": "Sampling in floating point arithmetic can leave the range", "statement": "In floating point arithmetic AreGeometricallyEqual and the VTK writer evaluate at computed parameters. Over ranges [0,T], comparing a spline with itself returns true if in every direction the computed last sample, fl(fl(T/n)*n), is at most T, and throws range_error otherwise; in the latter case the result is true for no other spline and no tolerance. The points of a VTK file can be written if in every direction fl(a+fl(fl(n*fl(b-a))/n)) is at most b (a, b the ends of the range, n the number of cells), and the writer throws range_error otherwise. In double precision this happens: for every curve over [0,7] the comparison with itself throws, every curve over [0.3,0.9] cannot be written with one cell, every curve over [0,0.1] not with three. It does not happen for VTK files of splines over ranges with integer ends, and not for comparisons if T and T/n are floating point numbers. The computed grid differs from the exact one by at most ((1/(1-u))^4-1)(|a|+i(b-a)/n).", "quantifier": "All B-splines and NURBS of all dimensions built with the rounded constructors on well-formed knots, all numbers of cells, all monotone rounding functions with relative error below one (the examples: binary rounding to nearest even with 53 bits), all tolerances, all splines to compare with.", "why_tests_cant": "Whether a sample exceeds the range depends on the last bits of the ends of the range; the tests compare splines over a few ranges only, such as [0,1] and [0,2], for which it does not.", "anchors": ["src/spl/spline.h:96-121 AreGeometricallyEqual", "src/io/vtk_writer_utils.h:28-65 GetEdgeKnots, WritePoints", "src/spl/parameter_space.h:138-147 ThrowIfParametricCoordinateOutsideKnotVectorRange", "src/util/vector_utils.h:28-44 ComputeTwoNorm, ComputeDistance"]}
{"id": "C105", "title": "Projection and the output of solutions in floating point arithmetic", "statement": "In floating point arithmetic ProjectionOnCurve over a range that starts at 0 never throws and never accesses memory out of bounds: it returns a parameter inside the range after at most 1001 iterations, unless it divides by zero. ProjectionOnSurface over ranges [0,A]x[0,B] with n and m points finds its starting point if fl(fl(n*A)/n) is at most A and fl(fl(m*B)/m) is at most B; otherwise it throws range_error for every point and every tolerance. WriteSolutionToVTK computes the values of the solution if in every direction fl(a+fl(n*fl(fl(b-a)/n))) is at most b, and throws range_error otherwise. In double precision this happens: no point can be projected onto a surface over [0,0.11] in one direction with the default numbers of points, and a solution over [0,29] cannot be written with seven cells. It does not happen on surfaces over ranges with integer ends. Without rounding the three functions are the exact ones.", "quantifier": "All B-splines and NURBS built with the rounded constructors on well-formed knots (curves: knots that are floating point numbers), all points with at most as many coordinates as the spline, all tolerances, all positive numbers of points or cells, all solutions, all monotone rounding functions with relative error below one (curves: at most 1/4).", "why_tests_cant": "Whether a parameter exceeds the range depends on the last bits of the ends of the range; the tests project onto a few splines over ranges for which it does not, and the iteration of the projection takes arbitrary values.", "anchors": ["src/spl/projection.h:28-131 ProjectionOnSurface, ProjectionOnCurve, FindInitialValue1D, FindInitialValue2D", "src/util/vector_utils.h:28-67", "example/iga/src/solution_vtk_writer.h:34-56 WriteSolutionToVTK", "example/iga/src/solution_spline.h:27-40", "src/spl/parameter_space.h:138-147 ThrowIfParametricCoordinateOutsideKnotVectorRange"]}
{"id": "C106", "title": "Small changes of the data change a spline little; accuracy of splines in files", "statement": "If two splines have the same knots and degrees, their control points differ by at most d and their weights by at most a fraction e < 1, then Evaluate returns values that differ by at most d + e/(1-e)*D at every parameter, where D is the largest difference between control points; for B-splines the difference is at most d. Hence splines whose knots have at most six decimals are written to XML and IRIT files and read back with the same parameter range, and Evaluate is off by at most h = 5e-7 for B-splines in XML files, h + 2hB/(m-h) for all splines in XML files and h(1+3B)/(m-h) for all splines in IRIT files, where B bounds the coordinates and m >= 1e-6 the weights (m <= 1 for IRIT). If a knot has more decimals the range may shrink: a line over [0,1/3] read back from an IRIT file cannot be evaluated at 1/3 (Evaluate throws range_error).", "quantifier": "All pairs of well-formed splines of any dimension with the same knots and degrees, all parameters in the range and all coordinates; all lists of well-formed splines with 1 to 4 (XML) or 1 to 3 (IRIT) directions whose numbers are in the range of double and whose sizes fit into int (XML) or size_t (IRIT, file shorter than 2^31 characters).", "why_tests_cant": "The tests compare the stored numbers of a few splines before and after writing; they do not evaluate what is read, and the bound has to hold at every parameter.", "anchors": ["src/spl/spline.h:Evaluate", "src/spl/nurbs.h:GetEvaluatedControlPoint", "src/io/xml_writer.cc:24-120", "src/io/xml_reader.cc:22-126", "src/io/irit_writer.cc", "src/io/irit_reader.cc", "src/spl/parameter_space.h:138-147 ThrowIfParametricCoordinateOutsideKnotVectorRange"]}
{"id": "C107", "title": "The example programs", "statement": "TestcaseOptimizer never writes a file: called with exactly two coordinates it calls WriteFile through a null pointer (undefined behaviour), called with any other number of arguments it ends with runtime_error. If the pointer referred to a VTKWriter, the file would hold the 101 points of the parabola with the control points (-1,0), (x,y), (1,0) at equidistant parameters, as six-digit numbers, connected by 100 line segments. The program ex1 evaluates its curve without an error; the value is 9.", "quantifier": "All arguments of TestcaseOptimizer and all results of atof; ex1 has no input.", "why_tests_cant": "The examples are not tested. Calling a function without data members through a null pointer usually works, so a test would not notice.", "anchors": ["example/testcase_optimizer.cc:26-58", "example/ex1.cc:23-44", "src/io/vtk_writer.cc:20-46"]}
{"id": "C108", "title": "VTK files and the range of int", "statement": "With 32 bit integers, the VTK writer writes exactly the file that it would write with unbounded integers if the number of grid points and the number of entries of the section CELLS (cells times corners plus one), summed over all splines, are both less than 2^31. In all other cases a signed integer overflows, which is undefined behaviour. The second condition is needed: 21000 times 21000 cells on a surface have few enough points, but too many entries.", "quantifier": "All lists of well-formed B-splines and NURBS of dimensions 1 to 3 and all positive scatterings of matching sizes.", "why_tests_cant": "The tests use small scatterings; a file at the limit has gigabytes, and the overflow depends on the number of cells in all directions and over all splines.", "anchors": ["src/io/vtk_writer.cc:20-169", "src/io/vtk_writer_utils.h:37-71", "src/util/multi_index_handler.h:40-136"]}
{"id": "C109", "title": "The integral of a B-spline", "statement": "Over the real numbers, the integral of a coordinate of Evaluate of a B-spline over the whole parameter range is the sum of the control points, each weighted with the product over the directions of (width of the support of its basis function) / (degree + 1). For a curve, the integral from the first knot to a parameter is the value of Evaluate of another B-spline at this parameter: the one of degree one more over the knots with the first and the last knot repeated once more, whose control points are the partial sums of the weighted control points.", "quantifier": "All well-formed B-splines of any dimension (curves for the second part) in which no knot occurs more than degree + 1 times, all coordinates, all parameters of the range.", "why_tests_cant": "No test integrates a spline; an integral depends on the values at all parameters and not on finitely many of them.", "anchors": ["src/spl/spline.h:49-65", "src/spl/b_spline.h:118-122", "src/baf/b_spline_basis_function.cc:33-36"]}
{"id": "C110", "title": "Derivatives depend only on the geometry", "statement": "If Evaluate of two splines (B-splines or NURBS, with any degrees, knots and control points) returns the same values on the parameter range of the second, which is a part of the range of the first, then EvaluateDerivative returns the same values for all orders, except at the last parameter of the second in a direction in which the first one continues (there one derivative is from the left and the other from the right). Hence inserting knots changes no derivative of any order, and the parts of a subdivided spline have the derivatives of the spline, the first part before the parameter of the subdivision, the second part everywhere.", "quantifier": "All pairs of well-formed splines over the real numbers, all coordinates, orders and parameters; all admissible insertions, refinements and subdivisions.", "why_tests_cant": "The tests compare values on grids; whether derivatives of all orders agree at all parameters, also at the knots, cannot be seen from values at finitely many parameters.", "anchors": ["src/spl/spline.h:49-84", "src/spl/spline.h:163-187", "src/spl/b_spline.h:93-111", "src/spl/nurbs.h:107-128"]}
{"id": "C111", "title": "Polylines in VTK files are close to the curves", "statement": "If EvaluateDerivative of order 2 of a curve is at most M in absolute value and every interior knot has a multiplicity less than the degree, then the straight lines between consecutive points of the VTK file with n cells differ from the curve by at most M((last - first)/n)^2/8 in every coordinate, at corresponding parameters; more generally every chord over [a,b] differs by at most M(b-a)^2/8. If only the first derivative is bounded, by L, and multiplicities are at most the degree, chords differ by at most L(b-a)/2.", "quantifier": "All well-formed B-spline and NURBS curves over the real numbers with such multiplicities, all bounds M and L, all numbers of cells, all points on all lines.", "why_tests_cant": "The tests compare files with reference files; the distance between a curve and its polyline is a statement about all parameters, and the rate about all numbers of cells.", "anchors": ["src/io/vtk_writer.cc:20-46", "src/io/vtk_writer_utils.h:28-65", "src/spl/spline.h:49-84"]}
{"id": "C112", "title": "Higher derivatives of B-splines are B-splines of repeated differences", "statement": "For a B-spline of any dimension and any orders k up to the degrees there is a B-spline of degrees p - k, obtained by repeated scaled differences of the control points over the inner knots, whose Evaluate gives EvaluateDerivative of orders k and whose EvaluateDerivative of orders j gives EvaluateDerivative of orders k + j. Hence bounds for the repeated differences of the control points bound the derivatives; for curves the differences are given by an explicit recursion. For a B-spline curve of degree 2 or more with interior multiplicities less than the degree, the lines in the VTK file with n cells differ from the curve by at most max |second difference| ((last - first)/n)^2/8.", "quantifier": "All well-formed B-splines of any dimension, all orders up to the degrees, all parameters in the range, all requested dimensions; VTK files: all such curves over the real numbers and all numbers of cells.", "why_tests_cant": "The tests compare single derivatives with literals; the claim relates EvaluateDerivative of one object with Evaluate of another one for all orders, and bounds the derivatives at all parameters by finitely many numbers.", "anchors": ["src/spl/spline.h:67-84 EvaluateDerivative", "src/spl/spline.h:49-65 Evaluate", "src/spl/b_spline.h:118-131 GetEvaluatedDerivativeControlPoint", "src/baf/b_spline_basis_function.cc:38-43 EvaluateDerivativeOnSupport", "src/io/vtk_writer.cc:20-46"]}
{"id": "C113", "title": "Curves are not longer than their control polygons", "statement": "For a B-spline or NURBS curve and increasing parameters, the polyline through the points that Evaluate returns is not longer than the polyline of the control points, for every norm; in particular for the Euclidean length and for the total variation of every coordinate. The lines in the VTK file of a curve satisfy this for every number of cells.", "quantifier": "All well-formed B-spline and NURBS curves of every degree and with every multiplicity of knots, all finite non-decreasing sequences of parameters in the range, all sublinear measures of vectors; Euclidean length and VTK files over the real numbers.", "why_tests_cant": "The statement is about all finite sequences of parameters; tests compare single points.", "anchors": ["src/spl/spline.h:49-65 Evaluate", "src/spl/nurbs.h:135-146 GetEvaluatedControlPoint", "src/spl/b_spline.h:118-122 GetEvaluatedControlPoint", "src/io/vtk_writer.cc:20-46"]}
{"id": "C114", "title": "Increasing and convex control polygons give increasing and convex splines", "statement": "If a coordinate of the control points of a curve does not decrease (or does not increase) from one control point to the next, then neither do the values that Evaluate returns for it, for B-splines and NURBS. If the slopes of the control polygon of a B-spline, with the differences of knots that are degree apart, do not decrease, the values are a convex function of the parameter. The points in the VTK file of a curve inherit both: they increase, and no point lies above the mean of its neighbours.", "quantifier": "All well-formed B-spline and NURBS curves (monotonicity) of every degree and with every multiplicity of knots; for convexity all B-spline curves of degree at least 1 whose interior knots occur at most degree times, over the real numbers; all parameters in the range; all numbers of VTK cells.", "why_tests_cant": "Monotonicity and convexity compare values at all pairs and triples of parameters.", "anchors": ["src/spl/spline.h:49-65 Evaluate", "src/spl/nurbs.h:135-146 GetEvaluatedControlPoint", "src/spl/b_spline.h:118-122 GetEvaluatedControlPoint", "src/io/vtk_writer.cc:20-46"]}
{"id": "C115", "title": "Isoparametric curves", "statement": "If all parameters of a spline but one are fixed, the points that Evaluate returns are the points of a curve of the same kind (B-spline or NURBS) with the knot vector and the degree of the remaining direction, whose control points and weights lie between the bounds of the control points and weights with the same index in that direction. The same holds for EvaluateDerivative of every order in this direction, and for B-splines also mixed with derivatives in the other directions. Hence a B-spline surface or volume increases, or is convex, along every line of a direction if its control points do in that direction; for NURBS surfaces this is not so.", "quantifier": "All well-formed B-splines and NURBS of every dimension, degree and multiplicity of knots, all directions, all values of the fixed parameters and all parameters in the range; all derivative orders (for NURBS over the real numbers); convexity over the real numbers for interior knots that occur at most degree times.", "why_tests_cant": "The statement compares infinitely many values of a surface with those of a curve, for every dimension and every choice of the fixed parameters.", "anchors": ["src/spl/spline.h:49-65 Evaluate", "src/spl/spline.h:67-84 EvaluateDerivative", "src/spl/nurbs.h:135-146 GetEvaluatedControlPoint", "src/spl/b_spline.h:118-131"]}
{"id": "C116", "title": "Cells in VTK files are close to the surfaces and volumes", "statement": "If no interior knot of a spline has a multiplicity of the degree or more, every chord over a part [a,b] of a line in any one direction differs from the spline by at most M(b-a)^2/8, where M bounds the second derivative in that direction that EvaluateDerivative returns. For surfaces with bounds Mu and Mv of the two pure second derivatives, the bilinear interpolation of the four corners of a rectangle of parameters with sides h and k differs by at most (Mu h^2 + Mv k^2)/8. For volumes the same holds for the trilinear interpolation of eight corners with the three pure second derivatives. The corners of every cell of the VTK file of a surface or volume satisfy this, with the sides equal to the lengths of the parameter ranges divided by the numbers of cells.", "quantifier": "All well-formed B-splines and NURBS over the real numbers with such multiplicities (chords in every dimension and direction, rectangles for surfaces, boxes for volumes), all bounds, all rectangles and boxes, all numbers of cells, all parameters in the cells.", "why_tests_cant": "The tests compare files with reference files; the distance between a surface or volume and its cells is a statement about all parameters, and the rate about all numbers of cells.", "anchors": ["src/io/vtk_writer.cc:20-46", "src/io/vtk_writer_utils.h:28-65", "src/spl/spline.h:49-65 Evaluate", "src/spl/spline.h:67-84 EvaluateDerivative"]}
