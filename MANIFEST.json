{"claims": [
 {"property": "C01", "status": "proved", "theorems": ["SplineLib.C01_evaluate_bspline"], "note": ""},
 {"property": "C02", "status": "proved", "theorems": ["SplineLib.C02_evaluateDerivative", "SplineLib.C02_evaluate"], "note": ""},
 {"property": "C03", "status": "proved", "theorems": ["SplineLib.C03_partition_of_unity"], "note": ""},
 {"property": "C04", "status": "proved", "theorems": ["SplineLib.C04_nonneg_support", "SplineLib.C04_locality", "SplineLib.C04_degree_zero_counterexample"], "note": "Locality of degree-0 functions needs a simple last knot; counterexample otherwise."},
 {"property": "C05", "status": "proved", "theorems": ["SplineLib.C05_convex_combination", "SplineLib.C05_between"], "note": ""},
 {"property": "C06", "status": "proved", "theorems": ["SplineLib.C06_corner", "SplineLib.C06_excess_multiplicity_counterexample"], "note": "For end knots of multiplicity exactly p+1; counterexample for higher multiplicity."},
 {"property": "C07", "status": "proved", "theorems": ["SplineLib.C07_affine"], "note": ""},
 {"property": "C08", "status": "proved", "theorems": ["SplineLib.C08_basis_derivative"], "note": "For degree 0 the basis function must have a non-empty support."},
 {"property": "C09", "status": "proved", "theorems": ["SplineLib.C09_bspline_derivative"], "note": ""},
 {"property": "C10", "status": "proved", "theorems": ["SplineLib.C10_nurbs_derivative"], "note": ""},
 {"property": "C11", "status": "proved", "theorems": ["SplineLib.C11_evaluate_nurbs", "SplineLib.C11_equal_weights"], "note": ""},
 {"property": "C12", "status": "proved", "theorems": ["SplineLib.C12_insertKnot_bspline"], "note": ""},
 {"property": "C13", "status": "proved", "theorems": ["SplineLib.C13_insertKnot_nurbs"], "note": ""},
 {"property": "C14", "status": "partial", "theorems": ["SplineLib.C14_last_knot_moves_end", "SplineLib.C14_last_knot_changes", "SplineLib.C14_first_knot_fails", "SplineLib.C14_last_knot_counterexample", "SplineLib.C14_last_knot_safe_partial"], "note": "False of the code: first-knot insertion always fails (proved for all splines); last-knot insertion succeeds but moves the end of every spline of degree at least one to its last but one control point (proved for all splines with end knots of multiplicity p+1). Only memory safety of a single last-knot insertion holds."},
 {"property": "C15", "status": "proved", "theorems": ["SplineLib.C15_multiple_insertion", "SplineLib.C15_refine_is_sequence", "SplineLib.C15_refine_preserves"], "note": ""},
 {"property": "C16", "status": "proved", "theorems": ["SplineLib.C16_remove_after_insert", "SplineLib.C16_remove_above_degree_fails"], "note": "For any multiplicity up to the degree (exact arithmetic); above the degree the removal always fails (proved)."},
 {"property": "C17", "status": "partial", "theorems": ["SplineLib.C17_removal_within_tolerance_bspline_partial", "SplineLib.C17_removal_within_tolerance_nurbs_partial", "SplineLib.C17_removal_unchecked", "SplineLib.C17_large_tolerance_counterexample", "SplineLib.C17_two_removals_counterexample", "SplineLib.C17_even_unbounded"], "note": "Proved for one removal when degree minus multiplicity is odd (B-splines; NURBS for tolerances small against the control net). False of the code otherwise: for an even difference it is false on every knot vector, with tolerance 0 and without any bound on the error (C17_even_unbounded); counterexamples for two removals at once and for NURBS with a large tolerance."},
 {"property": "C18", "status": "proved", "theorems": ["SplineLib.C18_removal_counts", "SplineLib.C18_over_request_removes_other_knot", "SplineLib.C18_absent_knot_removes_other_knot"], "note": "For requested multiplicity at most the knot's multiplicity (at most the degree); counterexamples for over-requests and absent knots. A NURBS computation may divide by zero."},
 {"property": "C19", "status": "proved", "theorems": ["SplineLib.C19_subdivision", "SplineLib.C19_subdivision_full_multiplicity"], "note": "For parameters of multiplicity at most p; at multiplicity p+1 the left part agrees strictly before the parameter (also proved)."},
 {"property": "C20", "status": "proved", "theorems": ["SplineLib.C20_subdivision_at_boundary", "SplineLib.C20_interior_multiplicity_needed"], "note": "Interior multiplicity p+1 just before the last knot is excluded; there the code returns two parts (proved)."},
 {"property": "C21", "status": "partial", "theorems": ["SplineLib.C21_elevation_never_succeeds", "SplineLib.C21_elevation_counterexample", "SplineLib.C21_elevated_values_partial"], "note": "False of the code: proved that ElevateDegreeForDimension never succeeds for any well-formed spline of degree >= 1 (missing loop iteration leaves a zero weight). The partial theorem shows the other elevated values are right."},
 {"property": "C22", "status": "partial", "theorems": ["SplineLib.C22_reduced_segment_within_tolerance_partial", "SplineLib.C22_elevated_segment_recovered", "SplineLib.C22_reduce_low_degree_fails", "SplineLib.C22_failure_changes_nothing", "SplineLib.C22_segments_are_restrictions", "SplineLib.C22_success_within_tolerance_partial", "SplineLib.C22_success_full_multiplicities_partial", "SplineLib.C22_elevated_spline_recovered", "SplineLib.C22_success_tolerance_violated", "SplineLib.C22_disappearing_knot_undefined"], "note": "Proved for the whole operation: a reported failure leaves the object exactly as it was; the Bezier segments are the restrictions of the spline to its knot spans; a spline that is the elevation of one of lower degree (no knot disappearing) is recovered exactly with success for every positive tolerance; the spline made of the reduced segments is within the tolerance at every parameter in homogeneous coordinates, and for full interior multiplicities this spline is the result. False in general because the inserted knots are removed again without a complete check (C22_success_tolerance_violated), and undefined behaviour when a knot disappears (C22_disappearing_knot_undefined)."},
 {"property": "C23", "status": "proved", "theorems": ["SplineLib.C23_histories", "SplineLib.C23_histories_without_removal", "SplineLib.C23_nurbs_removal_then_evaluation_fails"], "note": "A NURBS computation may divide by zero after a removal that made weights non-positive (witness proved); B-splines never fail."},
 {"property": "C24", "status": "proved", "theorems": ["SplineLib.C24_bspline_constructor", "SplineLib.C24_nurbs_constructor", "SplineLib.C24_constructed_wellformed", "SplineLib.C24_empty_points_undefined", "SplineLib.C24_unsorted_accepted"], "note": "Also proved: no control points is undefined behaviour; unsorted knots are accepted."},
 {"property": "C25", "status": "proved", "theorems": ["SplineLib.C25_copy_independent", "SplineLib.C25_construct_independent", "SplineLib.C25_subdivide_independent", "SplineLib.C25_copy_evaluates_the_same", "SplineLib.C25_calls_on_copy_change_nothing_else", "SplineLib.C25_generator_splines_share", "SplineLib.C25_nurbs_generator_keeps_callers_knots"], "note": "Proved for the copy constructors, for construction from knot vectors and control points, and for SudivideSpline, over all programs of a caller (memory model). For splines made by generators the statement is false: C25_generator_splines_share and C25_nurbs_generator_keeps_callers_knots are counterexamples."},
 {"property": "C26", "status": "proved", "theorems": ["SplineLib.C26_get1D_eq_position", "SplineLib.C26_length1D_eq_prod", "SplineLib.C26_increments_enumerate", "SplineLib.C26_every_index_visited_once", "SplineLib.C26_get1D_bijection", "SplineLib.C26_incr_decr", "SplineLib.C26_plus_get1D", "SplineLib.C26_differenceIndices", "SplineLib.C26_extractDimension"], "note": ""},
 {"property": "C27", "status": "proved", "theorems": ["SplineLib.C27_set1DIndex_reaches", "SplineLib.C27_set1DIndex_diverges"], "note": "Holds for the positions the handler has; the loop does not terminate otherwise (proved)."},
 {"property": "C28", "status": "proved", "theorems": ["SplineLib.C28_knotSpan", "SplineLib.C28_needs_separation"], "note": ""},
 {"property": "C29", "status": "partial", "theorems": ["SplineLib.C29_insert", "SplineLib.C29_remove_present", "SplineLib.C29_remove_absent_counterexample"], "note": "Inserting and removing present knots proved; removing an absent knot removes a different knot (counterexample proved)."},
 {"property": "C30", "status": "partial", "theorems": ["SplineLib.C30_spline_areEqual_iff", "SplineLib.C30_spline_refl_symm", "SplineLib.C30_spline_dim", "SplineLib.C30_knotVector_areEqual_iff", "SplineLib.C30_knotVector_areEqual_refl_symm", "SplineLib.C30_knotVector_eq_iff_refl_symm", "SplineLib.C30_knotVector_eq_not_transitive", "SplineLib.C30_knotVector_areEqual_trans_partial"], "note": "Reflexivity, symmetry and the exact meaning of AreEqual proved for knot vectors and splines. operator== on knot vectors is not transitive (proved), so that part of the claim is false."},
 {"property": "C31", "status": "partial", "theorems": ["SplineLib.C31_same_geometry_partial", "SplineLib.C31_self_partial", "SplineLib.C31_rejection_sound", "SplineLib.C31_other_ranges_throw"], "note": "Proved exactly when it holds: if all parameter ranges start at 0. For every other spline the comparison with itself throws (proved). A rejection is always justified (proved). Exact arithmetic; what rounding does to the samples is C104."},
 {"property": "C32", "status": "proved", "theorems": ["SplineLib.C32_translational_surface", "SplineLib.C32_smaller_section_counterexample"], "note": "First constructor of SurfaceGenerator. The space dimensions of the curves must agree (counterexample for a smaller section); the product of the numbers of points must fit into uint64_t."},
 {"property": "C33", "status": "partial", "theorems": ["SplineLib.C33_decimal_partial", "SplineLib.C33_integer_with_exponent", "SplineLib.C33_integer_with_exponent_wrong", "SplineLib.C33_terminates"], "note": "False of the code for literals with an exponent but no decimal point (read too large by a power of ten), proved as C33_integer_with_exponent; proved for all other decimal literals."},
 {"property": "C34", "status": "partial", "theorems": ["SplineLib.C34_endsWith_exact", "SplineLib.C34_endsWith_partial", "SplineLib.C34_endsWith_shorter", "SplineLib.C34_endsWith_twice", "SplineLib.C34_file_format_partial", "SplineLib.C34_unknown_rejected", "SplineLib.C34_short_names", "SplineLib.C34_file_format_counterexample"], "note": "EndsWith is characterised exactly; the claimed equivalence fails when the suffix occurs twice or is one character longer than the string, with proved witnesses. The file format is right for names with one '.' and a non-empty base."},
 {"property": "C35", "status": "proved", "theorems": ["SplineLib.C35_delimited_fields", "SplineLib.C35_every_text_has_fields", "SplineLib.C35_delimited_terminates", "SplineLib.C35_delimited_numbers", "SplineLib.C35_split", "SplineLib.C35_trim"], "note": ""},
 {"property": "C36", "status": "partial", "theorems": ["SplineLib.C36_nurbs_coordinates", "SplineLib.C36_exact", "SplineLib.C36_round_trip_partial", "SplineLib.C36_bspline_round_trip", "SplineLib.C36_other_dimensions_rejected", "SplineLib.C36_round_trip_wellformed", "SplineLib.C36_small_weight", "SplineLib.C36_nurbs_coordinates_counterexample"], "note": "Full round trip for lists of B-splines. For NURBS with weights of at least 10^-6 the knots, weights and homogeneous coordinates agree; the claim for the Cartesian coordinates is refuted (C36_nurbs_coordinates_counterexample), as is readability for smaller weights (C36_small_weight). The error of the Cartesian coordinates is bounded by eps(1+|x|)/(w-eps) (C36_nurbs_coordinates), and numbers with six decimals are read back exactly (C36_exact)."},
 {"property": "C37", "status": "proved", "theorems": ["SplineLib.C37_round_trip", "SplineLib.C37_exact", "SplineLib.C37_other_dimensions_rejected", "SplineLib.C37_document_plain", "SplineLib.C37_header", "SplineLib.C37_coordinates_selected", "SplineLib.C37_missing_values_undefined"], "note": ""},
 {"property": "C38", "status": "partial", "theorems": ["SplineLib.C38_layout", "SplineLib.C38_entities", "SplineLib.C38_other_dimensions_rejected", "SplineLib.C38_curve_round_trip_partial", "SplineLib.C38_curve_exact", "SplineLib.C38_surface_over_read", "SplineLib.C38_surface_with_ranges", "SplineLib.C38_number_read", "SplineLib.C38_ordinary_numbers"], "note": "Proved for all lists of curves and surfaces within the seven-digit line numbers: layout, pointers, contents of the parameter data; round trip for all lists of curves (exact for at most 18 significant digits). False in general: reading back any surface reads two numbers behind the end of the parameter data (C38_surface_over_read), numbers printed like 1e+20 are misread (C38_number_read), and coordinates after the third are not written."},
 {"property": "C39", "status": "proved", "theorems": ["SplineLib.Vtk.C39_cells_of_grid", "SplineLib.Vtk.C39_file", "SplineLib.Vtk.C39_wrong_sizes_refused"], "note": "About the numbers of the file; the characters are the subject of C73. Also proved: the point section holds the geometry at the grid points."},
 {"property": "C40", "status": "partial", "theorems": ["SplineLib.Conv.C40_first_call_partial", "SplineLib.Conv.C40_all_splines_any_history", "SplineLib.Conv.C40_after_any_history", "SplineLib.Conv.C40_repeated_call_counterexample", "SplineLib.Conv.C40_unknown_format_refused", "SplineLib.Conv.C40_vtk_first_call_partial", "SplineLib.Conv.C40_vtk_later_call_refused"], "note": "False of the code: positions requested by earlier calls are written again (counterexample). Proved: the exact result after any history, correctness of the first call and of every call without positions, and that later VTK calls with positions are refused."},
 {"property": "C41", "status": "partial", "theorems": ["SplineLib.C41_curve_result", "SplineLib.C41_curve_start", "SplineLib.C41_curve_outcome_partial", "SplineLib.C41_curve_late_range_throws", "SplineLib.C41_line_exact", "SplineLib.C41_segment_exact", "SplineLib.C41_surface_result", "SplineLib.C41_surface_in_range_partial", "SplineLib.C41_surface_second_direction_cut", "SplineLib.C41_tangent_foot", "SplineLib.C41_surface_start", "SplineLib.C41_surface_outcome_partial", "SplineLib.C41_planar_surface_undefined", "SplineLib.C41_plane_exact", "SplineLib.C41_surface_outside_range", "SplineLib.C41_surface_throws"], "note": "False in general, with witnesses: the start value ignores the first knot, so curves whose range does not contain half of the first element length make the projection throw (C41_curve_late_range_throws); on surfaces both coordinates are limited by the first knot vector only, so a result can lie outside of the range (C41_surface_outside_range), the call can throw (C41_surface_throws) or never reach part of the surface (C41_surface_second_direction_cut); planar surfaces are undefined behaviour. Proved for all inputs: at most 1001 iterations, in-range results for curves and for surfaces with equal ranges, the step is the Gauss-Newton step, convergence below the tolerance before iteration 1001, exact nearest point on straight lines and planes, and the only failure on ranges starting at 0 is a vanishing derivative / parallel tangents."},
 {"property": "C42", "status": "proved", "theorems": ["SplineLib.C42_random_bspline", "SplineLib.C42_random_nurbs", "SplineLib.C42_max_degree_zero_counterexample", "SplineLib.C42_square", "SplineLib.C42_square_geometry", "SplineLib.C42_square_too_few_knots_counterexample", "SplineLib.C42_square_degree_zero_counterexample"], "note": "For every outcome of the random engines, maximal degree at least 1 and any dimension; counterexamples for maximal degree 0 and for the square generator with too few knots or degree 0 are theorems. Well-formedness additionally needs a parameter range that keeps the knots kEpsilon apart."},
 {"property": "C43", "status": "proved", "theorems": ["SplineLib.C43_elements_tile", "SplineLib.C43_elements_consecutive", "SplineLib.C43_all_directions"], "note": ""},
 {"property": "C44", "status": "proved", "theorems": ["SplineLib.C44_gauss_exact", "SplineLib.C44_gauss_exact_on_element"], "note": ""},
 {"property": "C45", "status": "proved", "theorems": ["SplineLib.C45_averaged"], "note": ""},
 {"property": "C46", "status": "proved", "theorems": ["SplineLib.C46_number_of_different_knots"], "note": ""},
 {"property": "C47", "status": "proved", "theorems": ["SplineLib.C47_global_index", "SplineLib.C47_global_index_closed"], "note": ""},
 {"property": "C48", "status": "proved", "theorems": ["SplineLib.C48_element_number_at", "SplineLib.C48_element_numbering", "SplineLib.C48_reference_in_element", "SplineLib.C48_every_coordinate"], "note": ""},
 {"property": "C49", "status": "proved", "theorems": ["SplineLib.C49_sections", "SplineLib.C49_congruent_sections", "SplineLib.C49_refused_frame", "SplineLib.C49_straight_partial", "SplineLib.C49_straight_counterexample", "SplineLib.C49_horizontal_line_counterexample"], "note": "Frames are orthonormal where the first two derivatives are linearly independent. For linearly dependent derivatives the statement is false (C49_straight_counterexample: the code orthogonalises against the position instead of the tangent; C49_horizontal_line_counterexample: division by zero); C49_straight_partial gives a sufficient condition."},
 {"property": "C50", "status": "proved", "theorems": ["SplineLib.C50_swept_surface", "SplineLib.C50_trajectory_starts_at_zero", "SplineLib.C50_too_few_sections_counterexample"], "note": "C50_trajectory_starts_at_zero shows that the trajectory must start at parameter 0; C50_too_few_sections_counterexample shows that the lower bound on the number of sections is needed."},
 {"property": "C51", "status": "proved", "theorems": ["SplineLib.C51_geometry_determines_control_net", "SplineLib.C51_refinement_order", "SplineLib.C51_directions_commute"], "note": ""},
 {"property": "C52", "status": "proved", "theorems": ["SplineLib.Iga.C52_element_values", "SplineLib.Iga.C52_element_complete"], "note": ""},
 {"property": "C53", "status": "partial", "theorems": ["SplineLib.Iga.C53_spec_derivative", "SplineLib.Iga.C53_derivatives_partial", "SplineLib.Iga.C53_weights_counterexample", "SplineLib.Iga.C53_error", "SplineLib.Iga.C53_equal_weights", "SplineLib.Iga.C53_few_functions_undefined"], "note": "Proved for unit weights. For other weights the code is wrong: C53_error gives the exact error of every entry for every NURBS, C53_equal_weights the factor for equal weights. The condition on the number of functions is necessary (C53_few_functions_undefined)."},
 {"property": "C54", "status": "partial", "theorems": ["SplineLib.Iga.C54_geometry_derivatives", "SplineLib.Iga.C54_jacobian", "SplineLib.Iga.C54_inverse", "SplineLib.Iga.C54_physical_derivatives_partial"], "note": "Jacobian and inverse proved for all NURBS; the physical derivatives for unit weights only (C53)."},
 {"property": "C55", "status": "partial", "theorems": ["SplineLib.Iga.C55_quadSum", "SplineLib.Iga.C55_mass_matrix", "SplineLib.Iga.C55_right_side", "SplineLib.Iga.C55_left_side_partial", "SplineLib.Iga.C55_bdf1"], "note": "Mass matrix, right side and BDF1 proved for all NURBS; the Laplace matrix for unit weights only (C53)."},
 {"property": "C56", "status": "proved", "theorems": ["SplineLib.Iga.C56_zero_bc", "SplineLib.Iga.C56_dirichlet_bc", "SplineLib.Iga.C56_field_on_boundary"], "note": ""},
 {"property": "C57", "status": "partial", "theorems": ["SplineLib.Iga.C57_connectivity", "SplineLib.Iga.C57_boundary_counterexample", "SplineLib.Iga.C57_boundary_partial", "SplineLib.Iga.C57_neumann_side", "SplineLib.Iga.C57_neumann_partial", "SplineLib.Iga.C57_neumann_curve"], "note": "Proved where the first DIM-1 knot vectors are those of the side; false otherwise (throws for all surfaces with different numbers of control points, proved)."},
 {"property": "C58", "status": "proved", "theorems": ["SplineLib.Iga.C58_solution_spline", "SplineLib.Iga.C58_vtk_data"], "note": ""},
 {"property": "C59", "status": "partial", "theorems": ["SplineLib.Iga.C59_matrix_partial", "SplineLib.Iga.C59_steady_partial", "SplineLib.Iga.C59_steady_total"], "note": "Proved with the matrix the code assembles, which is the Laplace matrix for unit weights. arma::solve is a parameter assumed to return a solution."},
 {"property": "C60", "status": "partial", "theorems": ["SplineLib.Iga.C60_steady_repeatable", "SplineLib.Iga.C60_unsteady_partial", "SplineLib.Iga.C60_steady_after_unsteady", "SplineLib.Iga.C60_unsteady_after_steady"], "note": "As C59. Unsteady after steady doubles conductivity and source (proved)."},
 {"property": "C61", "status": "proved", "theorems": ["SplineLib.Log.C61_read_log", "SplineLib.Log.C61_any_order", "SplineLib.Log.C61_unreadable", "SplineLib.Log.C61_adjacent_counterexample", "SplineLib.Log.C61_reread", "SplineLib.Log.C61_reread_counterexample"], "note": "Reading a log file: sections in any order, separated by empty lines; the separation is needed (counterexample). Times of asctime enter only as a parameter."},
 {"property": "C62", "status": "proved", "theorems": ["SplineLib.Log.C62_positions", "SplineLib.Log.C62_scattering", "SplineLib.Log.C62_scattering_all", "SplineLib.Log.C62_scattering_missing", "SplineLib.Log.C62_no_options_undefined", "SplineLib.Log.C62_second_call"], "note": "A missing or empty options section is undefined behaviour (proved); a second call repeats the positions (proved)."},
 {"property": "C63", "status": "proved", "theorems": ["SplineLib.Log.C63_dimensions", "SplineLib.Log.C63_converts", "SplineLib.Log.C63_converts_vtk", "SplineLib.Log.C63_converts_vtk_all", "SplineLib.Log.C63_same_as_converter", "SplineLib.Log.C63_run_again", "SplineLib.Log.C63_help", "SplineLib.Log.C63_arguments", "SplineLib.Log.C63_failures", "SplineLib.Log.C63_log_after_output"], "note": "The reader and the writer of a format enter as parameters; they are the subject of C36-C39 and C71-C74."},
 {"property": "C64", "status": "proved", "theorems": ["SplineLib.Conv.C64_conversion", "SplineLib.Conv.C64_conversion_vtk", "SplineLib.Conv.C64_unreadable", "SplineLib.Conv.C64_missing_input", "SplineLib.Conv.C64_failed_writer", "SplineLib.Conv.C64_xml_complete_or_unchanged", "SplineLib.Conv.C64_other_files", "SplineLib.Conv.C64_chain_exact", "SplineLib.Conv.C64_no_drift", "SplineLib.Conv.C64_vtk_grid"], "note": "Every file can be opened for writing; what a reader does with a VTK file, or with a file after undefined behaviour of a writer, is a parameter."},
 {"property": "C65", "status": "proved", "theorems": ["SplineLib.C65_difference", "SplineLib.C65_scalar_product", "SplineLib.C65_scalar_product_lengths", "SplineLib.C65_scale", "SplineLib.C65_cross_product", "SplineLib.C65_cross_product_short", "SplineLib.C65_filter", "SplineLib.C65_two_norm", "SplineLib.C65_distance", "SplineLib.C65_metric"], "note": "Exact arithmetic; the norm assumes that sqrt is the exact square root."},
 {"property": "C66", "status": "proved", "theorems": ["SplineLib.C66_maximum_distance", "SplineLib.C66_bounding_ball", "SplineLib.C66_minimum_weight", "SplineLib.C66_expansion", "SplineLib.C66_expansion_bounds", "SplineLib.C66_expansion_counterexample"], "note": "Exact arithmetic; that the expansion does not bound negative coordinates is proved by a counterexample."},
 {"property": "C67", "status": "proved", "theorems": ["SplineLib.Iga.C67_rules", "SplineLib.Iga.C67_quadrature", "SplineLib.Iga.C67_mass_matrix", "SplineLib.Iga.C67_right_side", "SplineLib.Iga.C67_volume", "SplineLib.Iga.C67_laplace"], "note": "Real arithmetic. Weights one; the degree bounds are those of the exactness of the rules; the stiffness matrix is treated for affine geometries because the integrand is a rational function otherwise."},
 {"property": "C68", "status": "proved", "theorems": ["SplineLib.Iga.C68_mass_definite", "SplineLib.Iga.C68_stiffness_definite", "SplineLib.Iga.C68_steady_unique", "SplineLib.Iga.C68_steady_returns", "SplineLib.Iga.C68_euler_unique", "SplineLib.Iga.C68_unsteady_returns", "SplineLib.Iga.C68_gauss"], "note": "Exact arithmetic; the linear solver is a parameter assumed to return correct solutions (LawfulSolve) and to return for every regular matrix (CompleteSolve)."},
 {"property": "C69", "status": "partial", "theorems": ["SplineLib.C69_bspline_partial", "SplineLib.C69_nurbs_partial", "SplineLib.C69_short_range_undefined", "SplineLib.C69_accepted_undefined"], "note": "False of the code for knot vectors whose range is shorter than kEpsilon (for example all knots equal): C69_short_range_undefined, C69_accepted_undefined. Proved for all other accepted data; for unsorted knots this relies on libstdc++'s bisection, because the standard leaves std::lower_bound undefined there."},
 {"property": "C70", "status": "proved", "theorems": ["SplineLib.C70_growth", "SplineLib.C70_basis", "SplineLib.C70_all_nonzero", "SplineLib.C70_bspline", "SplineLib.C70_nurbs", "SplineLib.C70_derivative", "SplineLib.C70_bspline_uniform", "SplineLib.C70_exact_arithmetic", "SplineLib.C70_constructors", "SplineLib.C70_end_point_not_exact"], "note": "Roundings are abstract; binary rounding to nearest even with t bits and unbounded exponents is constructed as an instance. With exact arithmetic the rounded model equals the exact one. End points are not interpolated exactly in double arithmetic (C70_end_point_not_exact)."},
 {"property": "C71", "status": "proved", "theorems": ["SplineLib.C71_reads_grammar", "SplineLib.C71_reads_grammar_bom", "SplineLib.C71_grammar_unique", "SplineLib.C71_outcome", "SplineLib.C71_needs_element", "SplineLib.C71_saves_grammar", "SplineLib.C71_saves_and_loads", "SplineLib.C71_carriage_return_lost", "SplineLib.C71_attribute_tab_lost", "SplineLib.C71_blank_text_lost", "SplineLib.C71_adjacent_texts_joined", "SplineLib.C71_name_with_blank_refused", "SplineLib.C71_written_text", "SplineLib.C71_layout_irrelevant", "SplineLib.C71_other_dimensions_rejected", "SplineLib.C71_round_trip", "SplineLib.C71_exact"], "note": "Characters are bytes of UTF-8; the other encodings that pugixml recognises are not modelled. The conditions on documents are needed (C71_carriage_return_lost, C71_attribute_tab_lost, C71_blank_text_lost, C71_adjacent_texts_joined, C71_name_with_blank_refused); the documents of splines satisfy them."},
 {"property": "C72", "status": "proved", "theorems": ["SplineLib.C72_prefix", "SplineLib.C72_one_element", "SplineLib.C72_truncated", "SplineLib.C72_one_element_refused", "SplineLib.C72_truncated_refused"], "note": "The general part (C72_prefix) holds for all texts."},
 {"property": "C73", "status": "proved", "theorems": ["SplineLib.C73_format_unique", "SplineLib.C73_data_unique", "SplineLib.Vtk.C73_file", "SplineLib.Vtk.C73_exact", "SplineLib.Vtk.C73_error", "SplineLib.Iga.C73_solution", "SplineLib.Vtk.C73_points_collapse_counterexample"], "note": "That six digits do not always tell points apart is C73_points_collapse_counterexample. The grid as numbers is C39. The printer is any function that returns a nearest number with six significant digits."},
 {"property": "C74", "status": "proved", "theorems": ["SplineLib.C74_irit_first_splines", "SplineLib.C74_irit_splines_lost", "SplineLib.C74_irit_undefined", "SplineLib.C74_iges_all_or_none", "SplineLib.C74_iges_splines_lost", "SplineLib.C74_iges_terminate_section", "SplineLib.C74_iges_undefined"], "note": "The statement is the weaker one that holds; that truncated files are refused is false of the code and the counterexamples are stated as theorems for all files (\u2026_splines_lost, \u2026_undefined)."},
 {"property": "C75", "status": "proved", "theorems": ["SplineLib.C75_literal", "SplineLib.C75_integer_literal", "SplineLib.C75_natural_number", "SplineLib.C75_iges_number", "SplineLib.C75_six_decimals", "SplineLib.C75_six_decimals_integer", "SplineLib.C75_iges_integer", "SplineLib.C75_exact_arithmetic", "SplineLib.C75_iges_number_double", "SplineLib.C75_three_quarters", "SplineLib.C75_drift", "SplineLib.C75_order_lost"], "note": "The error bound and the exactness for integers are proved for all literals; that reading is not exact is shown by witnesses (C75_three_quarters, C75_drift, C75_order_lost)."},
 {"property": "C76", "status": "proved", "theorems": ["SplineLib.C76_insert_bspline", "SplineLib.C76_refine_bspline", "SplineLib.C76_refine_evaluate", "SplineLib.C76_refine_nurbs", "SplineLib.C76_insert_nurbs", "SplineLib.C76_refine_nurbs_values", "SplineLib.C76_exact_arithmetic", "SplineLib.C76_not_exact"], "note": "That the curve is not preserved exactly is shown by a witness (C76_not_exact)."},
 {"property": "C77", "status": "proved", "theorems": ["SplineLib.C77_difference", "SplineLib.C77_shorter_is_undefined", "SplineLib.C77_difference_small_iff", "SplineLib.C77_lengths_matter"], "note": "The undefined behaviour for a shorter right operand is part of the statement."},
 {"property": "C78", "status": "proved", "theorems": ["SplineLib.C78_complete_files", "SplineLib.C78_irit", "SplineLib.C78_iges", "SplineLib.C78_vtk_no_grid", "SplineLib.C78_vtk_wrong_sizes", "SplineLib.C78_vtk_dimension", "SplineLib.C78_conversion"], "note": "Characters that were written before an exception reach the file (the stream is closed by its destructor). Files after undefined behaviour are left open. The part about the XML writer is C64_failed_writer and C64_xml_complete_or_unchanged."},
 {"property": "C79", "status": "proved", "theorems": ["SplineLib.C79_nurbs_derivative", "SplineLib.C79_exact_arithmetic", "SplineLib.C79_not_relative"], "note": "Same assumptions as C70. The conversion of binomial coefficients from int to double is taken as exact, overflow of int is not modelled. C79_not_relative is a witness that no bound relative to the derivative holds."},
 {"property": "C80", "status": "proved", "theorems": ["SplineLib.C80_evaluate", "SplineLib.C80_derivative", "SplineLib.C80_undefined_index", "SplineLib.C80_too_many_coordinates", "SplineLib.C80_large_order", "SplineLib.C80_order_34", "SplineLib.C80_order_33"], "note": "Only the index arithmetic of Evaluate and EvaluateDerivative is modelled with 32 bit integers (Model/IntRange.lean); conversions to int that do not fit count as undefined. C80_derivative and C80_large_order together give the exact condition for derivatives of NURBS."},
 {"property": "C81", "status": "proved", "theorems": ["SplineLib.Conv.C81_success", "SplineLib.Conv.C81_log_lost", "SplineLib.Conv.C81_failed_writer", "SplineLib.Conv.C81_other_files", "SplineLib.Conv.C81_unreadable", "SplineLib.Conv.C81_no_run", "SplineLib.Conv.C81_success_vtk", "SplineLib.Conv.C81_same_as_converter", "SplineLib.Conv.C81_run_again", "SplineLib.Conv.C81_round_trip"], "note": "Every file can be opened for writing; what is in a file after undefined behaviour of a writer is left open. For VTK the case of one row of scattering per requested position is stated."},
 {"property": "C82", "status": "proved", "theorems": ["SplineLib.C82_two_sided", "SplineLib.C82_continuous", "SplineLib.C82_evaluate_continuous", "SplineLib.C82_sharp"], "note": "Over the real numbers."},
 {"property": "C83", "status": "proved", "theorems": ["SplineLib.C83_polynomial", "SplineLib.C83_curve", "SplineLib.C83_linear_precision"], "note": "EqualWeights means that all weights equal one positive number; B-splines are included."},
 {"property": "C84", "status": "proved", "theorems": ["SplineLib.C84_curve", "SplineLib.C84_monotone", "SplineLib.C84_insertKnot"], "note": "Planes are given by a normal vector and an offset (planeSide)."},
 {"property": "C85", "status": "proved", "theorems": ["SplineLib.C85_lipschitz", "SplineLib.C85_convex"], "note": "For B-spline curves; the control points are located at the averages of p consecutive knots (greville)."},
 {"property": "C86", "status": "partial", "theorems": ["SplineLib.C86_global_partial", "SplineLib.C86_comma", "SplineLib.C86_date_form", "SplineLib.C86_date_injective", "SplineLib.C86_date_counterexample"], "note": "The code violates the full claim: the name of the file is written without length, so that a comma in it shifts all later parameters (C86_comma), the dates are turned into strings twice (C86_date_counterexample, at every moment), and hours before ten have no leading zero (C86_date_form). C86_global_partial gives all other parameters for file names without separators."},
 {"property": "C87", "status": "proved", "theorems": ["SplineLib.C87_unique_iff", "SplineLib.C87_averaged"], "note": "Theorem of Schoenberg and Whitney, both directions, for the model of Evaluate; averaged knot vectors satisfy its condition."},
 {"property": "C88", "status": "partial", "theorems": ["SplineLib.C88_bspline_partial", "SplineLib.C88_nurbs_partial", "SplineLib.C88_bspline_short_span", "SplineLib.C88_nurbs_short_span", "SplineLib.C88_counterexample", "SplineLib.C88_nurbs_counterexample", "SplineLib.C88_insert_counterexample"], "note": "The code violates the full claim: C88_counterexample is a constant curve with value 5 that evaluates to 0, C88_nurbs_counterexample the same with division by zero, C88_insert_counterexample reaches this state by InsertKnot. C88_bspline_partial and C88_nurbs_partial prove the claim for parameters in spans of length at least kEpsilon; C88_bspline_short_span and C88_nurbs_short_span describe what happens in shorter spans."},
 {"property": "C89", "status": "proved", "theorems": ["SplineLib.C89_slopes", "SplineLib.C89_bspline", "SplineLib.C89_nurbs"], "note": "C89_slopes: insertion keeps slope bounds and lower bounds of weights; C89_bspline and C89_nurbs: explicit distance to the spline."},
 {"property": "C90", "status": "proved", "theorems": ["SplineLib.C90_knots", "SplineLib.C90_weights"], "note": "C90_knots: shifted and scaled knots, values and derivatives; C90_weights: weights multiplied by a common factor."},
 {"property": "C91", "status": "proved", "theorems": ["SplineLib.C91_reversed", "SplineLib.C91_jump"], "note": "C91_reversed under the continuity condition of the statement; C91_jump shows that the condition is needed."},
 {"property": "C92", "status": "proved", "theorems": ["SplineLib.C92_swapped", "SplineLib.C92_reordered", "SplineLib.C92_exists"], "note": "C92_reordered for every permutation of the directions, values and derivatives; C92_exists: the reordered spline exists; C92_swapped for neighbouring directions."},
 {"property": "C93", "status": "proved", "theorems": ["SplineLib.C93_bspline", "SplineLib.C93_nurbs", "SplineLib.C93_bezier_curve", "SplineLib.C93_rational_bezier_curve", "SplineLib.C93_circle"], "note": "C93_bspline and C93_nurbs: B\u00e9zier spans in any dimension; C93_bezier_curve and C93_rational_bezier_curve: curves without interior knots; C93_circle: exact circles."},
 {"property": "C94", "status": "proved", "theorems": ["SplineLib.C94_bspline", "SplineLib.C94_nurbs"], "note": "C94_bspline and C94_nurbs: all corners and directions."},
 {"property": "C95", "status": "partial", "theorems": ["SplineLib.C95_bspline_formula_partial", "SplineLib.C95_nurbs_formula_partial", "SplineLib.C95_bspline_short_span", "SplineLib.C95_nurbs_short_span", "SplineLib.C95_bspline_partial", "SplineLib.C95_nurbs_partial", "SplineLib.C95_counterexample", "SplineLib.C95_nurbs_counterexample"], "note": "Proved at parameters whose knot spans are at least kEpsilon long, as a formula and in terms of real derivatives. In shorter spans the code returns zero (B-splines) or divides by zero (NURBS) for all orders; proved, with counterexamples."},
 {"property": "C96", "status": "proved", "theorems": ["SplineLib.Iga.C96_energy", "SplineLib.Iga.C96_minimiser", "SplineLib.Iga.C96_unique", "SplineLib.Iga.C96_step", "SplineLib.Iga.C96_limit", "SplineLib.Iga.C96_calls", "SplineLib.Iga.C96_calls_in_turn", "SplineLib.Iga.C96_call_with_values"], "note": "Energy and single step for any weights (with the derivatives the code computes); uniqueness of the minimiser and the limit for unit weights, where the matrix is the one of the Laplace operator (C59). C96_calls and C96_calls_in_turn compare the calls without boundary values, C96_call_with_values the call with given values and the unique steady solution (C96_unique)."},
 {"property": "C97", "status": "partial", "theorems": ["SplineLib.C97_insert_partial", "SplineLib.C97_refine_partial", "SplineLib.C97_remove_partial", "SplineLib.C97_evaluate_partial", "SplineLib.C97_near_end_fails"], "note": "The code violates the full claim: C97_near_end_fails proves that on every well-formed spline InsertKnot of a parameter inside the range, but less than kEpsilon from the last knot, divides by zero in every direction of positive degree. C97_insert_partial, C97_refine_partial and C97_remove_partial prove the claim for all parameters at least kEpsilon to the left of the last knot, with no condition on the distances to other knots; C97_evaluate_partial adds that Evaluate returns the same values at all parameters in spans of length at least kEpsilon (C88 describes the shorter ones)."},
 {"property": "C98", "status": "partial", "theorems": ["SplineLib.C98_subdivision_partial", "SplineLib.C98_evaluate_partial", "SplineLib.C98_near_end_fails"], "note": "The code violates the full claim: C98_near_end_fails proves that on every well-formed spline SudivideSpline at a parameter inside the range, but less than kEpsilon from the last knot, divides by zero in every direction of positive degree. C98_subdivision_partial proves the claim for all parameters at least kEpsilon to the left of the last knot, with no condition on the distances to other knots; C98_evaluate_partial adds that Evaluate of the parts returns the values of the original at all parameters in spans of length at least kEpsilon of both."},
 {"property": "C99", "status": "proved", "theorems": ["SplineLib.C99_derivative", "SplineLib.C99_first", "SplineLib.C99_exists", "SplineLib.C99_bounds"], "note": "C99_exists shows that the B-spline of the differences exists; control points that belong to an empty knot range (only for interior knots of multiplicity above the degree) are arbitrary."},
 {"property": "C100", "status": "proved", "theorems": ["SplineLib.C100_subdivision", "SplineLib.C100_parts_meet", "SplineLib.C100_bspline", "SplineLib.C100_nurbs", "SplineLib.C100_exact_arithmetic", "SplineLib.C100_not_exact"], "note": "C100_subdivision contains the exact statement about knots, domains and values; C100_parts_meet, C100_bspline and C100_nurbs draw the conclusions. C100_exact_arithmetic ties the rounded model to the exact one for all arguments."},
 {"property": "C101", "status": "proved", "theorems": ["SplineLib.C101_on_spline", "SplineLib.C101_evaluate_by_insertion", "SplineLib.C101_rounded"], "note": "raiseAll is a program of a user of the library, made of GetDegree, GetMultiplicity and InsertKnot; it is defined next to the theorem."},
 {"property": "C102", "status": "proved", "theorems": ["SplineLib.Sp.C102_parameters", "SplineLib.Sp.C102_finite", "SplineLib.Sp.C102_contamination", "SplineLib.Sp.C102_derivative", "SplineLib.Sp.C102_areEqual", "SplineLib.Sp.C102_geometrically_equal"], "note": "Doubles are numbers of an ordered field, two infinities and NaN, with the rules of IEEE 754 (Model/Special.lean); rounding, overflow and the sign of zero are not part of this model. Derivatives of NURBS are covered only for the rejected parameters."},
 {"property": "C103", "status": "proved", "theorems": ["SplineLib.C103_accepted_iff", "SplineLib.C103_between_samples", "SplineLib.C103_exact", "SplineLib.C103_bezier", "SplineLib.C103_blind"], "note": "C103_accepted_iff is the exact meaning; C103_between_samples, C103_exact and C103_bezier are guarantees, C103_blind shows for every curve with more than 101 control points that nothing of this kind holds without a bound on the slopes."},
 {"property": "C104", "status": "proved", "theorems": ["SplineLib.C104_comparison_never_true", "SplineLib.C104_comparison_self", "SplineLib.C104_vtk_points", "SplineLib.C104_exact_step", "SplineLib.C104_integer_range", "SplineLib.C104_grid_error", "SplineLib.C104_exact_arithmetic", "SplineLib.C104_seven", "SplineLib.C104_vtk_one_cell", "SplineLib.C104_vtk_three_cells", "SplineLib.C104_vtk_integer_ranges"], "note": "Same assumptions as C70; C104_exact_arithmetic ties the rounded model to the exact one. The counterexamples C104_seven, C104_vtk_one_cell and C104_vtk_three_cells hold for every curve over the stated range."},
 {"property": "C105", "status": "proved", "theorems": ["SplineLib.C105_curve", "SplineLib.C105_surface", "SplineLib.C105_solution", "SplineLib.C105_exact_arithmetic", "SplineLib.C105_integer_range", "SplineLib.C105_exact_step", "SplineLib.C105_surface_default", "SplineLib.C105_surface_integer", "SplineLib.C105_solution_seven"], "note": "The model computes the elements exactly; the difference of two floating point numbers is zero only if they are equal."},
 {"property": "C106", "status": "proved", "theorems": ["SplineLib.C106_stability", "SplineLib.C106_bspline", "SplineLib.C106_xml", "SplineLib.C106_xml_bspline", "SplineLib.C106_irit", "SplineLib.C106_range_changes"], "note": "Values computed exactly; for the rounding of the evaluation itself see C70."},
 {"property": "C107", "status": "proved", "theorems": ["SplineLib.Ex.C107_optimizer_undefined", "SplineLib.Ex.C107_optimizer_with_writer", "SplineLib.Ex.C107_ex1"], "note": "Converting the arguments (atof) is a parameter."},
 {"property": "C108", "status": "proved", "theorems": ["SplineLib.VtkInt.C108_file", "SplineLib.VtkInt.C108_entries_overflow"], "note": "Conditions and outcome are exact for splines of dimensions 1 to 3. The evaluation of the splines is the one with unbounded integers; for its indices see C80."},
 {"property": "C109", "status": "proved", "theorems": ["SplineLib.C109_integral", "SplineLib.C109_antiderivative"], "note": "Over the real numbers and without rounding. The iterated integral is Mathlib's; the hypothesis that no knot occurs more than degree + 1 times excludes basis functions that vanish everywhere."},
 {"property": "C110", "status": "proved", "theorems": ["SplineLib.C110_geometry", "SplineLib.C110_same_geometry", "SplineLib.C110_insertKnot", "SplineLib.C110_refineKnots", "SplineLib.C110_subdivide"], "note": "Over the real numbers and without rounding."},
 {"property": "C111", "status": "proved", "theorems": ["SplineLib.C111_chord", "SplineLib.C111_chord_first", "SplineLib.Vtk.C111_vtk"], "note": "Over the real numbers; the numbers of the file before they are printed (C73 adds the rounding to six digits, C104 the rounding of the sampling)."},
 {"property": "C112", "status": "proved", "theorems": ["SplineLib.C112_bounds", "SplineLib.C112_derivative", "SplineLib.C112_value", "SplineLib.C112_between", "SplineLib.C112_exists", "SplineLib.Vtk.C112_vtk"], "note": "Extends C99 to all orders. Differences that belong to an empty knot range are not needed for the bounds."},
 {"property": "C113", "status": "proved", "theorems": ["SplineLib.C113_length", "SplineLib.C113_variation", "SplineLib.C113_euclid", "SplineLib.Vtk.C113_vtk"], "note": "From the variation diminishing property (C84): the parts of the spline that belong to the control points from i on are increasing functions."},
 {"property": "C114", "status": "proved", "theorems": ["SplineLib.C114_increasing", "SplineLib.C114_decreasing", "SplineLib.C114_convex", "SplineLib.Vtk.C114_vtk"], "note": "Convexity follows from the derivative being a B-spline of the slopes (C99) and monotonicity; at knots that occur degree times right derivatives are used."},
 {"property": "C115", "status": "proved", "theorems": ["SplineLib.C115_derivative", "SplineLib.C115_curve", "SplineLib.C115_increasing", "SplineLib.C115_convex", "SplineLib.C115_nurbs_counterexample", "SplineLib.C115_line_derivative"], "note": "Monotonicity in one direction of a surface is stated for B-splines only; for NURBS a counterexample is proved. Derivatives in the direction of the line are stated for B-splines and NURBS, mixed ones for B-splines."},
 {"property": "C116", "status": "proved", "theorems": ["SplineLib.C116_chord", "SplineLib.C116_surface", "SplineLib.Vtk.C116_vtk", "SplineLib.C116_volume", "SplineLib.Vtk.C116_vtk_volume"], "note": "Mixed second derivatives are not needed. Multiplicities of interior knots must be less than the degree in all directions. In the VTK statements the corners are the points with the grid indices of the cell."}
]}
