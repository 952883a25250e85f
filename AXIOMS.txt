'SplineLib.C01_evaluate_bspline' depends on axioms: [propext, Classical.choice, Quot.sound]
'SplineLib.C02_evaluateDerivative' depends on axioms: [propext, Classical.choice, Quot.sound]
'SplineLib.C02_evaluate' depends on axioms: [propext, Classical.choice, Quot.sound]
'SplineLib.C03_partition_of_unity' depends on axioms: [propext, Classical.choice, Quot.sound]
'SplineLib.C04_nonneg_support' depends on axioms: [propext, Classical.choice, Quot.sound]
'SplineLib.C04_locality' depends on axioms: [propext, Classical.choice, Quot.sound]
'SplineLib.C04_degree_zero_counterexample' depends on axioms: [propext, Classical.choice, Quot.sound]
'SplineLib.C05_convex_combination' depends on axioms: [propext, Classical.choice, Quot.sound]
'SplineLib.C05_between' depends on axioms: [propext, Classical.choice, Quot.sound]
'SplineLib.C06_corner' depends on axioms: [propext, Classical.choice, Quot.sound]
'SplineLib.C06_excess_multiplicity_counterexample' depends on axioms: [propext, Classical.choice, Quot.sound]
'SplineLib.C07_affine' depends on axioms: [propext, Classical.choice, Quot.sound]
'SplineLib.C08_basis_derivative' depends on axioms: [propext, Classical.choice, Quot.sound]
'SplineLib.C09_bspline_derivative' depends on axioms: [propext, Classical.choice, Quot.sound]
'SplineLib.C10_nurbs_derivative' depends on axioms: [propext, Classical.choice, Quot.sound]
'SplineLib.C11_evaluate_nurbs' depends on axioms: [propext, Classical.choice, Quot.sound]
'SplineLib.C11_equal_weights' depends on axioms: [propext, Classical.choice, Quot.sound]
'SplineLib.C12_insertKnot_bspline' depends on axioms: [propext, Classical.choice, Quot.sound]
'SplineLib.C13_insertKnot_nurbs' depends on axioms: [propext, Classical.choice, Quot.sound]
'SplineLib.C14_last_knot_moves_end' depends on axioms: [propext, Classical.choice, Quot.sound]
'SplineLib.C14_last_knot_changes' depends on axioms: [propext, Classical.choice, Quot.sound]
'SplineLib.C14_first_knot_fails' depends on axioms: [propext, Classical.choice, Quot.sound]
'SplineLib.C14_last_knot_counterexample' depends on axioms: [propext, Classical.choice, Quot.sound]
'SplineLib.C14_last_knot_safe_partial' depends on axioms: [propext, Classical.choice, Quot.sound]
'SplineLib.C15_multiple_insertion' depends on axioms: [propext, Classical.choice, Quot.sound]
'SplineLib.C15_refine_is_sequence' depends on axioms: [propext, Quot.sound]
'SplineLib.C15_refine_preserves' depends on axioms: [propext, Classical.choice, Quot.sound]
'SplineLib.C16_remove_after_insert' depends on axioms: [propext, Classical.choice, Quot.sound]
'SplineLib.C16_remove_above_degree_fails' depends on axioms: [propext, Classical.choice, Quot.sound]
'SplineLib.C17_removal_within_tolerance_bspline_partial' depends on axioms: [propext, Classical.choice, Quot.sound]
'SplineLib.C17_removal_within_tolerance_nurbs_partial' depends on axioms: [propext, Classical.choice, Quot.sound]
'SplineLib.C17_removal_unchecked' depends on axioms: [propext, Classical.choice, Quot.sound]
'SplineLib.C17_large_tolerance_counterexample' depends on axioms: [propext, Classical.choice, Quot.sound]
'SplineLib.C17_two_removals_counterexample' depends on axioms: [propext, Classical.choice, Quot.sound]
'SplineLib.C17_even_unbounded' depends on axioms: [propext, Classical.choice, Quot.sound]
'SplineLib.C18_removal_counts' depends on axioms: [propext, Classical.choice, Quot.sound]
'SplineLib.C18_over_request_removes_other_knot' depends on axioms: [propext, Classical.choice, Quot.sound]
'SplineLib.C18_absent_knot_removes_other_knot' depends on axioms: [propext, Classical.choice, Quot.sound]
'SplineLib.C19_subdivision' depends on axioms: [propext, Classical.choice, Quot.sound]
'SplineLib.C19_subdivision_full_multiplicity' depends on axioms: [propext, Classical.choice, Quot.sound]
'SplineLib.C20_subdivision_at_boundary' depends on axioms: [propext, Classical.choice, Quot.sound]
'SplineLib.C20_interior_multiplicity_needed' depends on axioms: [propext, Classical.choice, Quot.sound]
'SplineLib.C21_elevation_never_succeeds' depends on axioms: [propext, Classical.choice, Quot.sound]
'SplineLib.C21_elevation_counterexample' depends on axioms: [propext, Classical.choice, Quot.sound]
'SplineLib.C21_elevated_values_partial' depends on axioms: [propext, Classical.choice, Quot.sound]
'SplineLib.C22_reduced_segment_within_tolerance_partial' depends on axioms: [propext, Classical.choice, Quot.sound]
'SplineLib.C22_elevated_segment_recovered' depends on axioms: [propext, Classical.choice, Quot.sound]
'SplineLib.C22_reduce_low_degree_fails' depends on axioms: [propext, Classical.choice, Quot.sound]
'SplineLib.C22_failure_changes_nothing' depends on axioms: [propext, Classical.choice, Quot.sound]
'SplineLib.C22_segments_are_restrictions' depends on axioms: [propext, Classical.choice, Quot.sound]
'SplineLib.C22_success_within_tolerance_partial' depends on axioms: [propext, Classical.choice, Quot.sound]
'SplineLib.C22_success_full_multiplicities_partial' depends on axioms: [propext, Classical.choice, Quot.sound]
'SplineLib.C22_elevated_spline_recovered' depends on axioms: [propext, Classical.choice, Quot.sound]
'SplineLib.C22_success_tolerance_violated' depends on axioms: [propext, Classical.choice, Quot.sound]
'SplineLib.C22_disappearing_knot_undefined' depends on axioms: [propext, Classical.choice, Quot.sound]
'SplineLib.C23_histories' depends on axioms: [propext, Classical.choice, Quot.sound]
'SplineLib.C23_histories_without_removal' depends on axioms: [propext, Classical.choice, Quot.sound]
'SplineLib.C23_nurbs_removal_then_evaluation_fails' depends on axioms: [propext, Classical.choice, Quot.sound]
'SplineLib.C24_bspline_constructor' depends on axioms: [propext, Classical.choice, Quot.sound]
'SplineLib.C24_nurbs_constructor' depends on axioms: [propext, Classical.choice, Quot.sound]
'SplineLib.C24_constructed_wellformed' depends on axioms: [propext, Quot.sound]
'SplineLib.C24_empty_points_undefined' depends on axioms: [propext, Quot.sound]
'SplineLib.C24_unsorted_accepted' depends on axioms: [propext, Classical.choice, Quot.sound]
'SplineLib.C25_copy_independent' depends on axioms: [propext, Classical.choice, Quot.sound]
'SplineLib.C25_construct_independent' depends on axioms: [propext, Classical.choice, Quot.sound]
'SplineLib.C25_subdivide_independent' depends on axioms: [propext, Classical.choice, Quot.sound]
'SplineLib.C25_copy_evaluates_the_same' depends on axioms: [propext, Classical.choice, Quot.sound]
'SplineLib.C25_calls_on_copy_change_nothing_else' depends on axioms: [propext, Classical.choice, Quot.sound]
'SplineLib.C25_generator_splines_share' depends on axioms: [propext, Classical.choice, Quot.sound]
'SplineLib.C25_nurbs_generator_keeps_callers_knots' depends on axioms: [propext, Classical.choice, Quot.sound]
'SplineLib.C26_get1D_eq_position' depends on axioms: [propext, Classical.choice, Quot.sound]
'SplineLib.C26_length1D_eq_prod' depends on axioms: [propext]
'SplineLib.C26_increments_enumerate' depends on axioms: [propext, Classical.choice, Quot.sound]
'SplineLib.C26_every_index_visited_once' depends on axioms: [propext, Classical.choice, Quot.sound]
'SplineLib.C26_get1D_bijection' depends on axioms: [propext, Classical.choice, Quot.sound]
'SplineLib.C26_incr_decr' depends on axioms: [propext, Classical.choice, Quot.sound]
'SplineLib.C26_plus_get1D' depends on axioms: [propext, Classical.choice, Quot.sound]
'SplineLib.C26_differenceIndices' depends on axioms: [propext, Classical.choice, Quot.sound]
'SplineLib.C26_extractDimension' depends on axioms: [propext, Classical.choice, Quot.sound]
'SplineLib.C27_set1DIndex_reaches' depends on axioms: [propext, Classical.choice, Quot.sound]
'SplineLib.C27_set1DIndex_diverges' depends on axioms: [propext, Classical.choice, Quot.sound]
'SplineLib.C28_knotSpan' depends on axioms: [propext, Classical.choice, Quot.sound]
'SplineLib.C28_needs_separation' depends on axioms: [propext, Classical.choice, Quot.sound]
'SplineLib.C29_insert' depends on axioms: [propext, Classical.choice, Quot.sound]
'SplineLib.C29_remove_present' depends on axioms: [propext, Classical.choice, Quot.sound]
'SplineLib.C29_remove_absent_counterexample' depends on axioms: [propext, Classical.choice, Quot.sound]
'SplineLib.C30_spline_areEqual_iff' depends on axioms: [propext, Classical.choice, Quot.sound]
'SplineLib.C30_spline_refl_symm' depends on axioms: [propext, Classical.choice, Quot.sound]
'SplineLib.C30_spline_dim' depends on axioms: [propext, Classical.choice, Quot.sound]
'SplineLib.C30_knotVector_areEqual_iff' depends on axioms: [propext, Classical.choice, Quot.sound]
'SplineLib.C30_knotVector_areEqual_refl_symm' depends on axioms: [propext, Classical.choice, Quot.sound]
'SplineLib.C30_knotVector_eq_iff_refl_symm' depends on axioms: [propext, Classical.choice, Quot.sound]
'SplineLib.C30_knotVector_eq_not_transitive' depends on axioms: [propext, Classical.choice, Quot.sound]
'SplineLib.C30_knotVector_areEqual_trans_partial' depends on axioms: [propext, Classical.choice, Quot.sound]
'SplineLib.C31_same_geometry_partial' depends on axioms: [propext, Classical.choice, Quot.sound]
'SplineLib.C31_self_partial' depends on axioms: [propext, Classical.choice, Quot.sound]
'SplineLib.C31_rejection_sound' depends on axioms: [propext, Quot.sound]
'SplineLib.C31_other_ranges_throw' depends on axioms: [propext, Classical.choice, Quot.sound]
'SplineLib.C32_translational_surface' depends on axioms: [propext, Classical.choice, Quot.sound]
'SplineLib.C32_smaller_section_counterexample' depends on axioms: [propext, Classical.choice, Quot.sound]
'SplineLib.C33_decimal_partial' depends on axioms: [propext, Classical.choice, Quot.sound]
'SplineLib.C33_integer_with_exponent' depends on axioms: [propext, Classical.choice, Quot.sound]
'SplineLib.C33_integer_with_exponent_wrong' depends on axioms: [propext, Classical.choice, Quot.sound]
'SplineLib.C33_terminates' depends on axioms: [propext, Classical.choice, Quot.sound]
'SplineLib.C34_endsWith_exact' depends on axioms: [propext, Classical.choice, Quot.sound]
'SplineLib.C34_endsWith_partial' depends on axioms: [propext, Classical.choice, Quot.sound]
'SplineLib.C34_endsWith_shorter' depends on axioms: [propext, Classical.choice, Quot.sound]
'SplineLib.C34_endsWith_twice' depends on axioms: [propext, Classical.choice, Quot.sound]
'SplineLib.C34_file_format_partial' depends on axioms: [propext, Classical.choice, Quot.sound]
'SplineLib.C34_unknown_rejected' depends on axioms: [propext, Classical.choice, Quot.sound]
'SplineLib.C34_short_names' depends on axioms: [propext, Classical.choice, Quot.sound]
'SplineLib.C34_file_format_counterexample' depends on axioms: [propext, Classical.choice, Quot.sound]
'SplineLib.C35_delimited_fields' depends on axioms: [propext, Classical.choice, Quot.sound]
'SplineLib.C35_every_text_has_fields' depends on axioms: [propext, Classical.choice, Quot.sound]
'SplineLib.C35_delimited_terminates' depends on axioms: [propext, Classical.choice, Quot.sound]
'SplineLib.C35_delimited_numbers' depends on axioms: [propext, Classical.choice, Quot.sound]
'SplineLib.C35_split' depends on axioms: [propext, Classical.choice, Quot.sound]
'SplineLib.C35_trim' depends on axioms: [propext, Quot.sound]
'SplineLib.C36_nurbs_coordinates' depends on axioms: [propext, Classical.choice, Quot.sound]
'SplineLib.C36_exact' depends on axioms: [propext, Classical.choice, Quot.sound]
'SplineLib.C36_round_trip_partial' depends on axioms: [propext, Classical.choice, Quot.sound]
'SplineLib.C36_bspline_round_trip' depends on axioms: [propext, Classical.choice, Quot.sound]
'SplineLib.C36_other_dimensions_rejected' depends on axioms: [propext, Classical.choice, Quot.sound]
'SplineLib.C36_round_trip_wellformed' depends on axioms: [propext, Classical.choice, Quot.sound]
'SplineLib.C36_small_weight' depends on axioms: [propext, Classical.choice, Quot.sound]
'SplineLib.C36_nurbs_coordinates_counterexample' depends on axioms: [propext, Classical.choice, Quot.sound]
'SplineLib.C37_round_trip' depends on axioms: [propext, Classical.choice, Quot.sound]
'SplineLib.C37_exact' depends on axioms: [propext, Classical.choice, Quot.sound]
'SplineLib.C37_other_dimensions_rejected' depends on axioms: [propext, Classical.choice, Quot.sound]
'SplineLib.C37_document_plain' depends on axioms: [propext, Classical.choice, Quot.sound]
'SplineLib.C37_header' depends on axioms: [propext, Classical.choice, Quot.sound]
'SplineLib.C37_coordinates_selected' depends on axioms: [propext, Classical.choice, Quot.sound]
'SplineLib.C37_missing_values_undefined' depends on axioms: [propext, Classical.choice, Quot.sound]
'SplineLib.C38_layout' depends on axioms: [propext, Classical.choice, Quot.sound]
'SplineLib.C38_entities' depends on axioms: [propext, Classical.choice, Quot.sound]
'SplineLib.C38_other_dimensions_rejected' depends on axioms: [propext, Classical.choice, Quot.sound]
'SplineLib.C38_curve_round_trip_partial' depends on axioms: [propext, Classical.choice, Quot.sound]
'SplineLib.C38_curve_exact' depends on axioms: [propext, Classical.choice, Quot.sound]
'SplineLib.C38_surface_over_read' depends on axioms: [propext, Classical.choice, Quot.sound]
'SplineLib.C38_surface_with_ranges' depends on axioms: [propext, Classical.choice, Quot.sound]
'SplineLib.C38_number_read' depends on axioms: [propext, Classical.choice, Quot.sound]
'SplineLib.C38_ordinary_numbers' depends on axioms: [propext, Classical.choice, Quot.sound]
'SplineLib.Vtk.C39_cells_of_grid' depends on axioms: [propext, Classical.choice, Quot.sound]
'SplineLib.Vtk.C39_file' depends on axioms: [propext, Classical.choice, Quot.sound]
'SplineLib.Vtk.C39_wrong_sizes_refused' depends on axioms: [propext, Classical.choice, Quot.sound]
'SplineLib.Conv.C40_first_call_partial' depends on axioms: [propext, Classical.choice, Quot.sound]
'SplineLib.Conv.C40_all_splines_any_history' depends on axioms: [propext, Classical.choice, Quot.sound]
'SplineLib.Conv.C40_after_any_history' depends on axioms: [propext, Classical.choice, Quot.sound]
'SplineLib.Conv.C40_repeated_call_counterexample' depends on axioms: [propext, Classical.choice, Quot.sound]
'SplineLib.Conv.C40_unknown_format_refused' depends on axioms: [propext, Classical.choice, Quot.sound]
'SplineLib.Conv.C40_vtk_first_call_partial' depends on axioms: [propext, Classical.choice, Quot.sound]
'SplineLib.Conv.C40_vtk_later_call_refused' depends on axioms: [propext, Classical.choice, Quot.sound]
'SplineLib.C41_curve_result' depends on axioms: [propext, Classical.choice, Quot.sound]
'SplineLib.C41_curve_start' depends on axioms: [propext, Classical.choice, Quot.sound]
'SplineLib.C41_curve_outcome_partial' depends on axioms: [propext, Classical.choice, Quot.sound]
'SplineLib.C41_curve_late_range_throws' depends on axioms: [propext, Classical.choice, Quot.sound]
'SplineLib.C41_line_exact' depends on axioms: [propext, Classical.choice, Quot.sound]
'SplineLib.C41_segment_exact' depends on axioms: [propext, Classical.choice, Quot.sound]
'SplineLib.C41_surface_result' depends on axioms: [propext, Classical.choice, Quot.sound]
'SplineLib.C41_surface_in_range_partial' depends on axioms: [propext, Classical.choice, Quot.sound]
'SplineLib.C41_surface_second_direction_cut' depends on axioms: [propext, Classical.choice, Quot.sound]
'SplineLib.C41_tangent_foot' depends on axioms: [propext, Classical.choice, Quot.sound]
'SplineLib.C41_surface_start' depends on axioms: [propext, Classical.choice, Quot.sound]
'SplineLib.C41_surface_outcome_partial' depends on axioms: [propext, Classical.choice, Quot.sound]
'SplineLib.C41_planar_surface_undefined' depends on axioms: [propext, Classical.choice, Quot.sound]
'SplineLib.C41_plane_exact' depends on axioms: [propext, Classical.choice, Quot.sound]
'SplineLib.C41_surface_outside_range' depends on axioms: [propext, Classical.choice, Quot.sound]
'SplineLib.C41_surface_throws' depends on axioms: [propext, Classical.choice, Quot.sound]
'SplineLib.C42_random_bspline' depends on axioms: [propext, Classical.choice, Quot.sound]
'SplineLib.C42_random_nurbs' depends on axioms: [propext, Classical.choice, Quot.sound]
'SplineLib.C42_max_degree_zero_counterexample' depends on axioms: [propext, Classical.choice, Quot.sound]
'SplineLib.C42_square' depends on axioms: [propext, Classical.choice, Quot.sound]
'SplineLib.C42_square_geometry' depends on axioms: [propext, Classical.choice, Quot.sound]
'SplineLib.C42_square_too_few_knots_counterexample' depends on axioms: [propext, Classical.choice, Quot.sound]
'SplineLib.C42_square_degree_zero_counterexample' depends on axioms: [propext, Classical.choice, Quot.sound]
'SplineLib.C43_elements_tile' depends on axioms: [propext, Classical.choice, Quot.sound]
'SplineLib.C43_elements_consecutive' depends on axioms: [propext, Classical.choice, Quot.sound]
'SplineLib.C43_all_directions' depends on axioms: [propext, Quot.sound]
'SplineLib.C44_gauss_exact' depends on axioms: [propext, Classical.choice, Quot.sound]
'SplineLib.C44_gauss_exact_on_element' depends on axioms: [propext, Classical.choice, Quot.sound]
'SplineLib.C45_averaged' depends on axioms: [propext, Classical.choice, Quot.sound]
'SplineLib.C46_number_of_different_knots' depends on axioms: [propext, Classical.choice, Quot.sound]
'SplineLib.C47_global_index' depends on axioms: [propext, Classical.choice, Quot.sound]
'SplineLib.C47_global_index_closed' depends on axioms: [propext, Classical.choice, Quot.sound]
'SplineLib.C48_element_number_at' depends on axioms: [propext, Classical.choice, Quot.sound]
'SplineLib.C48_element_numbering' depends on axioms: [propext, Classical.choice, Quot.sound]
'SplineLib.C48_reference_in_element' depends on axioms: [propext, Classical.choice, Quot.sound]
'SplineLib.C48_every_coordinate' depends on axioms: [propext, Classical.choice, Quot.sound]
'SplineLib.C49_sections' depends on axioms: [propext, Classical.choice, Quot.sound]
'SplineLib.C49_congruent_sections' depends on axioms: [propext, Classical.choice, Quot.sound]
'SplineLib.C49_refused_frame' depends on axioms: [propext, Classical.choice, Quot.sound]
'SplineLib.C49_straight_partial' depends on axioms: [propext, Classical.choice, Quot.sound]
'SplineLib.C49_straight_counterexample' depends on axioms: [propext, Classical.choice, Quot.sound]
'SplineLib.C49_horizontal_line_counterexample' depends on axioms: [propext, Classical.choice, Quot.sound]
'SplineLib.C50_swept_surface' depends on axioms: [propext, Classical.choice, Quot.sound]
'SplineLib.C50_trajectory_starts_at_zero' depends on axioms: [propext, Classical.choice, Quot.sound]
'SplineLib.C50_too_few_sections_counterexample' depends on axioms: [propext, Classical.choice, Quot.sound]
'SplineLib.C51_geometry_determines_control_net' depends on axioms: [propext, Classical.choice, Quot.sound]
'SplineLib.C51_refinement_order' depends on axioms: [propext, Classical.choice, Quot.sound]
'SplineLib.C51_directions_commute' depends on axioms: [propext, Classical.choice, Quot.sound]
'SplineLib.Iga.C52_element_values' depends on axioms: [propext, Classical.choice, Quot.sound]
'SplineLib.Iga.C52_element_complete' depends on axioms: [propext, Classical.choice, Quot.sound]
'SplineLib.Iga.C53_spec_derivative' depends on axioms: [propext, Classical.choice, Quot.sound]
'SplineLib.Iga.C53_derivatives_partial' depends on axioms: [propext, Classical.choice, Quot.sound]
'SplineLib.Iga.C53_weights_counterexample' depends on axioms: [propext, Classical.choice, Quot.sound]
'SplineLib.Iga.C53_error' depends on axioms: [propext, Classical.choice, Quot.sound]
'SplineLib.Iga.C53_equal_weights' depends on axioms: [propext, Classical.choice, Quot.sound]
'SplineLib.Iga.C53_few_functions_undefined' depends on axioms: [propext, Classical.choice, Quot.sound]
'SplineLib.Iga.C54_geometry_derivatives' depends on axioms: [propext, Classical.choice, Quot.sound]
'SplineLib.Iga.C54_jacobian' depends on axioms: [propext, Classical.choice, Quot.sound]
'SplineLib.Iga.C54_inverse' depends on axioms: [propext, Classical.choice, Quot.sound]
'SplineLib.Iga.C54_physical_derivatives_partial' depends on axioms: [propext, Classical.choice, Quot.sound]
'SplineLib.Iga.C55_quadSum' depends on axioms: [propext, Classical.choice, Quot.sound]
'SplineLib.Iga.C55_mass_matrix' depends on axioms: [propext, Classical.choice, Quot.sound]
'SplineLib.Iga.C55_right_side' depends on axioms: [propext, Classical.choice, Quot.sound]
'SplineLib.Iga.C55_left_side_partial' depends on axioms: [propext, Classical.choice, Quot.sound]
'SplineLib.Iga.C55_bdf1' depends on axioms: [propext, Classical.choice, Quot.sound]
'SplineLib.Iga.C56_zero_bc' depends on axioms: [propext, Classical.choice, Quot.sound]
'SplineLib.Iga.C56_dirichlet_bc' depends on axioms: [propext, Classical.choice, Quot.sound]
'SplineLib.Iga.C56_field_on_boundary' depends on axioms: [propext, Classical.choice, Quot.sound]
'SplineLib.Iga.C57_connectivity' depends on axioms: [propext, Classical.choice, Quot.sound]
'SplineLib.Iga.C57_boundary_counterexample' depends on axioms: [propext, Classical.choice, Quot.sound]
'SplineLib.Iga.C57_boundary_partial' depends on axioms: [propext, Classical.choice, Quot.sound]
'SplineLib.Iga.C57_neumann_side' depends on axioms: [propext, Classical.choice, Quot.sound]
'SplineLib.Iga.C57_neumann_partial' depends on axioms: [propext, Classical.choice, Quot.sound]
'SplineLib.Iga.C57_neumann_curve' depends on axioms: [propext, Classical.choice, Quot.sound]
'SplineLib.Iga.C58_solution_spline' depends on axioms: [propext, Classical.choice, Quot.sound]
'SplineLib.Iga.C58_vtk_data' depends on axioms: [propext, Classical.choice, Quot.sound]
'SplineLib.Iga.C59_matrix_partial' depends on axioms: [propext, Classical.choice, Quot.sound]
'SplineLib.Iga.C59_steady_partial' depends on axioms: [propext, Classical.choice, Quot.sound]
'SplineLib.Iga.C59_steady_total' depends on axioms: [propext, Classical.choice, Quot.sound]
'SplineLib.Iga.C60_steady_repeatable' depends on axioms: [propext, Classical.choice, Quot.sound]
'SplineLib.Iga.C60_unsteady_partial' depends on axioms: [propext, Classical.choice, Quot.sound]
'SplineLib.Iga.C60_steady_after_unsteady' depends on axioms: [propext, Classical.choice, Quot.sound]
'SplineLib.Iga.C60_unsteady_after_steady' depends on axioms: [propext, Classical.choice, Quot.sound]
'SplineLib.Log.C61_read_log' depends on axioms: [propext, Classical.choice, Quot.sound]
'SplineLib.Log.C61_any_order' depends on axioms: [propext, Classical.choice, Quot.sound]
'SplineLib.Log.C61_unreadable' depends on axioms: [propext, Classical.choice, Quot.sound]
'SplineLib.Log.C61_adjacent_counterexample' depends on axioms: [propext, Classical.choice, Quot.sound]
'SplineLib.Log.C61_reread' depends on axioms: [propext, Classical.choice, Quot.sound]
'SplineLib.Log.C61_reread_counterexample' depends on axioms: [propext, Classical.choice, Quot.sound]
'SplineLib.Log.C62_positions' depends on axioms: [propext, Quot.sound]
'SplineLib.Log.C62_scattering' depends on axioms: [propext, Classical.choice, Quot.sound]
'SplineLib.Log.C62_scattering_all' depends on axioms: [propext, Classical.choice, Quot.sound]
'SplineLib.Log.C62_scattering_missing' depends on axioms: [propext, Classical.choice, Quot.sound]
'SplineLib.Log.C62_no_options_undefined' depends on axioms: [propext]
'SplineLib.Log.C62_second_call' depends on axioms: [propext, Quot.sound]
'SplineLib.Log.C63_dimensions' depends on axioms: [propext]
'SplineLib.Log.C63_converts' depends on axioms: [propext, Classical.choice, Quot.sound]
'SplineLib.Log.C63_converts_vtk' depends on axioms: [propext, Classical.choice, Quot.sound]
'SplineLib.Log.C63_converts_vtk_all' depends on axioms: [propext, Classical.choice, Quot.sound]
'SplineLib.Log.C63_same_as_converter' depends on axioms: [propext, Classical.choice, Quot.sound]
'SplineLib.Log.C63_run_again' depends on axioms: [propext, Classical.choice, Quot.sound]
'SplineLib.Log.C63_help' depends on axioms: [propext, Classical.choice, Quot.sound]
'SplineLib.Log.C63_arguments' depends on axioms: [propext, Classical.choice, Quot.sound]
'SplineLib.Log.C63_failures' depends on axioms: [propext, Classical.choice, Quot.sound]
'SplineLib.Log.C63_log_after_output' depends on axioms: [propext, Classical.choice, Quot.sound]
'SplineLib.Conv.C64_conversion' depends on axioms: [propext, Classical.choice, Quot.sound]
'SplineLib.Conv.C64_conversion_vtk' depends on axioms: [propext, Classical.choice, Quot.sound]
'SplineLib.Conv.C64_unreadable' depends on axioms: [propext, Classical.choice, Quot.sound]
'SplineLib.Conv.C64_missing_input' depends on axioms: [propext, Classical.choice, Quot.sound]
'SplineLib.Conv.C64_failed_writer' depends on axioms: [propext, Classical.choice, Quot.sound]
'SplineLib.Conv.C64_xml_complete_or_unchanged' depends on axioms: [propext, Classical.choice, Quot.sound]
'SplineLib.Conv.C64_other_files' depends on axioms: [propext, Classical.choice, Quot.sound]
'SplineLib.Conv.C64_chain_exact' depends on axioms: [propext, Classical.choice, Quot.sound]
'SplineLib.Conv.C64_no_drift' depends on axioms: [propext, Classical.choice, Quot.sound]
'SplineLib.Conv.C64_vtk_grid' depends on axioms: [propext, Classical.choice, Quot.sound]
'SplineLib.C65_difference' depends on axioms: [propext, Classical.choice, Quot.sound]
'SplineLib.C65_scalar_product' depends on axioms: [propext, Classical.choice, Quot.sound]
'SplineLib.C65_scalar_product_lengths' depends on axioms: [propext, Classical.choice, Quot.sound]
'SplineLib.C65_scale' depends on axioms: [propext, Quot.sound]
'SplineLib.C65_cross_product' depends on axioms: [propext, Classical.choice, Quot.sound]
'SplineLib.C65_cross_product_short' depends on axioms: [propext, Quot.sound]
'SplineLib.C65_filter' depends on axioms: [propext, Classical.choice, Quot.sound]
'SplineLib.C65_two_norm' depends on axioms: [propext, Classical.choice, Quot.sound]
'SplineLib.C65_distance' depends on axioms: [propext, Classical.choice, Quot.sound]
'SplineLib.C65_metric' depends on axioms: [propext, Classical.choice, Quot.sound]
'SplineLib.C66_maximum_distance' depends on axioms: [propext, Classical.choice, Quot.sound]
'SplineLib.C66_bounding_ball' depends on axioms: [propext, Classical.choice, Quot.sound]
'SplineLib.C66_minimum_weight' depends on axioms: [propext, Classical.choice, Quot.sound]
'SplineLib.C66_expansion' depends on axioms: [propext, Quot.sound]
'SplineLib.C66_expansion_bounds' depends on axioms: [propext, Classical.choice, Quot.sound]
'SplineLib.C66_expansion_counterexample' depends on axioms: [propext, Classical.choice, Quot.sound]
'SplineLib.Iga.C67_rules' depends on axioms: [propext, Classical.choice, Quot.sound]
'SplineLib.Iga.C67_quadrature' depends on axioms: [propext, Classical.choice, Quot.sound]
'SplineLib.Iga.C67_mass_matrix' depends on axioms: [propext, Classical.choice, Quot.sound]
'SplineLib.Iga.C67_right_side' depends on axioms: [propext, Classical.choice, Quot.sound]
'SplineLib.Iga.C67_volume' depends on axioms: [propext, Classical.choice, Quot.sound]
'SplineLib.Iga.C67_laplace' depends on axioms: [propext, Classical.choice, Quot.sound]
'SplineLib.Iga.C68_mass_definite' depends on axioms: [propext, Classical.choice, Quot.sound]
'SplineLib.Iga.C68_stiffness_definite' depends on axioms: [propext, Classical.choice, Quot.sound]
'SplineLib.Iga.C68_steady_unique' depends on axioms: [propext, Classical.choice, Quot.sound]
'SplineLib.Iga.C68_steady_returns' depends on axioms: [propext, Classical.choice, Quot.sound]
'SplineLib.Iga.C68_euler_unique' depends on axioms: [propext, Classical.choice, Quot.sound]
'SplineLib.Iga.C68_unsteady_returns' depends on axioms: [propext, Classical.choice, Quot.sound]
'SplineLib.Iga.C68_gauss' depends on axioms: [propext, Classical.choice, Quot.sound]
'SplineLib.C69_bspline_partial' depends on axioms: [propext, Classical.choice, Quot.sound]
'SplineLib.C69_nurbs_partial' depends on axioms: [propext, Classical.choice, Quot.sound]
'SplineLib.C69_short_range_undefined' depends on axioms: [propext, Classical.choice, Quot.sound]
'SplineLib.C69_accepted_undefined' depends on axioms: [propext, Classical.choice, Quot.sound]
'SplineLib.C70_growth' depends on axioms: [propext, Classical.choice, Quot.sound]
'SplineLib.C70_basis' depends on axioms: [propext, Classical.choice, Quot.sound]
'SplineLib.C70_all_nonzero' depends on axioms: [propext, Classical.choice, Quot.sound]
'SplineLib.C70_bspline' depends on axioms: [propext, Classical.choice, Quot.sound]
'SplineLib.C70_nurbs' depends on axioms: [propext, Classical.choice, Quot.sound]
'SplineLib.C70_derivative' depends on axioms: [propext, Classical.choice, Quot.sound]
'SplineLib.C70_bspline_uniform' depends on axioms: [propext, Classical.choice, Quot.sound]
'SplineLib.C70_exact_arithmetic' depends on axioms: [propext, Classical.choice, Quot.sound]
'SplineLib.C70_constructors' depends on axioms: [propext, Quot.sound]
'SplineLib.C70_end_point_not_exact' depends on axioms: [propext, Classical.choice, Quot.sound]
'SplineLib.C71_reads_grammar' depends on axioms: [propext, Classical.choice, Quot.sound]
'SplineLib.C71_reads_grammar_bom' depends on axioms: [propext, Classical.choice, Quot.sound]
'SplineLib.C71_grammar_unique' depends on axioms: [propext, Classical.choice, Quot.sound]
'SplineLib.C71_outcome' depends on axioms: [propext, Classical.choice, Quot.sound]
'SplineLib.C71_needs_element' depends on axioms: [propext, Classical.choice, Quot.sound]
'SplineLib.C71_saves_grammar' depends on axioms: [propext, Classical.choice, Quot.sound]
'SplineLib.C71_saves_and_loads' depends on axioms: [propext, Classical.choice, Quot.sound]
'SplineLib.C71_carriage_return_lost' depends on axioms: [propext, Classical.choice, Quot.sound]
'SplineLib.C71_attribute_tab_lost' depends on axioms: [propext, Classical.choice, Quot.sound]
'SplineLib.C71_blank_text_lost' depends on axioms: [propext, Classical.choice, Quot.sound]
'SplineLib.C71_adjacent_texts_joined' depends on axioms: [propext, Classical.choice, Quot.sound]
'SplineLib.C71_name_with_blank_refused' depends on axioms: [propext, Classical.choice, Quot.sound]
'SplineLib.C71_written_text' depends on axioms: [propext, Classical.choice, Quot.sound]
'SplineLib.C71_layout_irrelevant' depends on axioms: [propext, Classical.choice, Quot.sound]
'SplineLib.C71_other_dimensions_rejected' depends on axioms: [propext, Classical.choice, Quot.sound]
'SplineLib.C71_round_trip' depends on axioms: [propext, Classical.choice, Quot.sound]
'SplineLib.C71_exact' depends on axioms: [propext, Classical.choice, Quot.sound]
'SplineLib.C72_prefix' depends on axioms: [propext, Classical.choice, Quot.sound]
'SplineLib.C72_one_element' depends on axioms: [propext, Classical.choice, Quot.sound]
'SplineLib.C72_truncated' depends on axioms: [propext, Classical.choice, Quot.sound]
'SplineLib.C72_one_element_refused' depends on axioms: [propext, Classical.choice, Quot.sound]
'SplineLib.C72_truncated_refused' depends on axioms: [propext, Classical.choice, Quot.sound]
'SplineLib.C73_format_unique' depends on axioms: [propext, Classical.choice, Quot.sound]
'SplineLib.C73_data_unique' depends on axioms: [propext, Classical.choice, Quot.sound]
'SplineLib.Vtk.C73_file' depends on axioms: [propext, Classical.choice, Quot.sound]
'SplineLib.Vtk.C73_exact' depends on axioms: [propext, Classical.choice, Quot.sound]
'SplineLib.Vtk.C73_error' depends on axioms: [propext, Classical.choice, Quot.sound]
'SplineLib.Iga.C73_solution' depends on axioms: [propext, Classical.choice, Quot.sound]
'SplineLib.Vtk.C73_points_collapse_counterexample' depends on axioms: [propext, Classical.choice, Quot.sound]
'SplineLib.C74_irit_first_splines' depends on axioms: [propext, Classical.choice, Quot.sound]
'SplineLib.C74_irit_splines_lost' depends on axioms: [propext, Classical.choice, Quot.sound]
'SplineLib.C74_irit_undefined' depends on axioms: [propext, Classical.choice, Quot.sound]
'SplineLib.C74_iges_all_or_none' depends on axioms: [propext, Classical.choice, Quot.sound]
'SplineLib.C74_iges_splines_lost' depends on axioms: [propext, Classical.choice, Quot.sound]
'SplineLib.C74_iges_terminate_section' depends on axioms: [propext, Classical.choice, Quot.sound]
'SplineLib.C74_iges_undefined' depends on axioms: [propext, Classical.choice, Quot.sound]
'SplineLib.C75_literal' depends on axioms: [propext, Classical.choice, Quot.sound]
'SplineLib.C75_integer_literal' depends on axioms: [propext, Classical.choice, Quot.sound]
'SplineLib.C75_natural_number' depends on axioms: [propext, Classical.choice, Quot.sound]
'SplineLib.C75_iges_number' depends on axioms: [propext, Classical.choice, Quot.sound]
'SplineLib.C75_six_decimals' depends on axioms: [propext, Classical.choice, Quot.sound]
'SplineLib.C75_six_decimals_integer' depends on axioms: [propext, Classical.choice, Quot.sound]
'SplineLib.C75_iges_integer' depends on axioms: [propext, Classical.choice, Quot.sound]
'SplineLib.C75_exact_arithmetic' depends on axioms: [propext, Classical.choice, Quot.sound]
'SplineLib.C75_iges_number_double' depends on axioms: [propext, Classical.choice, Quot.sound]
'SplineLib.C75_three_quarters' depends on axioms: [propext, Classical.choice, Quot.sound]
'SplineLib.C75_drift' depends on axioms: [propext, Classical.choice, Quot.sound]
'SplineLib.C75_order_lost' depends on axioms: [propext, Classical.choice, Quot.sound]
'SplineLib.C76_insert_bspline' depends on axioms: [propext, Classical.choice, Quot.sound]
'SplineLib.C76_refine_bspline' depends on axioms: [propext, Classical.choice, Quot.sound]
'SplineLib.C76_refine_evaluate' depends on axioms: [propext, Classical.choice, Quot.sound]
'SplineLib.C76_refine_nurbs' depends on axioms: [propext, Classical.choice, Quot.sound]
'SplineLib.C76_insert_nurbs' depends on axioms: [propext, Classical.choice, Quot.sound]
'SplineLib.C76_refine_nurbs_values' depends on axioms: [propext, Classical.choice, Quot.sound]
'SplineLib.C76_exact_arithmetic' depends on axioms: [propext, Classical.choice, Quot.sound]
'SplineLib.C76_not_exact' depends on axioms: [propext, Classical.choice, Quot.sound]
'SplineLib.C77_difference' depends on axioms: [propext, Quot.sound]
'SplineLib.C77_shorter_is_undefined' depends on axioms: [propext, Quot.sound]
'SplineLib.C77_difference_small_iff' depends on axioms: [propext, Classical.choice, Quot.sound]
'SplineLib.C77_lengths_matter' depends on axioms: [propext, Classical.choice, Quot.sound]
'SplineLib.C78_complete_files' depends on axioms: [propext, Classical.choice, Quot.sound]
'SplineLib.C78_irit' depends on axioms: [propext, Classical.choice, Quot.sound]
'SplineLib.C78_iges' depends on axioms: [propext, Classical.choice, Quot.sound]
'SplineLib.C78_vtk_no_grid' depends on axioms: [propext, Classical.choice, Quot.sound]
'SplineLib.C78_vtk_wrong_sizes' depends on axioms: [propext, Classical.choice, Quot.sound]
'SplineLib.C78_vtk_dimension' depends on axioms: [propext, Classical.choice, Quot.sound]
'SplineLib.C78_conversion' depends on axioms: [propext, Classical.choice, Quot.sound]
'SplineLib.C79_nurbs_derivative' depends on axioms: [propext, Classical.choice, Quot.sound]
'SplineLib.C79_exact_arithmetic' depends on axioms: [propext, Classical.choice, Quot.sound]
'SplineLib.C79_not_relative' depends on axioms: [propext, Classical.choice, Quot.sound]
'SplineLib.C80_evaluate' depends on axioms: [propext, Classical.choice, Quot.sound]
'SplineLib.C80_derivative' depends on axioms: [propext, Classical.choice, Quot.sound]
'SplineLib.C80_undefined_index' depends on axioms: [propext, Classical.choice, Quot.sound]
'SplineLib.C80_too_many_coordinates' depends on axioms: [propext, Classical.choice, Quot.sound]
'SplineLib.C80_large_order' depends on axioms: [propext, Classical.choice, Quot.sound]
'SplineLib.C80_order_34' depends on axioms: [propext, Classical.choice, Quot.sound]
'SplineLib.C80_order_33' depends on axioms: [propext, Classical.choice, Quot.sound]
'SplineLib.Conv.C81_success' depends on axioms: [propext, Classical.choice, Quot.sound]
'SplineLib.Conv.C81_log_lost' depends on axioms: [propext, Classical.choice, Quot.sound]
'SplineLib.Conv.C81_failed_writer' depends on axioms: [propext, Classical.choice, Quot.sound]
'SplineLib.Conv.C81_other_files' depends on axioms: [propext, Classical.choice, Quot.sound]
'SplineLib.Conv.C81_unreadable' depends on axioms: [propext, Classical.choice, Quot.sound]
'SplineLib.Conv.C81_no_run' depends on axioms: [propext, Classical.choice, Quot.sound]
'SplineLib.Conv.C81_success_vtk' depends on axioms: [propext, Classical.choice, Quot.sound]
'SplineLib.Conv.C81_same_as_converter' depends on axioms: [propext, Classical.choice, Quot.sound]
'SplineLib.Conv.C81_run_again' depends on axioms: [propext, Classical.choice, Quot.sound]
'SplineLib.Conv.C81_round_trip' depends on axioms: [propext, Classical.choice, Quot.sound]
'SplineLib.C82_two_sided' depends on axioms: [propext, Classical.choice, Quot.sound]
'SplineLib.C82_continuous' depends on axioms: [propext, Classical.choice, Quot.sound]
'SplineLib.C82_evaluate_continuous' depends on axioms: [propext, Classical.choice, Quot.sound]
'SplineLib.C82_sharp' depends on axioms: [propext, Classical.choice, Quot.sound]
'SplineLib.C83_polynomial' depends on axioms: [propext, Classical.choice, Quot.sound]
'SplineLib.C83_curve' depends on axioms: [propext, Classical.choice, Quot.sound]
'SplineLib.C83_linear_precision' depends on axioms: [propext, Classical.choice, Quot.sound]
'SplineLib.C84_curve' depends on axioms: [propext, Classical.choice, Quot.sound]
'SplineLib.C84_monotone' depends on axioms: [propext, Classical.choice, Quot.sound]
'SplineLib.C84_insertKnot' depends on axioms: [propext, Classical.choice, Quot.sound]
'SplineLib.C85_lipschitz' depends on axioms: [propext, Classical.choice, Quot.sound]
'SplineLib.C85_convex' depends on axioms: [propext, Classical.choice, Quot.sound]
'SplineLib.C86_global_partial' depends on axioms: [propext, Classical.choice, Quot.sound]
'SplineLib.C86_comma' depends on axioms: [propext, Classical.choice, Quot.sound]
'SplineLib.C86_date_form' depends on axioms: [propext, Classical.choice, Quot.sound]
'SplineLib.C86_date_injective' depends on axioms: [propext, Classical.choice, Quot.sound]
'SplineLib.C86_date_counterexample' depends on axioms: [propext, Classical.choice, Quot.sound]
'SplineLib.C87_unique_iff' depends on axioms: [propext, Classical.choice, Quot.sound]
'SplineLib.C87_averaged' depends on axioms: [propext, Classical.choice, Quot.sound]
'SplineLib.C88_bspline_partial' depends on axioms: [propext, Classical.choice, Quot.sound]
'SplineLib.C88_nurbs_partial' depends on axioms: [propext, Classical.choice, Quot.sound]
'SplineLib.C88_bspline_short_span' depends on axioms: [propext, Classical.choice, Quot.sound]
'SplineLib.C88_nurbs_short_span' depends on axioms: [propext, Classical.choice, Quot.sound]
'SplineLib.C88_counterexample' depends on axioms: [propext, Classical.choice, Quot.sound]
'SplineLib.C88_nurbs_counterexample' depends on axioms: [propext, Classical.choice, Quot.sound]
'SplineLib.C88_insert_counterexample' depends on axioms: [propext, Classical.choice, Quot.sound]
'SplineLib.C89_slopes' depends on axioms: [propext, Classical.choice, Quot.sound]
'SplineLib.C89_bspline' depends on axioms: [propext, Classical.choice, Quot.sound]
'SplineLib.C89_nurbs' depends on axioms: [propext, Classical.choice, Quot.sound]
'SplineLib.C90_knots' depends on axioms: [propext, Classical.choice, Quot.sound]
'SplineLib.C90_weights' depends on axioms: [propext, Classical.choice, Quot.sound]
'SplineLib.C91_reversed' depends on axioms: [propext, Classical.choice, Quot.sound]
'SplineLib.C91_jump' depends on axioms: [propext, Classical.choice, Quot.sound]
'SplineLib.C92_swapped' depends on axioms: [propext, Classical.choice, Quot.sound]
'SplineLib.C92_reordered' depends on axioms: [propext, Classical.choice, Quot.sound]
'SplineLib.C92_exists' depends on axioms: [propext, Classical.choice, Quot.sound]
'SplineLib.C93_bspline' depends on axioms: [propext, Classical.choice, Quot.sound]
'SplineLib.C93_nurbs' depends on axioms: [propext, Classical.choice, Quot.sound]
'SplineLib.C93_bezier_curve' depends on axioms: [propext, Classical.choice, Quot.sound]
'SplineLib.C93_rational_bezier_curve' depends on axioms: [propext, Classical.choice, Quot.sound]
'SplineLib.C93_circle' depends on axioms: [propext, Classical.choice, Quot.sound]
'SplineLib.C94_bspline' depends on axioms: [propext, Classical.choice, Quot.sound]
'SplineLib.C94_nurbs' depends on axioms: [propext, Classical.choice, Quot.sound]
'SplineLib.C95_bspline_formula_partial' depends on axioms: [propext, Classical.choice, Quot.sound]
'SplineLib.C95_nurbs_formula_partial' depends on axioms: [propext, Classical.choice, Quot.sound]
'SplineLib.C95_bspline_short_span' depends on axioms: [propext, Classical.choice, Quot.sound]
'SplineLib.C95_nurbs_short_span' depends on axioms: [propext, Classical.choice, Quot.sound]
'SplineLib.C95_bspline_partial' depends on axioms: [propext, Classical.choice, Quot.sound]
'SplineLib.C95_nurbs_partial' depends on axioms: [propext, Classical.choice, Quot.sound]
'SplineLib.C95_counterexample' depends on axioms: [propext, Classical.choice, Quot.sound]
'SplineLib.C95_nurbs_counterexample' depends on axioms: [propext, Classical.choice, Quot.sound]
'SplineLib.Iga.C96_energy' depends on axioms: [propext, Classical.choice, Quot.sound]
'SplineLib.Iga.C96_minimiser' depends on axioms: [propext, Classical.choice, Quot.sound]
'SplineLib.Iga.C96_unique' depends on axioms: [propext, Classical.choice, Quot.sound]
'SplineLib.Iga.C96_step' depends on axioms: [propext, Classical.choice, Quot.sound]
'SplineLib.Iga.C96_limit' depends on axioms: [propext, Classical.choice, Quot.sound]
'SplineLib.Iga.C96_calls' depends on axioms: [propext, Classical.choice, Quot.sound]
'SplineLib.Iga.C96_calls_in_turn' depends on axioms: [propext, Classical.choice, Quot.sound]
'SplineLib.Iga.C96_call_with_values' depends on axioms: [propext, Classical.choice, Quot.sound]
'SplineLib.C97_insert_partial' depends on axioms: [propext, Classical.choice, Quot.sound]
'SplineLib.C97_refine_partial' depends on axioms: [propext, Classical.choice, Quot.sound]
'SplineLib.C97_remove_partial' depends on axioms: [propext, Classical.choice, Quot.sound]
'SplineLib.C97_evaluate_partial' depends on axioms: [propext, Classical.choice, Quot.sound]
'SplineLib.C97_near_end_fails' depends on axioms: [propext, Classical.choice, Quot.sound]
'SplineLib.C98_subdivision_partial' depends on axioms: [propext, Classical.choice, Quot.sound]
'SplineLib.C98_evaluate_partial' depends on axioms: [propext, Classical.choice, Quot.sound]
'SplineLib.C98_near_end_fails' depends on axioms: [propext, Classical.choice, Quot.sound]
'SplineLib.C99_derivative' depends on axioms: [propext, Classical.choice, Quot.sound]
'SplineLib.C99_first' depends on axioms: [propext, Classical.choice, Quot.sound]
'SplineLib.C99_exists' depends on axioms: [propext, Classical.choice, Quot.sound]
'SplineLib.C99_bounds' depends on axioms: [propext, Classical.choice, Quot.sound]
'SplineLib.C100_subdivision' depends on axioms: [propext, Classical.choice, Quot.sound]
'SplineLib.C100_parts_meet' depends on axioms: [propext, Classical.choice, Quot.sound]
'SplineLib.C100_bspline' depends on axioms: [propext, Classical.choice, Quot.sound]
'SplineLib.C100_nurbs' depends on axioms: [propext, Classical.choice, Quot.sound]
'SplineLib.C100_exact_arithmetic' depends on axioms: [propext, Classical.choice, Quot.sound]
'SplineLib.C100_not_exact' depends on axioms: [propext, Classical.choice, Quot.sound]
'SplineLib.C101_on_spline' depends on axioms: [propext, Classical.choice, Quot.sound]
'SplineLib.C101_evaluate_by_insertion' depends on axioms: [propext, Classical.choice, Quot.sound]
'SplineLib.C101_rounded' depends on axioms: [propext, Classical.choice, Quot.sound]
'SplineLib.Sp.C102_parameters' depends on axioms: [propext, Classical.choice, Quot.sound]
'SplineLib.Sp.C102_finite' depends on axioms: [propext, Classical.choice, Quot.sound]
'SplineLib.Sp.C102_contamination' depends on axioms: [propext, Classical.choice, Quot.sound]
'SplineLib.Sp.C102_derivative' depends on axioms: [propext, Classical.choice, Quot.sound]
'SplineLib.Sp.C102_areEqual' depends on axioms: [propext, Classical.choice, Quot.sound]
'SplineLib.Sp.C102_geometrically_equal' depends on axioms: [propext, Classical.choice, Quot.sound]
'SplineLib.C103_accepted_iff' depends on axioms: [propext, Classical.choice, Quot.sound]
'SplineLib.C103_between_samples' depends on axioms: [propext, Classical.choice, Quot.sound]
'SplineLib.C103_exact' depends on axioms: [propext, Classical.choice, Quot.sound]
'SplineLib.C103_bezier' depends on axioms: [propext, Classical.choice, Quot.sound]
'SplineLib.C103_blind' depends on axioms: [propext, Classical.choice, Quot.sound]
'SplineLib.C104_comparison_never_true' depends on axioms: [propext, Classical.choice, Quot.sound]
'SplineLib.C104_comparison_self' depends on axioms: [propext, Classical.choice, Quot.sound]
'SplineLib.C104_vtk_points' depends on axioms: [propext, Classical.choice, Quot.sound]
'SplineLib.C104_exact_step' depends on axioms: [propext, Classical.choice, Quot.sound]
'SplineLib.C104_integer_range' depends on axioms: [propext, Classical.choice, Quot.sound]
'SplineLib.C104_grid_error' depends on axioms: [propext, Classical.choice, Quot.sound]
'SplineLib.C104_exact_arithmetic' depends on axioms: [propext, Classical.choice, Quot.sound]
'SplineLib.C104_seven' depends on axioms: [propext, Classical.choice, Quot.sound]
'SplineLib.C104_vtk_one_cell' depends on axioms: [propext, Classical.choice, Quot.sound]
'SplineLib.C104_vtk_three_cells' depends on axioms: [propext, Classical.choice, Quot.sound]
'SplineLib.C104_vtk_integer_ranges' depends on axioms: [propext, Classical.choice, Quot.sound]
'SplineLib.C105_curve' depends on axioms: [propext, Classical.choice, Quot.sound]
'SplineLib.C105_surface' depends on axioms: [propext, Classical.choice, Quot.sound]
'SplineLib.C105_solution' depends on axioms: [propext, Classical.choice, Quot.sound]
'SplineLib.C105_exact_arithmetic' depends on axioms: [propext, Classical.choice, Quot.sound]
'SplineLib.C105_integer_range' depends on axioms: [propext, Classical.choice, Quot.sound]
'SplineLib.C105_exact_step' depends on axioms: [propext, Classical.choice, Quot.sound]
'SplineLib.C105_surface_default' depends on axioms: [propext, Classical.choice, Quot.sound]
'SplineLib.C105_surface_integer' depends on axioms: [propext, Classical.choice, Quot.sound]
'SplineLib.C105_solution_seven' depends on axioms: [propext, Classical.choice, Quot.sound]
'SplineLib.C106_stability' depends on axioms: [propext, Classical.choice, Quot.sound]
'SplineLib.C106_bspline' depends on axioms: [propext, Classical.choice, Quot.sound]
'SplineLib.C106_xml' depends on axioms: [propext, Classical.choice, Quot.sound]
'SplineLib.C106_xml_bspline' depends on axioms: [propext, Classical.choice, Quot.sound]
'SplineLib.C106_irit' depends on axioms: [propext, Classical.choice, Quot.sound]
'SplineLib.C106_range_changes' depends on axioms: [propext, Classical.choice, Quot.sound]
'SplineLib.Ex.C107_optimizer_undefined' depends on axioms: [propext, Classical.choice, Quot.sound]
'SplineLib.Ex.C107_optimizer_with_writer' depends on axioms: [propext, Classical.choice, Quot.sound]
'SplineLib.Ex.C107_ex1' depends on axioms: [propext, Classical.choice, Quot.sound]
'SplineLib.VtkInt.C108_file' depends on axioms: [propext, Classical.choice, Quot.sound]
'SplineLib.VtkInt.C108_entries_overflow' depends on axioms: [propext, Classical.choice, Quot.sound]
'SplineLib.C109_integral' depends on axioms: [propext, Classical.choice, Quot.sound]
'SplineLib.C109_antiderivative' depends on axioms: [propext, Classical.choice, Quot.sound]
'SplineLib.C110_geometry' depends on axioms: [propext, Classical.choice, Quot.sound]
'SplineLib.C110_same_geometry' depends on axioms: [propext, Classical.choice, Quot.sound]
'SplineLib.C110_insertKnot' depends on axioms: [propext, Classical.choice, Quot.sound]
'SplineLib.C110_refineKnots' depends on axioms: [propext, Classical.choice, Quot.sound]
'SplineLib.C110_subdivide' depends on axioms: [propext, Classical.choice, Quot.sound]
'SplineLib.C111_chord' depends on axioms: [propext, Classical.choice, Quot.sound]
'SplineLib.C111_chord_first' depends on axioms: [propext, Classical.choice, Quot.sound]
'SplineLib.Vtk.C111_vtk' depends on axioms: [propext, Classical.choice, Quot.sound]
'SplineLib.C112_bounds' depends on axioms: [propext, Classical.choice, Quot.sound]
'SplineLib.C112_derivative' depends on axioms: [propext, Classical.choice, Quot.sound]
'SplineLib.C112_value' depends on axioms: [propext, Classical.choice, Quot.sound]
'SplineLib.C112_between' depends on axioms: [propext, Classical.choice, Quot.sound]
'SplineLib.C112_exists' depends on axioms: [propext, Classical.choice, Quot.sound]
'SplineLib.Vtk.C112_vtk' depends on axioms: [propext, Classical.choice, Quot.sound]
'SplineLib.C113_length' depends on axioms: [propext, Classical.choice, Quot.sound]
'SplineLib.C113_variation' depends on axioms: [propext, Classical.choice, Quot.sound]
'SplineLib.C113_euclid' depends on axioms: [propext, Classical.choice, Quot.sound]
'SplineLib.Vtk.C113_vtk' depends on axioms: [propext, Classical.choice, Quot.sound]
'SplineLib.C114_increasing' depends on axioms: [propext, Classical.choice, Quot.sound]
'SplineLib.C114_decreasing' depends on axioms: [propext, Classical.choice, Quot.sound]
'SplineLib.C114_convex' depends on axioms: [propext, Classical.choice, Quot.sound]
'SplineLib.Vtk.C114_vtk' depends on axioms: [propext, Classical.choice, Quot.sound]
'SplineLib.C115_derivative' depends on axioms: [propext, Classical.choice, Quot.sound]
'SplineLib.C115_curve' depends on axioms: [propext, Classical.choice, Quot.sound]
'SplineLib.C115_increasing' depends on axioms: [propext, Classical.choice, Quot.sound]
'SplineLib.C115_convex' depends on axioms: [propext, Classical.choice, Quot.sound]
'SplineLib.C115_nurbs_counterexample' depends on axioms: [propext, Classical.choice, Quot.sound]
'SplineLib.C115_line_derivative' depends on axioms: [propext, Classical.choice, Quot.sound]
'SplineLib.C116_chord' depends on axioms: [propext, Classical.choice, Quot.sound]
'SplineLib.C116_surface' depends on axioms: [propext, Classical.choice, Quot.sound]
'SplineLib.Vtk.C116_vtk' depends on axioms: [propext, Classical.choice, Quot.sound]
'SplineLib.C116_volume' depends on axioms: [propext, Classical.choice, Quot.sound]
'SplineLib.Vtk.C116_vtk_volume' depends on axioms: [propext, Classical.choice, Quot.sound]
