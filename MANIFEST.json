{
 "claims": [
  {
   "property": "C01",
   "status": "proved",
   "theorems": [
    "Verif.Common.C01_zip_sort",
    "Verif.Common.C01_zip_sort_ub"
   ],
   "note": ""
  },
  {
   "property": "C02",
   "status": "proved",
   "theorems": [
    "Verif.Common.C02_complementary_indices"
   ],
   "note": ""
  },
  {
   "property": "C03",
   "status": "proved",
   "theorems": [
    "Verif.Io.C03_pods",
    "Verif.Io.C03_containers",
    "Verif.Io.C03_nested",
    "Verif.Io.C03_back_to_back"
   ],
   "note": ""
  },
  {
   "property": "C04",
   "status": "proved",
   "theorems": [
    "Verif.Io.C04_model",
    "Verif.Io.C04_interpolant",
    "Verif.Io.C04_variogram_set",
    "Verif.Io.C04_reachable_storable"
   ],
   "note": ""
  },
  {
   "property": "C05",
   "status": "partial",
   "theorems": [
    "Verif.Io.C05_empty_file_is_accepted",
    "Verif.Io.C05_variogram_set_never_rejects",
    "Verif.Io.C05_model_tail_not_checked",
    "Verif.Io.C05_model_cut_rejected_partial"
   ],
   "note": "The property as stated is false of the code. Proved: an empty file is accepted, no byte string at all is rejected as a VariogramSet, cuts in the last 12 bytes of a model are accepted; and the true part: a model cut after its first byte and before the end of its last covariance function's name is rejected."
  },
  {
   "property": "C06",
   "status": "proved",
   "theorems": [
    "Verif.Lru.C06_lru_refines_spec",
    "Verif.Lru.C06_lru_bounded",
    "Verif.Lru.C06_lru_capacity_zero",
    "Verif.Lru.C06_lru_find_does_not_refresh"
   ],
   "note": ""
  },
  {
   "property": "C07",
   "status": "proved",
   "theorems": [
    "Verif.BinaryCache.C07_all_calls_correct",
    "Verif.BinaryCache.C07_get_returns_put",
    "Verif.BinaryCache.C07_get_unknown_throws",
    "Verif.BinaryCache.C07_ids_distinct",
    "Verif.BinaryCache.C07_short_write_corrupts"
   ],
   "note": "Under the assumption that the OS performs each write completely; C07_short_write_corrupts shows that without it the claim fails."
  },
  {
   "property": "C08",
   "status": "proved",
   "theorems": [
    "Verif.DisjointSets.C08_groups_are_classes",
    "Verif.DisjointSets.C08_unite_total"
   ],
   "note": ""
  },
  {
   "property": "C09",
   "status": "proved",
   "theorems": [
    "Verif.Graph.C09_build",
    "Verif.Graph.C09_is_connected",
    "Verif.Graph.C09_connected_components",
    "Verif.Graph.C09_is_simple",
    "Verif.Graph.C09_degrees"
   ],
   "note": ""
  },
  {
   "property": "C10",
   "status": "proved",
   "theorems": [
    "Verif.MeshDefects.C10_constructor",
    "Verif.MeshDefects.C10_singular_vertices",
    "Verif.MeshDefects.C10_schedule_independent",
    "Verif.MeshDefects.C10_degenerate_face_reported"
   ],
   "note": ""
  },
  {
   "property": "C11",
   "status": "proved",
   "theorems": [
    "Verif.MeshDefects.C11_intersecting_faces",
    "Verif.MeshDefects.C11_schedule_independent",
    "Verif.MeshDefects.C11_degenerate_faces_overflow"
   ],
   "note": "For faces that are non-degenerate; C11_degenerate_faces_overflow shows that two faces sharing more than three vertex pairs overflow the fixed buffer."
  },
  {
   "property": "C12",
   "status": "proved",
   "theorems": [
    "Verif.RbfModel.C12_cpd_order",
    "Verif.RbfModel.C12_constructor",
    "Verif.RbfModel.C12_degree_invariant"
   ],
   "note": ""
  },
  {
   "property": "C13",
   "status": "proved",
   "theorems": [
    "Verif.RbfModel.C13_make_rbf",
    "Verif.RbfModel.C13_lengths",
    "Verif.RbfModel.C13_set_parameters",
    "Verif.RbfModel.C13_set_own_parameters",
    "Verif.RbfModel.C13_reachable_ok"
   ],
   "note": ""
  },
  {
   "property": "C14",
   "status": "proved",
   "theorems": [
    "Verif.Interpolant.C14_step",
    "Verif.Interpolant.C14_history",
    "Verif.Interpolant.C14_rejected_unchanged",
    "Verif.Interpolant.C14_own_centers_are_lost",
    "Verif.Interpolant.C14_own_grad_centers_are_lost",
    "Verif.Interpolant.C14_own_points_unfitted",
    "Verif.Interpolant.C14_basis_size"
   ],
   "note": ""
  },
  {
   "property": "C15",
   "status": "partial",
   "theorems": [
    "Verif.Interpolant.C15_evaluate_uses_last_fit",
    "Verif.Interpolant.C15_stale_evaluator",
    "Verif.Interpolant.C15_null_evaluator",
    "Verif.Interpolant.C15_two_step_partial"
   ],
   "note": "The one-step evaluate is proved for every history (C15_evaluate_uses_last_fit). The two-step interface violates the property: C15_stale_evaluator, C15_null_evaluator; C15_two_step_partial is what holds for it."
  },
  {
   "property": "C16",
   "status": "proved",
   "theorems": [
    "Verif.Interpolant.C16_warm_start"
   ],
   "note": ""
  },
  {
   "property": "C17",
   "status": "proved",
   "theorems": [
    "Verif.DistanceFilter.C17_greedy_maximal_separated",
    "Verif.DistanceFilter.C17_idempotent",
    "Verif.DistanceFilter.C17_rejects_small",
    "Verif.DistanceFilter.C17_accessors"
   ],
   "note": "The exact search assumed here holds for the code's tree only up to one part in 2^24 of the distance: see C91."
  },
  {
   "property": "C18",
   "status": "proved",
   "theorems": [
    "Verif.Incremental.C18_right_hand_side",
    "Verif.Incremental.C18_warm_start",
    "Verif.Incremental.C18_result",
    "Verif.Incremental.C18_safe",
    "Verif.Incremental.C18_terminates",
    "Verif.Incremental.C18_conflicting_duplicates_never_return",
    "Verif.Incremental.C18_single_large_value_is_ignored"
   ],
   "note": "Exact arithmetic, arbitrary solver and evaluator. C18_conflicting_duplicates_never_return and C18_single_large_value_is_ignored are the two defects named in the statement."
  },
  {
   "property": "C19",
   "status": "partial",
   "theorems": [
    "Verif.Inequality.C19_result_partial",
    "Verif.Inequality.C19_infeasible_never_returns",
    "Verif.Inequality.C19_safe_if_all_points_constrained",
    "Verif.Inequality.C19_unconstrained_point_reads_out_of_bounds",
    "Verif.Inequality.C19_too_few_values_are_ignored",
    "Verif.Inequality.C19_warm_start",
    "Verif.Inequality.C19_worst_offenders_first",
    "Verif.Inequality.C19_worse_offender_passed_over"
   ],
   "note": "Violated as stated: C19_unconstrained_point_reads_out_of_bounds and C19_too_few_values_are_ignored. C19_result_partial is the property for returned fits with enough centers; C19_safe_if_all_points_constrained the case without undefined behaviour. C19_worst_offenders_first: what a pass adds while no bound is active; C19_worse_offender_passed_over: it fails once one is; C19_warm_start: what the next pass starts from."
  },
  {
   "property": "C20",
   "status": "proved",
   "theorems": [
    "Verif.Solver.C20_within_budget",
    "Verif.Solver.C20_returned_weights_fit",
    "Verif.Solver.C20_nan_counts_as_converged"
   ],
   "note": ""
  },
  {
   "property": "C21",
   "status": "proved",
   "theorems": [
    "Verif.Gmres.C21_reported_residual_is_true",
    "Verif.Gmres.C21_residual_is_minimal",
    "Verif.Gmres.C21_residual_never_increases",
    "Verif.Gmres.C21_breakdown_is_exact",
    "Verif.Gmres.C21_no_step_beyond_max_iter",
    "Verif.Gmres.C21_iteration_count",
    "Verif.Gmres.C21_tiny_start_is_misjudged",
    "Verif.Gmres.C21_converges_within_dimension"
   ],
   "note": ""
  },
  {
   "property": "C22",
   "status": "proved",
   "theorems": [
    "Verif.DomainDivider.C22_division",
    "Verif.DomainDivider.C22_round_half_to_even"
   ],
   "note": ""
  },
  {
   "property": "C23",
   "status": "partial",
   "theorems": [
    "Verif.DomainDivider.C23_chooses_requested_points",
    "Verif.DomainDivider.C23_excessive_request_never_returns",
    "Verif.DomainDivider.C23_only_polynomial_points_is_undefined",
    "Verif.DomainDivider.C23_2049_points_hang",
    "Verif.DomainDivider.C23_split_is_balanced"
   ],
   "note": "Violated as stated. Proved: when the loop ends the points are distinct, contain the polynomial points and meet the request; a request beyond the non-polynomial points never returns; a domain with only polynomial points is undefined behaviour; the 2049-point case hangs."
  },
  {
   "property": "C24",
   "status": "proved",
   "theorems": [
    "Verif.FineGrid.C24_schedule_independent",
    "Verif.FineGrid.C24_sweep_over_divided_domains"
   ],
   "note": ""
  },
  {
   "property": "C25",
   "status": "proved",
   "theorems": [
    "Verif.FineGrid.C25_round_trip",
    "Verif.FineGrid.C25_order_two_overlaps",
    "Verif.FineGrid.C25_divided_domains_are_large"
   ],
   "note": "For every order other than 2; C25_order_two_overlaps shows that at order 2 load's memcpy ranges overlap (undefined), and C25_divided_domains_are_large that domain division never produces such orders."
  },
  {
   "property": "C26",
   "status": "partial",
   "theorems": [
    "Verif.FineGrid.C26_interpolates_and_orthogonal",
    "Verif.FineGrid.C26_solution_is_unique",
    "Verif.FineGrid.C26_rows_are_right",
    "Verif.FineGrid.C26_gradient_rows_are_wrong",
    "Verif.FineGrid.C26_gradient_weights_not_orthogonal"
   ],
   "note": "Violated with gradient data on more than one level. Proved: the solve interpolates, is orthogonal and unique whenever the Lagrange rows are those of the subgrid; they are with value data only (or on the full level); the gradient rows are wrong otherwise and the weights then not orthogonal."
  },
  {
   "property": "C27",
   "status": "proved",
   "theorems": [
    "Verif.DirectOp.C27_operator_is_evaluator_plus_nugget",
    "Verif.DirectOp.C27_matrix_is_operator",
    "Verif.DirectOp.C27_matrix_symmetric",
    "Verif.DirectOp.C27_operator_symmetric"
   ],
   "note": ""
  },
  {
   "property": "C28",
   "status": "proved",
   "theorems": [
    "Verif.DirectOp.C28_accuracy_is_respected",
    "Verif.DirectOp.C28_budget_is_tight"
   ],
   "note": ""
  },
  {
   "property": "C29",
   "status": "proved",
   "theorems": [
    "Verif.Variogram.C29_variograms",
    "Verif.Variogram.C29_each_pair_once",
    "Verif.Variogram.C29_directions_within_angle",
    "Verif.Variogram.C29_given_directions_within_angle",
    "Verif.Variogram.C29_automatic_direction",
    "Verif.Variogram.C29_settings_stay_usable",
    "Verif.Variogram.C29_zero_lag_is_undefined"
   ],
   "note": ""
  },
  {
   "property": "C30",
   "status": "proved",
   "theorems": [
    "Verif.Variogram.C30_schedule_independent"
   ],
   "note": ""
  },
  {
   "property": "C31",
   "status": "proved",
   "theorems": [
    "Verif.Kriging.C31_predictions",
    "Verif.Kriging.C31_all_fits_succeeded",
    "Verif.Kriging.C31_no_leak",
    "Verif.Kriging.C31_missing_ids_are_undefined"
   ],
   "note": ""
  },
  {
   "property": "C32",
   "status": "proved",
   "theorems": [
    "Verif.Poly.C32_degree_is_checked",
    "Verif.Poly.C32_residual_is_orthogonal",
    "Verif.Poly.C32_projection"
   ],
   "note": ""
  },
  {
   "property": "C33",
   "status": "partial",
   "theorems": [
    "Verif.Kriging.C33_order_is_checked",
    "Verif.Kriging.C33_back_transform_before_transform",
    "Verif.Kriging.C33_scores_preserve_order",
    "Verif.Kriging.C33_scores_depend_on_ranks_only",
    "Verif.Kriging.C33_fewer_than_two_data_are_undefined",
    "Verif.Kriging.C33_coefficients",
    "Verif.Kriging.C33_back_transform_is_hermite_series",
    "Verif.Kriging.C33_back_transform_gamma"
   ],
   "note": "With at least two data the full property is proved; with fewer than two, transform is undefined behaviour (C33_fewer_than_two_data_are_undefined)."
  },
  {
   "property": "C34",
   "status": "proved",
   "theorems": [
    "Verif.Lattice.C34_directed_edges_unique",
    "Verif.Lattice.C34_closed_inside",
    "Verif.Lattice.C34_faces_on_crossed_edges",
    "Verif.Lattice.C34_all_nodes_mesh",
    "Verif.Lattice.C34_seeded_mesh",
    "Verif.Lattice.C34_indexed_mesh_closed",
    "Verif.Lattice.C34_seeded_whole_components",
    "Verif.Lattice.C34_faces_oriented"
   ],
   "note": ""
  },
  {
   "property": "C35",
   "status": "partial",
   "theorems": [
    "Verif.AbstractMesh.C35_reachable_consistent",
    "Verif.AbstractMesh.C35_opposite_mutual",
    "Verif.AbstractMesh.C35_construct",
    "Verif.AbstractMesh.C35_add_face",
    "Verif.AbstractMesh.C35_flip",
    "Verif.AbstractMesh.C35_insert_in_face",
    "Verif.AbstractMesh.C35_insert_on_edge",
    "Verif.AbstractMesh.C35_insert_on_boundary_edge",
    "Verif.AbstractMesh.C35_insert_on_missing_edge",
    "Verif.AbstractMesh.C35_collapse",
    "Verif.AbstractMesh.C35_collapse_link",
    "Verif.AbstractMesh.C35_walk",
    "Verif.AbstractMesh.C35_halfedges",
    "Verif.AbstractMesh.C35_take_faces",
    "Verif.AbstractMesh.C35_faces_of",
    "Verif.AbstractMesh.C35_rejected_face_is_kept",
    "Verif.AbstractMesh.C35_rejected_face_leaves_links",
    "Verif.AbstractMesh.C35_degenerate_face_accepted",
    "Verif.AbstractMesh.C35_insert_on_pillow_throws"
   ],
   "note": "Everything but the last clause is proved for every history of successful edits on non-degenerate faces. \"Rejected operations leave it unchanged\" is false of the code: C35_rejected_face_is_kept (the rejected face is counted and returned by take_faces) and C35_rejected_face_leaves_links. C35_degenerate_face_accepted and C35_insert_on_pillow_throws show what happens outside the preconditions."
  },
  {
   "property": "C36",
   "status": "proved",
   "theorems": [
    "Verif.SpatialGrid.C36_query_visits_each_candidate_once",
    "Verif.SpatialGrid.C36_broad_phase_complete",
    "Verif.SpatialGrid.C36_any_of"
   ],
   "note": ""
  },
  {
   "property": "C37",
   "status": "proved",
   "theorems": [
    "Verif.Clip.C37_defined",
    "Verif.Clip.C37_in_box",
    "Verif.Clip.C37_region",
    "Verif.Clip.C37_no_overlap",
    "Verif.Clip.C37_no_cracks",
    "Verif.Clip.C37_outside_dropped"
   ],
   "note": "Coordinates are reals. Box containment, no cracks and dropping hold for every arithmetic whose interpolation stays between its arguments (a hypothesis on the rounded interpolation); the region and the absence of overlap in exact arithmetic, for faces of non-zero area. 'Inside' is the open box: C37_outside_dropped shows that a face lying in a side of the closed box is dropped."
  },
  {
   "property": "C38",
   "status": "partial",
   "theorems": [
    "Verif.Iso.C38_call_cleans",
    "Verif.Iso.C38_reusable",
    "Verif.Iso.C38_clear_restores",
    "Verif.Iso.C38_generate",
    "Verif.Iso.C38_no_faces_one_sign",
    "Verif.Iso.C38_entire_iff",
    "Verif.Iso.C38_from_seeds",
    "Verif.Iso.C38_rounded_is_corner",
    "Verif.Iso.C38_seed_tie_throws",
    "Verif.Iso.C38_stale_after_throw"
   ],
   "note": "Exact arithmetic; the mesh steps (clustering, refining, smoothing, snapping, thinning, clipping) are arbitrary functions that may throw. For calls that return, everything is proved: the result, entire exactly when no face is left and the interpolated field is below the isovalue (at the box centre, or the first seed point), one sign in the whole box when no surface was found, and reuse after any history. The clause 'a later call does not depend on earlier ones' is false after a call that threw: C38_stale_after_throw (a retry returns a wrong mesh; clear() restores). C38_seed_tie_throws: if lattice coordinates of the first seed are exactly halfway, the seeded call throws instead of returning an empty mesh. Positions of stale vertices after an exception are not modelled."
  },
  {
   "property": "C39",
   "status": "proved",
   "theorems": [
    "Verif.Bbox.C39_hull_semilattice",
    "Verif.Bbox.C39_hull_least",
    "Verif.Bbox.C39_empty_contains_nothing",
    "Verif.Bbox.C39_from_points",
    "Verif.Bbox.C39_from_points_append",
    "Verif.Bbox.C39_corners",
    "Verif.Bbox.C39_center",
    "Verif.Bbox.C39_transform",
    "Verif.Bbox.C39_transformed_empty_box_is_not_empty"
   ],
   "note": "C39_transformed_empty_box_is_not_empty is a defect: transforming an empty box gives a NaN box which is_empty() does not recognise; the transform claim holds for non-empty boxes."
  },
  {
   "property": "C40",
   "status": "proved",
   "theorems": [
    "Verif.Table.C40_read",
    "Verif.Table.C40_comment_ignored",
    "Verif.Table.C40_wrong_width_skipped",
    "Verif.Table.C40_leading_blank_line_drops_the_rows",
    "Verif.Table.C40_round_trip",
    "Verif.Table.C40_empty_table",
    "Verif.Table.C40_carriage_return"
   ],
   "note": "C40_leading_blank_line_drops_the_rows: the width is taken from the first non-comment line, so a leading blank line silently drops every row."
  },
  {
   "property": "C41",
   "status": "proved",
   "theorems": [
    "Verif.Kernel.C41_gradient",
    "Verif.Kernel.C41_hessian",
    "Verif.Kernel.C41_no_hessian",
    "Verif.Kernel.C41_not_finite_at_origin",
    "Verif.Kernel.C41_even_hessian_nan",
    "Verif.Kernel.C41_even_hessian_nan_reachable",
    "Verif.Kernel.C41_gradient_at_origin",
    "Verif.Kernel.C41_hessian_at_origin",
    "Verif.Kernel.C41_spheroidal_gradient",
    "Verif.Kernel.C41_spheroidal_hessian",
    "Verif.Kernel.C41_polyharmonic_values",
    "Verif.Kernel.C41_polyharmonic_signs"
   ],
   "note": "Exact arithmetic. For the spheroidal functions the rounded derived constants give relative errors of at most 4e-16 (proved). C41_even_hessian_nan is a defect: NaN Hessian of even polyharmonic functions where 1 + K log rho = 0 although the function is smooth there."
  },
  {
   "property": "C42",
   "status": "proved",
   "theorems": [
    "Verif.Kernel.C42_even",
    "Verif.Kernel.C42_at_origin",
    "Verif.Kernel.C42_bounds",
    "Verif.Kernel.C42_support",
    "Verif.Kernel.C42_spheroidal_sum",
    "Verif.Kernel.C42_pieces_meet"
   ],
   "note": ""
  },
  {
   "property": "C43",
   "status": "proved",
   "theorems": [
    "Verif.Poly.C43_basis_size",
    "Verif.Poly.C43_basis_complete",
    "Verif.Poly.C43_gradient_rows",
    "Verif.Poly.C43_matrix_layout"
   ],
   "note": ""
  },
  {
   "property": "C44",
   "status": "proved",
   "theorems": [
    "Verif.Poly.C44_cardinal_and_reproducing",
    "Verif.Poly.C44_throws_iff_not_unisolvent"
   ],
   "note": ""
  },
  {
   "property": "C45",
   "status": "proved",
   "theorems": [
    "Verif.Orth.C45_orthonormalize",
    "Verif.Orth.C45_dependent_columns_give_nan"
   ],
   "note": ""
  },
  {
   "property": "C46",
   "status": "proved",
   "theorems": [
    "Verif.Normals.C46_before_estimation",
    "Verif.Normals.C46_direction",
    "Verif.Normals.C46_point",
    "Verif.Normals.C46_filter",
    "Verif.Normals.C46_closed_surface",
    "Verif.Normals.C46_bad_arguments",
    "Verif.Normals.C46_knn",
    "Verif.Normals.C46_knn_few_points",
    "Verif.Normals.C46_radius",
    "Verif.Normals.C46_smaller_radius_undefined",
    "Verif.Normals.C46_history"
   ],
   "note": "C46_smaller_radius_undefined: with several radii, a point with three neighbours only within the larger one makes estimate_with_radius read out of bounds."
  },
  {
   "property": "C47",
   "status": "proved",
   "theorems": [
    "Verif.Sdf.C47_result",
    "Verif.Sdf.C47_ends",
    "Verif.Sdf.C47_arguments",
    "Verif.Sdf.C47_anisotropic",
    "Verif.Sdf.C47_anisotropic_ends",
    "Verif.Sdf.C47_directions",
    "Verif.Sdf.C47_value_scales",
    "Verif.Sdf.C47_duplicate_point_gives_nan",
    "Verif.Sdf.C47_long_normals_never_end"
   ],
   "note": "Assumes unit normals and distinct points where stated; C47_duplicate_point_gives_nan and C47_long_normals_never_end show what happens without."
  },
  {
   "property": "C48",
   "status": "proved",
   "theorems": [
    "Verif.RandomPoints.C48_cuboid",
    "Verif.RandomPoints.C48_cuboid_onto",
    "Verif.RandomPoints.C48_sphere",
    "Verif.RandomPoints.C48_sphere_ends"
   ],
   "note": ""
  },
  {
   "property": "C49",
   "status": "proved",
   "theorems": [
    "Verif.Unisolvent.C49_result",
    "Verif.Unisolvent.C49_valid",
    "Verif.Unisolvent.C49_negative_degree",
    "Verif.Unisolvent.C49_too_few_points_never_ends",
    "Verif.Unisolvent.C49_ends"
   ],
   "note": ""
  },
  {
   "property": "C50",
   "status": "partial",
   "theorems": [
    "Verif.FmmConfig.C50_search",
    "Verif.FmmConfig.C50_infinite_accuracy",
    "Verif.FmmConfig.C50_zero_accuracy_is_not_checked",
    "Verif.FmmConfig.C50_unreachable_accuracy",
    "Verif.FmmConfig.C50_sample"
   ],
   "note": "Violated for a requested accuracy of exactly 0 (C50_zero_accuracy_is_not_checked: no error is compared and the first configuration is returned); proved for every other accuracy."
  },
  {
   "property": "C51",
   "status": "proved",
   "theorems": [
    "Verif.Bits.C51_count_peek",
    "Verif.Bits.C51_pop",
    "Verif.Bits.C51_drain",
    "Verif.Bits.C51_drain_fuel"
   ],
   "note": ""
  },
  {
   "property": "C52",
   "status": "proved",
   "theorems": [
    "Verif.Common.C52_concatenate_rows",
    "Verif.Common.C52_concatenate_cols"
   ],
   "note": ""
  },
  {
   "property": "C53",
   "status": "proved",
   "theorems": [
    "Verif.Bits.C53_node_is_map",
    "Verif.Bits.C53_reachable"
   ],
   "note": ""
  },
  {
   "property": "C54",
   "status": "proved",
   "theorems": [
    "Verif.Fmm.C54_direct_regime",
    "Verif.Fmm.C54_fast_regime",
    "Verif.Fmm.C54_configuration",
    "Verif.Fmm.C54_retry_does_not_throw",
    "Verif.Fmm.C54_support_radius",
    "Verif.Fmm.C54_sum_of_parts",
    "Verif.Fmm.C54_symmetric"
   ],
   "note": "C54_retry_does_not_throw is a defect: after a configuration search has thrown, the next evaluate uses the unusable configuration silently."
  },
  {
   "property": "C55",
   "status": "proved",
   "theorems": [
    "Verif.Predicates.C55_same_corners_not_reported",
    "Verif.Predicates.C55_common_edge_not_reported",
    "Verif.Predicates.C55_common_corner_not_reported",
    "Verif.Predicates.C55_segment_triangle",
    "Verif.Predicates.C55_triangle_triangle",
    "Verif.Predicates.C55_faces",
    "Verif.Predicates.C55_intersecting_faces",
    "Verif.Predicates.C55_reported_is_near",
    "Verif.Predicates.C55_exact",
    "Verif.Predicates.C55_folded_exact",
    "Verif.Predicates.C55_flat_wall_is_reported"
   ],
   "note": "Rounding is not modelled. C55_flat_wall_is_reported is a defect found: the two triangles of a plane rectangle on a wall at 45 degrees (wider than high) are reported as intersecting."
  },
  {
   "property": "C56",
   "status": "proved",
   "theorems": [
    "Verif.PrimLattice.Prim.C56_ranges_cover",
    "Verif.PrimLattice.Prim.C56_all_nodes",
    "Verif.PrimLattice.Prim.C56_missing_plane_undefined",
    "Verif.PrimLattice.Prim.C56_loop_undefined",
    "Verif.PrimLattice.Prim.C56_no_hole_inside",
    "Verif.PrimLattice.Prim.C56_seeded_no_hole_inside"
   ],
   "note": "Exact arithmetic. C56_missing_plane_undefined and C56_loop_undefined are a defect found: for planes of the lattice that miss the extended box the code converts an infinity to int, which is undefined behaviour; C56_all_nodes holds whatever the ranges are on those planes."
  },
  {
   "property": "C57",
   "status": "proved",
   "theorems": [
    "Verif.PrimLattice.Prim.C57_rounded_position",
    "Verif.PrimLattice.Prim.C57_clamp_to_node",
    "Verif.PrimLattice.Prim.C57_tetrahedron_contains",
    "Verif.PrimLattice.Prim.C57_near_nodes_sampled",
    "Verif.PrimLattice.Prim.C57_lattice_positive"
   ],
   "note": "Exact arithmetic."
  },
  {
   "property": "C58",
   "status": "partial",
   "theorems": [
    "Verif.Ras.C58_is_sweep",
    "Verif.Ras.C58_side_conditions",
    "Verif.Ras.C58_single_level_is_inverse",
    "Verif.Ras.C58_coarse_values",
    "Verif.Ras.C58_linear",
    "Verif.Ras.C58_levels",
    "Verif.Ras.C58_coarse_counts",
    "Verif.Ras.C58_constructor_levels",
    "Verif.Ras.C58_constructor_hangs",
    "Verif.Ras.C58_constructor_builds",
    "Verif.Ras.C58_coarse_grid_solves",
    "Verif.Ras.C58_coarse_grid_linear"
   ],
   "note": "Exact arithmetic; evaluators return exact sums (C27, C54), factorisations are assumed to solve their systems. C58_constructor_hangs is a defect found: for 2048 < rows < 2048 + number of polynomial points the constructor never returns (in floating point the request may be 2047, which shifts the bound by one). C58_coarse_values: with a nugget and several levels the residuals passed between levels leave the nugget out, so that the system is missed by nugget * weights; without nugget the coarse values are reproduced. With gradient data on several levels the coarse grid reads wrong Lagrange rows (C26), so that CoarseSolves fails there. Zero rows (log 0) are not considered."
  },
  {
   "property": "C59",
   "status": "proved",
   "theorems": [
    "Verif.ClosestPoint.C59_closest_is_nearest",
    "Verif.ClosestPoint.C59_not_finite_iff",
    "Verif.ClosestPoint.C59_distance",
    "Verif.ClosestPoint.C59_closest_independent_of_corner_order"
   ],
   "note": ""
  },
  {
   "property": "C60",
   "status": "proved",
   "theorems": [
    "Verif.Thinner.C60_thin",
    "Verif.Thinner.C60_honored",
    "Verif.Thinner.C60_boundary",
    "Verif.Thinner.C60_base_faces",
    "Verif.Thinner.C60_no_more",
    "Verif.Thinner.C60_nothing_to_do"
   ],
   "note": "Exact arithmetic; anisotropy is an arbitrary injective map. Crossings: a merge adds none between a retargeted face and a face outside the star (C55); two faces retargeted by the same merge are not tested against each other by the code, and this is said in Collapse.crossing. The choice of the least distorting merge is modelled but not claimed."
  },
  {
   "property": "C61",
   "status": "proved",
   "theorems": [
    "Verif.Smoother.C61_smooth",
    "Verif.Smoother.C61_settled",
    "Verif.Smoother.C61_flatter",
    "Verif.Smoother.C61_honored",
    "Verif.Smoother.C61_boundary"
   ],
   "note": "Exact arithmetic. The two faces made by one flip are not tested against each other (the comment in the code that a sibling call covers this is inaccurate); the end state is one in which every edge has been examined after the last change near it (Settled), not a proved local minimum of the bend."
  },
  {
   "property": "C62",
   "status": "proved",
   "theorems": [
    "Verif.Triangulation.C62_too_few",
    "Verif.Triangulation.C62_topology",
    "Verif.Triangulation.C62_ears",
    "Verif.Triangulation.C62_area",
    "Verif.Triangulation.C62_covers",
    "Verif.Triangulation.C62_tiles",
    "Verif.Triangulation.C62_orientation",
    "Verif.Triangulation.C62_convex",
    "Verif.Triangulation.C62_points",
    "Verif.Triangulation.C62_inside_used",
    "Verif.Triangulation.C62_delaunay",
    "Verif.Triangulation.C62_short_labels"
   ],
   "note": "Topology: for arbitrary computed values of the predicates. Geometry: exact arithmetic. That every simple (non-convex) polygon has ears at each step (two-ears theorem) is not proved: simple() may be false for it only if clipping really got stuck (C62_ears). The orientation of the last ear and of the two halves of a neighbour when a point is put on an edge is unchecked by the code: C62_orientation excludes one face and asks for interior points in general position. The documentation promises a fan when simple() is false, the code returns no faces. NaN not modelled."
  },
  {
   "property": "C63",
   "status": "proved",
   "theorems": [
    "Verif.Snapper.C63_ends",
    "Verif.Snapper.C63_crossing",
    "Verif.Snapper.C63_embedded",
    "Verif.Snapper.C63_vertices",
    "Verif.Snapper.C63_closed",
    "Verif.Snapper.C63_parts",
    "Verif.Snapper.C63_stats",
    "Verif.Snapper.C63_nothing_to_do",
    "Verif.Snapper.C63_refused",
    "Verif.Snapper.C63_exceptions",
    "Verif.Snapper.C63_sides"
   ],
   "note": "Exact arithmetic; the anisotropy is a matrix. Crossing is tested with C55's predicates, so only faces with three different corners are covered. A distance to a triangle whose first two corners coincide is not finite in some cases (C59): the counts say 'Proper' there. Tolerances zero or positive. Interior points may be dropped when a patch is triangulated again (within 1e-9 of an edge) and be inserted a second time; a point queued twice can be inserted and then have a vertex moved onto it: both show up as bad_alloc/out_of_range of the intersection test at worst (C63_exceptions), or as coinciding rows. That every point within reach is honored is not claimed (placements may fail; the counts tell)."
  },
  {
   "property": "C64",
   "status": "proved",
   "theorems": [
    "Verif.Refiner.C64_steps",
    "Verif.Refiner.C64_faces",
    "Verif.Refiner.C64_vertices",
    "Verif.Refiner.C64_bounded",
    "Verif.Refiner.C64_affine",
    "Verif.Refiner.C64_crossing",
    "Verif.Refiner.C64_embedded",
    "Verif.Refiner.C64_upright",
    "Verif.Refiner.C64_exceptions",
    "Verif.Refiner.C64_total",
    "Verif.Refiner.C64_refused",
    "Verif.Refiner.C64_empty",
    "Verif.Refiner.C64_throws"
   ],
   "note": "Exact arithmetic; the field is an arbitrary function from lists of points to lists of values (exceptions thrown by it are not modelled), the anisotropy a linear map. Crossing is tested with C55's predicates, so only faces with three different corners are covered. Two things are false of the code and proved so: C64_throws (a vertex that should move exactly onto another corner makes the intersection test throw std::out_of_range on a valid embedded mesh) and the second half of C64_empty (the mesh that stands for the whole space comes back as an empty mesh that does not)."
  },
  {
   "property": "C65",
   "status": "proved",
   "theorems": [
    "Verif.Clusterer.C65_rounds",
    "Verif.Clusterer.C65_result",
    "Verif.Clusterer.C65_refused",
    "Verif.Clusterer.C65_corners",
    "Verif.Clusterer.C65_edges",
    "Verif.Clusterer.C65_closed",
    "Verif.Clusterer.C65_no_singular",
    "Verif.Clusterer.C65_manifold",
    "Verif.Clusterer.C65_intersections",
    "Verif.Clusterer.C65_embedded",
    "Verif.Clusterer.C65_snap_safe",
    "Verif.Clusterer.C65_snap_safe_isotropic",
    "Verif.Clusterer.C65_strip",
    "Verif.Clusterer.C65_tetra"
   ],
   "note": "Exact arithmetic; the anisotropy and its inverse are arbitrary maps, Eigen's symmetric eigenvalue solver is an arbitrary function that meets its contract (C65_rounds only; exists_eigen shows that there is one). Hypotheses: the corners of every given face are in three different places, and merged vertices survive snapping to the box within their cells (SnapSafe; C65_snap_safe, C65_snap_safe_isotropic give sufficient conditions). Intersection means the code's test, which finds every crossing (C55). Unreferenced vertices may remain in the result (vertices of collapsed faces). The cell numbers of the grid are unbounded integers."
  },
  {
   "property": "C66",
   "status": "proved",
   "theorems": [
    "Verif.Pipeline.C66_generate",
    "Verif.Pipeline.C66_from_seeds",
    "Verif.Pipeline.C66_after",
    "Verif.Pipeline.C66_dip"
   ],
   "note": "Exact arithmetic. Composition of the models of all mesh steps (a step that throws or does not end gives no mesh, about which nothing is claimed). 'Does not reach' means that the lattice points with a neighbour outside the extended box are all on one side of the isovalue. C66_dip is a complete call that returns a mesh."
  },
  {
   "property": "C67",
   "status": "proved",
   "theorems": [
    "Verif.Pipeline.C67_generate",
    "Verif.Pipeline.C67_from_seeds",
    "Verif.Pipeline.C67_after",
    "Verif.Pipeline.C67_definite",
    "Verif.Pipeline.C67_midpoint",
    "Verif.Pipeline.C67_dips"
   ],
   "note": "Exact arithmetic. Hypotheses: lattice and transformation are made from one anisotropy with positive determinant (Made), box and margin are wider than the distance of snapping, 1e-10 of the resolution (Roomy), and every raw vertex is nearest to an end of its lattice edge (Definite; C67_definite gives a sufficient condition, C67_midpoint shows that it can fail). C67_dips is a complete call with an open surface that returns a mesh. With snap points the statement is not claimed: a boundary vertex can be moved onto a snap point inside the box."
  },
  {
   "property": "C68",
   "status": "proved",
   "theorems": [
    "Verif.Plane.C68_few_points",
    "Verif.Plane.C68_errors",
    "Verif.Plane.C68_best",
    "Verif.Plane.C68_factor",
    "Verif.Plane.C68_flat",
    "Verif.Plane.C68_knn",
    "Verif.Plane.C68_radius"
   ],
   "note": ""
  },
  {
   "property": "C69",
   "status": "proved",
   "theorems": [
    "Verif.Minres.C69_same_as_gmres",
    "Verif.Minres.C69_orthonormal",
    "Verif.Minres.C69_reported_residual_is_true",
    "Verif.Minres.C69_residual_is_minimal",
    "Verif.Minres.C69_converges_within_dimension",
    "Verif.Minres.C69_no_step_beyond_max_iter",
    "Verif.Minres.C69_unsymmetric_is_misjudged"
   ],
   "note": "Exact arithmetic. SymmetricOp: the right preconditioner is linear and left\u2218op\u2218right is symmetric for the inner product. C69_unsymmetric_is_misjudged is the failure for an operator that is not."
  },
  {
   "property": "C70",
   "status": "proved",
   "theorems": [
    "Verif.FmmKernel.C70_kernels",
    "Verif.FmmKernel.C70_not_finite",
    "Verif.FmmKernel.C70_first_derivatives",
    "Verif.FmmKernel.C70_second_derivatives",
    "Verif.FmmKernel.C70_mutual",
    "Verif.FmmKernel.C70_hessian_symmetric",
    "Verif.FmmKernel.C70_batch",
    "Verif.FmmKernel.C70_wide_batch_throws"
   ],
   "note": "All four kernels, scalar and batched, for arbitrary anisotropy; derivatives are Frechet derivatives of the covariance (C41)."
  },
  {
   "property": "C71",
   "status": "proved",
   "theorems": [
    "Verif.Evaluator.C71_evaluator",
    "Verif.Evaluator.C71_rounded_radius",
    "Verif.Evaluator.C71_no_sources"
   ],
   "note": "Direct regime (source*target pairs below 1024^2) as in C54; the fast method itself is not modelled. Hypothesis Searchable says the float rounding of the squared support radius does not go down; C71_rounded_radius shows what happens otherwise."
  },
  {
   "property": "C72",
   "status": "proved",
   "theorems": [
    "Verif.Operator.C72_operator",
    "Verif.Operator.C72_symmetric_evaluator",
    "Verif.Operator.C72_fast_regime",
    "Verif.Operator.C72_hessian_throws"
   ],
   "note": "Exact arithmetic; the fast method itself is an arbitrary function (C72_fast_regime says what is read from it), sizes below 1024 use direct sums. AllFinite: derivatives entering the matrix are finite (otherwise the entries are NaN). Exceptions inside OpenMP loops (Hessian of spherical/cubic between two gradient points) terminate the program and are not modelled; the self interaction's exception is (C72_hessian_throws)."
  },
  {
   "property": "C73",
   "status": "proved",
   "theorems": [
    "Verif.VariogramFitting.C73_residual",
    "Verif.VariogramFitting.C73_reported_is_minimised",
    "Verif.VariogramFitting.C73_model",
    "Verif.VariogramFitting.C73_anisotropy_discarded",
    "Verif.VariogramFitting.C73_fitted",
    "Verif.VariogramFitting.C73_zero_parameter_fails",
    "Verif.VariogramFitting.C73_weight",
    "Verif.VariogramFitting.C73_predefined_weights",
    "Verif.VariogramFitting.C73_semivariance_bounds",
    "Verif.VariogramFitting.C73_anisotropy_2d",
    "Verif.VariogramFitting.C73_anisotropy_3d",
    "Verif.VariogramFitting.C73_optimal"
   ],
   "note": "Ceres is an arbitrary function from initial to final blocks; doubles are finite real numbers, NaN parameters and rounding are not modelled; that Ceres respects bounds and finds the minimum are hypotheses of C73_model / C73_optimal. Findings: the anisotropy of the given model is discarded (C73_anisotropy_discarded); polyharmonic functions with the default second parameter 0 are never fitted (C73_zero_parameter_fails)."
  },
  {
   "property": "C74",
   "status": "proved",
   "theorems": [
    "Verif.Pipeline.C74_samples",
    "Verif.Pipeline.C74_generate",
    "Verif.Pipeline.C74_from_seeds",
    "Verif.Pipeline.C74_unrefined",
    "Verif.Pipeline.C74_after"
   ],
   "note": "Fld.fails models a field function throwing for a batch of lattice points; a field function throwing during refinement is not modelled (refinement's field is total). The samples of the refinement may leave the announced box by a thousandth of the resolution."
  },
  {
   "property": "C75",
   "status": "proved",
   "theorems": [
    "Verif.FmmBox.C75_cube",
    "Verif.FmmBox.C75_points",
    "Verif.FmmBox.C75_interpolant",
    "Verif.FmmBox.C75_announced",
    "Verif.FmmBox.C75_samples_leave",
    "Verif.FmmBox.C75_mesh",
    "Verif.FmmBox.C75_mesh25",
    "Verif.FmmBox.C75_thick",
    "Verif.FmmBox.C75_height",
    "Verif.FmmBox.C75_height_mono",
    "Verif.FmmBox.C75_height_used"
   ],
   "note": "Rounding of doubles is not modelled: the margin of half a percent on each side absorbs it for coordinates of moderate size relative to the width. What ScalFMM does with points outside of its cube is not modelled. C75_samples_leave shows that the condition on the width is needed for refinement samples."
  },
  {
   "property": "C76",
   "status": "proved",
   "theorems": [
    "Verif.Description.C76_decompose",
    "Verif.Description.C76_row1",
    "Verif.Description.C76_row2",
    "Verif.Description.C76_row3",
    "Verif.Description.C76_refused",
    "Verif.Description.C76_description1",
    "Verif.Description.C76_description2",
    "Verif.Description.C76_description3",
    "Verif.Description.C76_total",
    "Verif.Description.C76_faithful"
   ],
   "note": "Real arithmetic, columns as numbers: formatting to four decimals is not modelled (an angle just below 180 or 360 prints as 180.0000 or 360.0000), and with doubles a tiny negative angle plus 180 rounds to 180. Eigen's solver and canonicalEulerAngles enter by what they promise (IsSolver, IsEuler), both proved satisfiable. A range of zero, which the parameter bounds allow, is excluded (Proper)."
  },
  {
   "property": "C77",
   "status": "proved",
   "theorems": [
    "Verif.MakeModel.C77_tokens",
    "Verif.MakeModel.C77_meaning",
    "Verif.MakeModel.C77_unambiguous",
    "Verif.MakeModel.C77_refused",
    "Verif.MakeModel.C77_expressible"
   ],
   "note": "numeral conversion (fast_float) and the determinant are parameters. Splitting the command line into options is Boost's and not modelled; finding by reading: fit, cross-validate and fit-model-to-variogram look for the literal argument --model, so that --model=FILE, which Boost accepts, still makes --rbf required. Infinite or NaN parameters cannot be written (inf is read as a name)."
  },
  {
   "property": "C78",
   "status": "proved",
   "theorems": [
    "Verif.Obj.C78_round_trip",
    "Verif.Obj.C78_faithful",
    "Verif.Obj.C78_flags"
   ],
   "note": "numeric::to_string and reading back are a parameter with the promise Num.Ok (round trip, no blanks). A file that cannot be opened throws and is not modelled; a write error (full disk) goes unnoticed by export_obj, which never looks at the stream again."
  },
  {
   "property": "C79",
   "status": "proved",
   "theorems": [
    "Verif.Cli.C79_unique",
    "Verif.Cli.C79_nothing_to_do",
    "Verif.Cli.C79_idempotent",
    "Verif.Cli.C79_refused",
    "Verif.Cli.C79_narrow_table"
   ],
   "note": "The kd-tree is a parameter that finds exactly the points within the radius (SearchOk); distances are real, so NaN coordinates are outside of the model. Boost's parsing of the command line and file opening are not modelled. A table narrower than the dimension is undefined behaviour (C79_narrow_table)."
  },
  {
   "property": "C80",
   "status": "proved",
   "theorems": [
    "Verif.Cli.C80_evaluate",
    "Verif.Cli.C80_cross_validate",
    "Verif.Cli.C80_refused",
    "Verif.Cli.C80_bad_set",
    "Verif.Cli.C80_wrong_count"
   ],
   "note": "The layout of Interpolant::evaluate (values, then gradients point by point) is a hypothesis here; it is what C71 proves of the evaluator. Set numbers are cast to int: 1.2 and 1.9 are the same set, NaN is undefined. Tables with too few columns are undefined behaviour (second half of C80_refused)."
  },
  {
   "property": "C81",
   "status": "proved",
   "theorems": [
    "Verif.ShowVariogram.C81_angles",
    "Verif.ShowVariogram.C81_azimuth_360",
    "Verif.ShowVariogram.C81_omnidirectional",
    "Verif.ShowVariogram.C81_flat",
    "Verif.ShowVariogram.C81_overview",
    "Verif.ShowVariogram.C81_listing",
    "Verif.ShowVariogram.C81_other_ids"
   ],
   "note": "Real arithmetic; std::format enters as rounding to k decimals (Prints). Violations proved: C81_flat (dimension one and two: undefined behaviour, although --dim 1|2|3 is offered), C81_azimuth_360 (the azimuth can be 360, not only below), C81_omnidirectional (the omnidirectional variogram prints like the one to the north), second half of C81_other_ids (no bins: undefined)."
  },
  {
   "property": "C82",
   "status": "proved",
   "theorems": [
    "Verif.ShowVariogram.C82_best",
    "Verif.ShowVariogram.C82_no_trial",
    "Verif.ShowVariogram.C82_more_trials"
   ],
   "note": "Trials are given by the model and cost each fit ends with (VariogramFitting is C73); a trial that throws ends the command and is left out. That the given model is saved silently if nothing could be fitted is C82_no_trial."
  },
  {
   "property": "C83",
   "status": "proved",
   "theorems": [
    "Verif.NormalsToSdf.C83_rows",
    "Verif.NormalsToSdf.C83_count",
    "Verif.NormalsToSdf.C83_ends",
    "Verif.NormalsToSdf.C83_anisotropic",
    "Verif.NormalsToSdf.C83_ratio"
   ],
   "note": "Without --aniso: C83_rows, C83_count, C83_ends; with it: C83_anisotropic (for any lengths of normals). Real arithmetic: a normal with an infinite or NaN component times zero is NaN in the program, not zero, and is then not skipped. Reading and writing of the table as in C79/C80. std::shuffle is any permutation."
  },
  {
   "property": "C84",
   "status": "proved",
   "theorems": [
    "Verif.FitCommand.C84_fit",
    "Verif.FitCommand.C84_reduce",
    "Verif.FitCommand.C84_inequality",
    "Verif.FitCommand.C84_evaluate",
    "Verif.FitCommand.C84_evaluate_refused",
    "Verif.FitCommand.C84_reproduces",
    "Verif.FitCommand.C84_models",
    "Verif.FitCommand.C84_refused",
    "Verif.FitCommand.C84_ignored",
    "Verif.FitCommand.C84_narrow_table"
   ],
   "note": "The commands as functions from file contents to file contents. Fitters and evaluator are parameters with the contracts of C14 (fitters return the right number of weights; indices in range and different) and of C71 (the evaluator is a function of the point). C84_ignored and C84_narrow_table record two behaviours of the code: --reduce has no effect with --ineq, and missing columns are undefined behaviour."
  },
  {
   "property": "C85",
   "status": "proved",
   "theorems": [
    "Verif.EstimateNormals.C85_conflict",
    "Verif.EstimateNormals.C85_knn",
    "Verif.EstimateNormals.C85_radius",
    "Verif.EstimateNormals.C85_few",
    "Verif.EstimateNormals.C85_refused",
    "Verif.EstimateNormals.C85_then_sdf",
    "Verif.EstimateNormals.C85_threshold_one"
   ],
   "note": "C85_threshold_one proves that the documented way to disable filtering (--threshold 1.0) zeroes the normals of a concrete cloud for every singular value decomposition."
  },
  {
   "property": "C86",
   "status": "proved",
   "theorems": [
    "Verif.SeedTracking.C86_rings",
    "Verif.SeedTracking.C86_tracking_ends",
    "Verif.SeedTracking.C86_order_of_seeds",
    "Verif.SeedTracking.C86_finds_surface",
    "Verif.SeedTracking.C86_step",
    "Verif.SeedTracking.C86_false_minimum",
    "Verif.SeedTracking.C86_from_seeds"
   ],
   "note": "C86_tracking_ends (termination, no missing value), C86_rings, C86_step (one seed), C86_order_of_seeds, C86_finds_surface (no false minimum: reaches and follows the surface), C86_false_minimum (a seed at a false minimum finds nothing), C86_from_seeds (for the real lattice, composed with C38_from_seeds; as there, the first seed point must not lie halfway between nodes in two directions). Exact arithmetic; the gradient direction is any function of the node."
  },
  {
   "property": "C87",
   "status": "proved",
   "theorems": [
    "Verif.IsoCommand.C87_closed",
    "Verif.IsoCommand.C87_open",
    "Verif.IsoCommand.C87_no_surface",
    "Verif.IsoCommand.C87_reversed_bbox",
    "Verif.IsoCommand.C87_refused",
    "Verif.IsoCommand.C87_narrow_table",
    "Verif.IsoCommand.C87_surface_25d",
    "Verif.IsoCommand.C87_25d_no_surface",
    "Verif.IsoCommand.C87_25d_refused"
   ],
   "note": "Both commands from the contents of their files to the contents of the OBJ file. That a file is written is proved where there is no surface (C87_no_surface, C87_25d_no_surface); where there is one, the steps on the mesh may throw (see C63-C65 for when), and the theorems are about a file that is written. Fuel bounds the while loops of the tracking; it suffices from some number on (C86). Exact arithmetic; the interpolant is an arbitrary real function, the conversions between numbers and reals are arbitrary."
  },
  {
   "property": "C88",
   "status": "proved",
   "theorems": [
    "Verif.OffsetSurface.C88_border",
    "Verif.OffsetSurface.C88_border_order",
    "Verif.OffsetSurface.C88_distance",
    "Verif.OffsetSurface.C88_closed",
    "Verif.OffsetSurface.C88_inside",
    "Verif.OffsetSurface.C88_edge",
    "Verif.OffsetSurface.C88_sharp_edge",
    "Verif.OffsetSurface.C88_sides"
   ],
   "note": "Exact arithmetic; the tree and barycentric coordinates of libigl are parameters assumed to give a nearest point of the mesh; the sign of a negative zero is not modelled; faces have an area. Defects proved: C88_sharp_edge, C88_border_order."
  },
  {
   "property": "C89",
   "status": "proved",
   "theorems": [
    "Verif.Variogram.C89_every_direction_is_close",
    "Verif.Variogram.C89_automatic",
    "Verif.Variogram.C89_tolerance",
    "Verif.Variogram.C89_tolerance_wraps"
   ],
   "note": "Real arithmetic; the decimals of the tables are taken exactly. Defect proved: C89_tolerance_wraps."
  },
  {
   "property": "C90",
   "status": "proved",
   "theorems": [
    "Verif.VariogramCommand.C90_pairs",
    "Verif.VariogramCommand.C90_well_formed",
    "Verif.VariogramCommand.C90_settings",
    "Verif.VariogramCommand.C90_command",
    "Verif.VariogramCommand.C90_refused"
   ],
   "note": "Real arithmetic; parsing of the command line (Boost) and files that cannot be opened are left out. ldlt().solve, std::sort, maxCoeff and the normal quantile are assumed to meet their contracts."
  },
  {
   "property": "C91",
   "status": "proved",
   "theorems": [
    "Verif.KdTree.C91_radius_search",
    "Verif.KdTree.C91_knn_search",
    "Verif.KdTree.C91_arguments",
    "Verif.KdTree.C91_threads",
    "Verif.KdTree.C91_distance_filter",
    "Verif.KdTree.C91_filter_keeps_near_points"
   ],
   "note": "flann's index is assumed exact in real arithmetic (checks unlimited, no approximation); the rounding of double arithmetic in r*r and in the distances is left out, that of the conversion to float is modelled."
  },
  {
   "property": "C92",
   "status": "proved",
   "theorems": [
    "Verif.Main.C92_dispatch",
    "Verif.Main.C92_no_command",
    "Verif.Main.C92_success",
    "Verif.Main.C92_status",
    "Verif.Main.C92_crash",
    "Verif.Main.C92_disk_full",
    "Verif.Main.C92_unique_in_place"
   ],
   "note": "Boost's parser and the computations are parameters (for these see C77 - C90); what is printed is left out. Bytes reach the disk in order; a system that loses or reorders writes in a crash of the machine is not modelled."
  },
  {
   "property": "C93",
   "status": "proved",
   "theorems": [
    "Verif.PythonObjects.C93_attributes_safe",
    "Verif.PythonObjects.C93_field_function",
    "Verif.PythonObjects.C93_copy",
    "Verif.PythonObjects.C93_model_alias",
    "Verif.PythonObjects.C93_field_function_dangles",
    "Verif.PythonObjects.C93_array",
    "Verif.PythonObjects.C93_array_dangles"
   ],
   "note": "CPython's reference counts and pybind11's policies are modelled as documented. Of the other classes of the binding, those without references to objects are left out; other fields of the model besides one parameter value are not told apart."
  }
 ]
}