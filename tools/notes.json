{
 "C05": {
  "status": "partial",
  "note": "The property as stated is false of the code. Proved: an empty file is accepted, no byte string at all is rejected as a VariogramSet, cuts in the last 12 bytes of a model are accepted; and the true part: a model cut after its first byte and before the end of its last covariance function's name is rejected."
 },
 "C07": {
  "note": "Under the assumption that the OS performs each write completely; C07_short_write_corrupts shows that without it the claim fails."
 },
 "C11": {
  "note": "For faces that are non-degenerate; C11_degenerate_faces_overflow shows that two faces sharing more than three vertex pairs overflow the fixed buffer."
 },
 "C23": {
  "status": "partial",
  "note": "Violated as stated. Proved: when the loop ends the points are distinct, contain the polynomial points and meet the request; a request beyond the non-polynomial points never returns; a domain with only polynomial points is undefined behaviour; the 2049-point case hangs."
 },
 "C25": {
  "note": "For every order other than 2; C25_order_two_overlaps shows that at order 2 load's memcpy ranges overlap (undefined), and C25_divided_domains_are_large that domain division never produces such orders."
 },
 "C26": {
  "status": "partial",
  "note": "Violated with gradient data on more than one level. Proved: the solve interpolates, is orthogonal and unique whenever the Lagrange rows are those of the subgrid; they are with value data only (or on the full level); the gradient rows are wrong otherwise and the weights then not orthogonal."
 },
 "C33": {
  "status": "partial",
  "note": "With at least two data the full property is proved; with fewer than two, transform is undefined behaviour (C33_fewer_than_two_data_are_undefined)."
 },
 "C50": {
  "status": "partial",
  "note": "Violated for a requested accuracy of exactly 0 (C50_zero_accuracy_is_not_checked: no error is compared and the first configuration is returned); proved for every other accuracy."
 },
 "C46": {
  "note": "C46_smaller_radius_undefined: with several radii, a point with three neighbours only within the larger one makes estimate_with_radius read out of bounds."
 },
 "C54": {
  "note": "C54_retry_does_not_throw is a defect: after a configuration search has thrown, the next evaluate uses the unusable configuration silently."
 },
 "C39": {
  "note": "C39_transformed_empty_box_is_not_empty is a defect: transforming an empty box gives a NaN box which is_empty() does not recognise; the transform claim holds for non-empty boxes."
 },
 "C47": {
  "note": "Assumes unit normals and distinct points where stated; C47_duplicate_point_gives_nan and C47_long_normals_never_end show what happens without."
 },
 "C40": {
  "note": "C40_leading_blank_line_drops_the_rows: the width is taken from the first non-comment line, so a leading blank line silently drops every row."
 },
 "C41": {
  "note": "Exact arithmetic. For the spheroidal functions the rounded derived constants give relative errors of at most 4e-16 (proved). C41_even_hessian_nan is a defect: NaN Hessian of even polyharmonic functions where 1 + K log rho = 0 although the function is smooth there."
 },
 "C35": {
  "status": "partial",
  "note": "Everything but the last clause is proved for every history of successful edits on non-degenerate faces. \"Rejected operations leave it unchanged\" is false of the code: C35_rejected_face_is_kept (the rejected face is counted and returned by take_faces) and C35_rejected_face_leaves_links. C35_degenerate_face_accepted and C35_insert_on_pillow_throws show what happens outside the preconditions."
 },
 "C55": {
  "note": "Rounding is not modelled. C55_flat_wall_is_reported is a defect found: the two triangles of a plane rectangle on a wall at 45 degrees (wider than high) are reported as intersecting."
 },
 "C37": {
  "note": "Coordinates are reals. Box containment, no cracks and dropping hold for every arithmetic whose interpolation stays between its arguments (a hypothesis on the rounded interpolation); the region and the absence of overlap in exact arithmetic, for faces of non-zero area. 'Inside' is the open box: C37_outside_dropped shows that a face lying in a side of the closed box is dropped."
 },
 "C56": {
  "note": "Exact arithmetic. C56_missing_plane_undefined and C56_loop_undefined are a defect found: for planes of the lattice that miss the extended box the code converts an infinity to int, which is undefined behaviour; C56_all_nodes holds whatever the ranges are on those planes."
 },
 "C57": {
  "note": "Exact arithmetic."
 },
 "C38": {
  "status": "partial",
  "note": "Exact arithmetic; the mesh steps (clustering, refining, smoothing, snapping, thinning, clipping) are arbitrary functions that may throw. For calls that return, everything is proved: the result, entire exactly when no face is left and the interpolated field is below the isovalue (at the box centre, or the first seed point), one sign in the whole box when no surface was found, and reuse after any history. The clause 'a later call does not depend on earlier ones' is false after a call that threw: C38_stale_after_throw (a retry returns a wrong mesh; clear() restores). C38_seed_tie_throws: if lattice coordinates of the first seed are exactly halfway, the seeded call throws instead of returning an empty mesh. Positions of stale vertices after an exception are not modelled."
 },
 "C58": {
  "status": "partial",
  "note": "Exact arithmetic; evaluators return exact sums (C27, C54), factorisations are assumed to solve their systems. C58_constructor_hangs is a defect found: for 2048 < rows < 2048 + number of polynomial points the constructor never returns (in floating point the request may be 2047, which shifts the bound by one). C58_coarse_values: with a nugget and several levels the residuals passed between levels leave the nugget out, so that the system is missed by nugget * weights; without nugget the coarse values are reproduced. With gradient data on several levels the coarse grid reads wrong Lagrange rows (C26), so that CoarseSolves fails there. Zero rows (log 0) are not considered."
 },
 "C60": {
  "note": "Exact arithmetic; anisotropy is an arbitrary injective map. Crossings: a merge adds none between a retargeted face and a face outside the star (C55); two faces retargeted by the same merge are not tested against each other by the code, and this is said in Collapse.crossing. The choice of the least distorting merge is modelled but not claimed."
 },
 "C61": {
  "note": "Exact arithmetic. The two faces made by one flip are not tested against each other (the comment in the code that a sibling call covers this is inaccurate); the end state is one in which every edge has been examined after the last change near it (Settled), not a proved local minimum of the bend."
 },
 "C62": {
  "note": "Topology: for arbitrary computed values of the predicates. Geometry: exact arithmetic. That every simple (non-convex) polygon has ears at each step (two-ears theorem) is not proved: simple() may be false for it only if clipping really got stuck (C62_ears). The orientation of the last ear and of the two halves of a neighbour when a point is put on an edge is unchecked by the code: C62_orientation excludes one face and asks for interior points in general position. The documentation promises a fan when simple() is false, the code returns no faces. NaN not modelled."
 },
 "C15": {
  "status": "partial",
  "note": "The one-step evaluate is proved for every history (C15_evaluate_uses_last_fit). The two-step interface violates the property: C15_stale_evaluator, C15_null_evaluator; C15_two_step_partial is what holds for it."
 },
 "C18": {
  "note": "Exact arithmetic, arbitrary solver and evaluator. C18_conflicting_duplicates_never_return and C18_single_large_value_is_ignored are the two defects named in the statement."
 },
 "C19": {
  "status": "partial",
  "note": "Violated as stated: C19_unconstrained_point_reads_out_of_bounds and C19_too_few_values_are_ignored. C19_result_partial is the property for returned fits with enough centers; C19_safe_if_all_points_constrained the case without undefined behaviour. C19_worst_offenders_first: what a pass adds while no bound is active; C19_worse_offender_passed_over: it fails once one is; C19_warm_start: what the next pass starts from."
 },
 "C63": {
  "note": "Exact arithmetic; the anisotropy is a matrix. Crossing is tested with C55's predicates, so only faces with three different corners are covered. A distance to a triangle whose first two corners coincide is not finite in some cases (C59): the counts say 'Proper' there. Tolerances zero or positive. Interior points may be dropped when a patch is triangulated again (within 1e-9 of an edge) and be inserted a second time; a point queued twice can be inserted and then have a vertex moved onto it: both show up as bad_alloc/out_of_range of the intersection test at worst (C63_exceptions), or as coinciding rows. That every point within reach is honored is not claimed (placements may fail; the counts tell)."
 },
 "C64": {
  "note": "Exact arithmetic; the field is an arbitrary function from lists of points to lists of values (exceptions thrown by it are not modelled), the anisotropy a linear map. Crossing is tested with C55's predicates, so only faces with three different corners are covered. Two things are false of the code and proved so: C64_throws (a vertex that should move exactly onto another corner makes the intersection test throw std::out_of_range on a valid embedded mesh) and the second half of C64_empty (the mesh that stands for the whole space comes back as an empty mesh that does not)."
 },
 "C65": {
  "note": "Exact arithmetic; the anisotropy and its inverse are arbitrary maps, Eigen's symmetric eigenvalue solver is an arbitrary function that meets its contract (C65_rounds only; exists_eigen shows that there is one). Hypotheses: the corners of every given face are in three different places, and merged vertices survive snapping to the box within their cells (SnapSafe; C65_snap_safe, C65_snap_safe_isotropic give sufficient conditions). Intersection means the code's test, which finds every crossing (C55). Unreferenced vertices may remain in the result (vertices of collapsed faces). The cell numbers of the grid are unbounded integers."
 },
 "C66": {
  "note": "Exact arithmetic. Composition of the models of all mesh steps (a step that throws or does not end gives no mesh, about which nothing is claimed). 'Does not reach' means that the lattice points with a neighbour outside the extended box are all on one side of the isovalue. C66_dip is a complete call that returns a mesh."
 },
 "C67": {
  "note": "Exact arithmetic. Hypotheses: lattice and transformation are made from one anisotropy with positive determinant (Made), box and margin are wider than the distance of snapping, 1e-10 of the resolution (Roomy), and every raw vertex is nearest to an end of its lattice edge (Definite; C67_definite gives a sufficient condition, C67_midpoint shows that it can fail). C67_dips is a complete call with an open surface that returns a mesh. With snap points the statement is not claimed: a boundary vertex can be moved onto a snap point inside the box."
 },
 "C69": {
  "note": "Exact arithmetic. SymmetricOp: the right preconditioner is linear and left∘op∘right is symmetric for the inner product. C69_unsymmetric_is_misjudged is the failure for an operator that is not."
 },
 "C70": {
  "note": "All four kernels, scalar and batched, for arbitrary anisotropy; derivatives are Frechet derivatives of the covariance (C41)."
 },
 "C71": {
  "note": "Direct regime (source*target pairs below 1024^2) as in C54; the fast method itself is not modelled. Hypothesis Searchable says the float rounding of the squared support radius does not go down; C71_rounded_radius shows what happens otherwise."
 },
 "C72": {
  "note": "Exact arithmetic; the fast method itself is an arbitrary function (C72_fast_regime says what is read from it), sizes below 1024 use direct sums. AllFinite: derivatives entering the matrix are finite (otherwise the entries are NaN). Exceptions inside OpenMP loops (Hessian of spherical/cubic between two gradient points) terminate the program and are not modelled; the self interaction's exception is (C72_hessian_throws)."
 },
 "C73": {
  "note": "Ceres is an arbitrary function from initial to final blocks; doubles are finite real numbers, NaN parameters and rounding are not modelled; that Ceres respects bounds and finds the minimum are hypotheses of C73_model / C73_optimal. Findings: the anisotropy of the given model is discarded (C73_anisotropy_discarded); polyharmonic functions with the default second parameter 0 are never fitted (C73_zero_parameter_fails)."
 },
 "C74": {
  "note": "Fld.fails models a field function throwing for a batch of lattice points; a field function throwing during refinement is not modelled (refinement's field is total). The samples of the refinement may leave the announced box by a thousandth of the resolution."
 },
 "C75": {
  "note": "Rounding of doubles is not modelled: the margin of half a percent on each side absorbs it for coordinates of moderate size relative to the width. What ScalFMM does with points outside of its cube is not modelled. C75_samples_leave shows that the condition on the width is needed for refinement samples."
 },
 "C76": {
  "note": "Real arithmetic, columns as numbers: formatting to four decimals is not modelled (an angle just below 180 or 360 prints as 180.0000 or 360.0000), and with doubles a tiny negative angle plus 180 rounds to 180. Eigen's solver and canonicalEulerAngles enter by what they promise (IsSolver, IsEuler), both proved satisfiable. A range of zero, which the parameter bounds allow, is excluded (Proper)."
 },
 "C77": {
  "note": "numeral conversion (fast_float) and the determinant are parameters. Splitting the command line into options is Boost's and not modelled; finding by reading: fit, cross-validate and fit-model-to-variogram look for the literal argument --model, so that --model=FILE, which Boost accepts, still makes --rbf required. Infinite or NaN parameters cannot be written (inf is read as a name)."
 },
 "C78": {
  "note": "numeric::to_string and reading back are a parameter with the promise Num.Ok (round trip, no blanks). A file that cannot be opened throws and is not modelled; a write error (full disk) goes unnoticed by export_obj, which never looks at the stream again."
 },
 "C79": {
  "note": "The kd-tree is a parameter that finds exactly the points within the radius (SearchOk); distances are real, so NaN coordinates are outside of the model. Boost's parsing of the command line and file opening are not modelled. A table narrower than the dimension is undefined behaviour (C79_narrow_table)."
 },
 "C80": {
  "note": "The layout of Interpolant::evaluate (values, then gradients point by point) is a hypothesis here; it is what C71 proves of the evaluator. Set numbers are cast to int: 1.2 and 1.9 are the same set, NaN is undefined. Tables with too few columns are undefined behaviour (second half of C80_refused)."
 },
 "C81": {
  "note": "Real arithmetic; std::format enters as rounding to k decimals (Prints). Violations proved: C81_flat (dimension one and two: undefined behaviour, although --dim 1|2|3 is offered), C81_azimuth_360 (the azimuth can be 360, not only below), C81_omnidirectional (the omnidirectional variogram prints like the one to the north), second half of C81_other_ids (no bins: undefined)."
 },
 "C82": {
  "note": "Trials are given by the model and cost each fit ends with (VariogramFitting is C73); a trial that throws ends the command and is left out. That the given model is saved silently if nothing could be fitted is C82_no_trial."
 },
 "C83": {
  "note": "Without --aniso: C83_rows, C83_count, C83_ends; with it: C83_anisotropic (for any lengths of normals). Real arithmetic: a normal with an infinite or NaN component times zero is NaN in the program, not zero, and is then not skipped. Reading and writing of the table as in C79/C80. std::shuffle is any permutation."
 },
 "C84": {
  "note": "The commands as functions from file contents to file contents. Fitters and evaluator are parameters with the contracts of C14 (fitters return the right number of weights; indices in range and different) and of C71 (the evaluator is a function of the point). C84_ignored and C84_narrow_table record two behaviours of the code: --reduce has no effect with --ineq, and missing columns are undefined behaviour."
 },
 "C85": {
  "note": "C85_threshold_one proves that the documented way to disable filtering (--threshold 1.0) zeroes the normals of a concrete cloud for every singular value decomposition."
 },
 "C86": {
  "note": "C86_tracking_ends (termination, no missing value), C86_rings, C86_step (one seed), C86_order_of_seeds, C86_finds_surface (no false minimum: reaches and follows the surface), C86_false_minimum (a seed at a false minimum finds nothing), C86_from_seeds (for the real lattice, composed with C38_from_seeds; as there, the first seed point must not lie halfway between nodes in two directions). Exact arithmetic; the gradient direction is any function of the node."
 },
 "C87": {
  "note": "Both commands from the contents of their files to the contents of the OBJ file. That a file is written is proved where there is no surface (C87_no_surface, C87_25d_no_surface); where there is one, the steps on the mesh may throw (see C63-C65 for when), and the theorems are about a file that is written. Fuel bounds the while loops of the tracking; it suffices from some number on (C86). Exact arithmetic; the interpolant is an arbitrary real function, the conversions between numbers and reals are arbitrary."
 },
 "C88": {
  "note": "Exact arithmetic; the tree and barycentric coordinates of libigl are parameters assumed to give a nearest point of the mesh; the sign of a negative zero is not modelled; faces have an area. Defects proved: C88_sharp_edge, C88_border_order."
 },
 "C89": {
  "note": "Real arithmetic; the decimals of the tables are taken exactly. Defect proved: C89_tolerance_wraps."
 },
 "C90": {
  "note": "Real arithmetic; parsing of the command line (Boost) and files that cannot be opened are left out. ldlt().solve, std::sort, maxCoeff and the normal quantile are assumed to meet their contracts."
 },
 "C91": {
  "note": "flann's index is assumed exact in real arithmetic (checks unlimited, no approximation); the rounding of double arithmetic in r*r and in the distances is left out, that of the conversion to float is modelled."
 },
 "C17": {
  "note": "The exact search assumed here holds for the code's tree only up to one part in 2^24 of the distance: see C91."
 },
 "C92": {
  "note": "Boost's parser and the computations are parameters (for these see C77 - C90); what is printed is left out. Bytes reach the disk in order; a system that loses or reorders writes in a crash of the machine is not modelled."
 },
 "C93": {
  "note": "CPython's reference counts and pybind11's policies are modelled as documented. Of the other classes of the binding, those without references to objects are left out; other fields of the model besides one parameter value are not told apart."
 }
}