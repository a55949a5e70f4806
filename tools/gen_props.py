#!/usr/bin/env python3
"""Writes /verif/properties.jsonl (one JSON object per line)."""
import json, os
P = []
def p(id, title, statement, quantifier, why, anchors):
    P.append(dict(id=id, title=title, statement=statement, quantifier=quantifier,
                  why_tests_cant=why, anchors=anchors))
I = "include/polatory/"
p("C01","zip_sort keeps the two ranges paired and sorts them",
  "After common::zip_sort(begin1,end1,begin2,end2,comp) the sequence of pairs (first range, second range) is a permutation of the sequence of pairs before the call and is ordered by comp, for a strict weak order comp.",
  "every pair of equally long ranges, every comparator that is a strict weak order",
  "Tests use a handful of arrays; the pairing must survive any permutation std::sort may choose.",
  [I+"common/zip_sort.hpp: zip_sort"])
p("C02","complementary_indices returns exactly the other indices",
  "For a list of distinct indices in [0,n) (in any order) complementary_indices(indices,n) returns, in increasing order and without repetition, exactly the indices of [0,n) that are not in the list; the result has n - |indices| entries. With repeated indices the output buffer is too small and the code writes out of bounds.",
  "every n and every list of indices",
  "The out-of-bounds write needs a particular duplicate; the correctness claim is about every subset.",
  [I+"common/complementary_indices.hpp: complementary_indices"])
p("C03","Binary stream encoding is lossless and self-delimiting",
  "For every supported value (integers, booleans, doubles by bit pattern, strings, vectors, fixed and dynamic matrices, nested) reading the bytes that Write produced yields the same value and leaves the following bytes of the stream untouched, so several values written back to back are read back in order.",
  "every value of every supported type nesting and every trailing byte string",
  "Unit tests round-trip a few values; a size-prefix or stride bug appears only for particular shapes or for values written after one another.",
  [I+"common/io.hpp: read, write, Read, Write"])
p("C04","Saved models, covariance functions, variograms and interpolants load back equal",
  "Loading a file written by save() of a Model, an Interpolant or a VariogramSet yields an object whose serialised state (rbf names, parameters, anisotropies, polynomial degree, nugget; fitted flag, centers, gradient centers, bounding box, weights; every bin distance, gamma, pair count, and direction) equals the saved one.",
  "every model with any number of covariance functions, every interpolant, every variogram set, of every size",
  "The state space of models/interpolants is unbounded; field order mistakes show only when two adjacent fields differ.",
  [I+"rbf/rbf_io.hpp", I+"model.hpp: Model::load, Model::save", I+"interpolant.hpp: Read<Interpolant>, Write<Interpolant>", I+"kriging/variogram_set.hpp", I+"kriging/variogram.hpp", I+"geometry/bbox3d.hpp"])
p("C05","A truncated file is reported, never loaded as an object",
  "Loading a proper prefix of a saved file fails with an exception rather than returning an object. (Violated: stream read failures are ignored, so e.g. an empty file loads as an empty VariogramSet, and as a Model with no covariance function, which the constructor forbids.)",
  "every truncation point (crash point of the writer) of every saved file",
  "Crash points are unbounded; tests never truncate files.",
  [I+"common/io.hpp: read", I+"model.hpp", I+"kriging/variogram_set.hpp"])
p("C06","The LRU cache behaves as a bounded least-recently-used map",
  "After any sequence of find/try_emplace/touch/clear operations the cache holds at most `capacity` entries, at most one per key; lookups return the value stored by the last successful emplace for that key unless evicted; an eviction removes exactly the entry least recently inserted or touched.",
  "every capacity and every finite history of operations",
  "Eviction order depends on the whole history; tests sample a few histories.",
  ["src/fmm/lru_cache.hpp: LruCache"])
p("C07","The on-disk cache returns exactly the bytes stored",
  "In any interleaving of put and get calls by any number of threads, get(id) for an id returned by put yields exactly the bytes given to that put, ids are distinct, and an id that was never returned is rejected, provided the OS performs each write completely.",
  "every history/interleaving of put and get, every record size including zero",
  "Thread interleavings and arbitrary histories cannot be enumerated by tests.",
  [I+"preconditioner/binary_cache.hpp: BinaryCache::put, BinaryCache::get"])
p("C08","DisjointSets computes the generated equivalence",
  "After any sequence of unite and groups calls, groups() returns exactly the classes of the equivalence generated by the united pairs (a partition of all elements); unite always ends, and throws std::out_of_range exactly if an index is not an element, in which case the classes do not change.",
  "every size and every history of unite and groups calls, including rejected ones",
  "Path halving rewrites the structure on every query; correctness is an invariant over unbounded histories.",
  ["src/isosurface/disjoint_sets.hpp: DisjointSets"])
p("C09","DenseUndirectedGraph answers connectivity and degree queries correctly",
  "For every sequence of add_edge calls, in whichever order the two ends are given: is_simple iff no loops and no repeated edge; max_degree and min_degree are the largest and the smallest number of edges at a vertex; is_connected iff every two vertices are joined by a path; connected_components lists the equivalence classes of reachability, each vertex exactly once. The queries always end. An edge with an end out of range writes outside of the matrix.",
  "every order n>0 and every sequence of added edges",
  "Graph reachability must hold for every graph; tests use graphs with under ten vertices.",
  ["src/isosurface/dense_undirected_graph.hpp: DenseUndirectedGraph"])
p("C10","singular_vertices finds exactly the vertices whose link is not a path or cycle",
  "MeshDefectsFinder::singular_vertices reports a vertex with at least one incident face iff the link graph of the vertex is not a simple connected graph of maximum degree two; the reported set does not depend on thread scheduling.",
  "every triangle mesh and every schedule of the parallel loop",
  "Meshes and schedules are unbounded.",
  ["src/isosurface/mesh_defects_finder.cpp: MeshDefectsFinder::singular_vertices"])
p("C11","intersecting_faces is complete, sorted, duplicate-free and schedule-independent",
  "MeshDefectsFinder::intersecting_faces returns, in increasing order without repetition, exactly the faces that take part in some intersecting pair, whatever the order in which threads process and merge faces.",
  "every mesh, every split of the work among threads and merge order",
  "Schedules cannot be enumerated by tests.",
  ["src/isosurface/mesh_defects_finder.cpp: MeshDefectsFinder::intersecting_faces","src/isosurface/face_grid.hpp"])
p("C12","A constructed Model satisfies its degree invariant",
  "The Model constructor succeeds iff the list of covariance functions is non-empty and the requested degree is automatic or between (max cpd order) - 1 and 2; a constructed model has poly_degree >= cpd_order - 1 and <= 2, and the automatic degree is cpd_order - 1.",
  "every list of covariance functions and every requested degree",
  "The invariant concerns all lists; tests use single-rbf models.",
  [I+"model.hpp: Model::Model, Model::cpd_order, Model::poly_degree"])
p("C13","Model::set_parameters is all-or-nothing and inverts parameters()",
  "set_parameters(p) either throws and leaves the model exactly as it was, or leaves a model whose parameters() is p; it succeeds iff p has num_parameters() entries and a nugget that is not negative (NaN is rejected). parameters(), parameter_lower_bounds(), parameter_upper_bounds() and parameter_names() all have num_parameters() entries.",
  "every model with any number of covariance functions and every parameter vector",
  "Exception safety at every failure point and arbitrary list lengths.",
  [I+"model.hpp: Model::set_parameters, parameters, num_parameters, set_nugget, parameter_lower_bounds", I+"rbf/rbf_base.hpp: set_parameters"])
p("C14","Interpolant accessors and failed calls respect the fitted state",
  "On every history of calls: centers/weights/bbox/evaluate throw iff the interpolant is not fitted; a fit call rejected for its arguments leaves the interpolant exactly as it was; a fit that fails later leaves it unfitted; a successful fit leaves it fitted with the data of that call.",
  "every finite history of fit/fit_incrementally/fit_inequality/evaluate/accessor calls including failing ones",
  "Histories with failures at each step are unbounded.",
  [I+"interpolant.hpp: Interpolant"])
p("C15","evaluate always uses the most recent fit",
  "evaluate(points) after any history gives the result for the most recent successful fit. (The two-step set_evaluation_bbox / evaluate_impl path used by field functions violates this: the evaluator built for an old fit survives a refit, and evaluate_impl without a previous set_evaluation_bbox dereferences a null evaluator.)",
  "every history of fit, set_evaluation_bbox, evaluate, evaluate_impl calls",
  "Staleness depends on call history.",
  [I+"interpolant.hpp: Interpolant::evaluate, evaluate_impl, set_evaluation_bbox, clear"])
p("C16","Warm-start weights are matched by location",
  "When a fit is given an initial interpolant with the same model, every new center coinciding with an old center starts from that center's weight (first occurrence), every new gradient center likewise takes all its components, the polynomial coefficients are copied and every other weight starts at zero; a different model gives all zeros.",
  "every pair of point sets, in every order and with duplicates",
  "Index arithmetic over value rows, gradient blocks and polynomial tail for arbitrary sizes.",
  [I+"interpolant.hpp: Interpolant::build_initial_weights"])
p("C17","DistanceFilter keeps a maximal separated subset, greedily",
  "filter(distance, indices) returns a subsequence of indices whose points are pairwise farther apart than distance, every dropped index is within distance of an earlier kept index, filtering again changes nothing, and accessors throw until a filter was run; a distance below the minimum throws.",
  "every point set, index list and distance",
  "Greedy maximality and separation quantify over all point configurations.",
  [I+"point_cloud/distance_filter.hpp: DistanceFilter"])
p("C18","Incremental fitting returns only valid results and terminates on separated data",
  "fit_incrementally returns centers that are distinct input points; on return every input point that is not a center has residual below the tolerance; it returns after finitely many rounds if no two points are closer than the minimal distance. (Two defects: with coincident points carrying conflicting values it loops forever; and when fewer points than the polynomial needs have a value above the tolerance it returns all-zero weights, so that the centers themselves are not fitted.)",
  "every point set, every value vector, every behaviour of the inner fitter",
  "Termination and the exit guarantee quantify over every inner fit result.",
  [I+"interpolation/incremental_fitter.hpp: IncrementalFitter::fit"])
p("C19","Inequality fitting returns only when every constraint is met",
  "fit_inequality returns a fit in which every equality point is a center and every bound holds within the tolerance at every point where it was given. Each pass starts from the solution of the one before; while no bound is active, it makes centers of the points that break their bounds worst, spaced apart (violated once a bound is active: the residuals are computed from other points' fitted values). (Violated: the residual loop pairs fitted values with the wrong points and reads out of bounds when a point without value and bounds precedes a bounded one; and with fewer centers than the polynomial part needs the values are ignored.)",
  "every combination of values, lower and upper bounds (NaN meaning absent), every inner fit",
  "The failing index combinations are rare among tests, which give bounds to all points.",
  [I+"interpolation/inequality_fitter.hpp: InequalityFitter::fit"])
p("C20","The solver returns only converged solutions within the iteration budget",
  "Solver::solve performs at most max_iter iterations and returns only if the residual of the returned weights was measured below tolerance for values and gradients (or the Krylov residual is exactly zero); otherwise it throws. NaN residuals are treated as converged (hazard).",
  "every right-hand side, tolerance, iteration limit and every behaviour of the operator",
  "All numerical trajectories.",
  [I+"interpolation/solver.hpp: Solver::solve_impl", I+"interpolation/residual_evaluator.hpp"])
p("C21","GMRES residual norms never increase and the reported residual is the true one",
  "In exact arithmetic, and as long as no step breaks down (finds no new direction): absolute_residual() is the norm of the residual of the vector that solution_vector() returns, no combination of the search directions used so far has a smaller one, and it never increases over iterate_process calls. The solution after a breakdown is exact, and a regular system is solved exactly within as many steps as there are unknowns. Calls beyond max_iter do nothing. (Hazards: a step after a breakdown divides by zero; a start vector that is not zero but has only entries up to 1e-12 is taken for zero, so that the reported residual is wrong.)",
  "every operator, right-hand side and number of iterations",
  "Statement over all matrices and all iteration counts.",
  ["src/krylov/gmres.cpp","src/krylov/fgmres.cpp","src/krylov/minres.cpp","src/krylov/gmres_base.cpp"])
p("C22","Domain division covers every point exactly once and respects the size bound",
  "DomainDivider yields domains such that every point (with gradient data or not) is an inner point of exactly one domain, every domain before adding polynomial points carries at most 1024 degrees of freedom, division terminates, and after merging the polynomial points every domain begins with them in order.",
  "every point set and gradient point set of any size",
  "Recursive geometric division of arbitrary data.",
  [I+"preconditioner/domain_divider.hpp: DomainDivider", I+"preconditioner/domain.hpp"])
p("C23","Coarse point selection terminates with the requested points",
  "choose_coarse_points(n), n being the requested number of degrees of freedom, terminates and returns distinct points of the domain, polynomial points first, with at least the requested number of degrees of freedom. (Violated: when the request exceeds what non-polynomial points can supply, singletons are re-split forever; reachable for 3D data with 2049 points and a linear polynomial.)",
  "every point set and requested number",
  "Termination over all inputs.",
  [I+"preconditioner/domain_divider.hpp: DomainDivider::choose_coarse_points", I+"preconditioner/ras_preconditioner.hpp"])
p("C24","The additive Schwarz sweep is independent of thread scheduling",
  "The correction assembled from all fine-grid domains of one level does not depend on the order or interleaving in which the domains are processed, because every row is written by exactly one domain; every inner row is written.",
  "every division into domains, every schedule",
  "Schedules cannot be enumerated.",
  [I+"preconditioner/ras_preconditioner.hpp: RasPreconditioner::operator()", I+"preconditioner/fine_grid.hpp: set_solution_to"])
p("C25","Factorisations survive the trip through the cache unchanged",
  "FineGrid's packed storage of the lower triangle and transpositions and its reload are inverse to one another, for every matrix size.",
  "every matrix order",
  "Triangular index arithmetic for every size.",
  [I+"preconditioner/fine_grid.hpp: save_ldlt, load_ldlt"])
p("C26","Subgrid solves interpolate and satisfy the side conditions",
  "In exact arithmetic, solving the reduced system (with Lagrange polynomials) gives weights that are orthogonal to the polynomials and, with the polynomial coefficients, reproduce the right-hand side at every point of the subgrid. (Violated with gradient data on more than one level: the gradient rows of the Lagrange matrix are indexed with the local instead of the full number of value points.)",
  "every subgrid, every right-hand side",
  "Linear algebra identity over all matrices.",
  [I+"preconditioner/coarse_grid.hpp", I+"preconditioner/fine_grid.hpp"])
p("C27","The linear operator used for solving agrees with the evaluator used afterwards",
  "DirectOperator applied to weights equals DirectEvaluator of the same weights at the centers plus nugget times the value weights; the operator is symmetric; the assembled matrix of the preconditioner is the matrix of that operator on its points.",
  "every model, point set, gradient point set, weight vector",
  "Equality of two independent assembly loops for all sizes.",
  [I+"interpolation/direct_operator.hpp", I+"interpolation/direct_evaluator.hpp", I+"preconditioner/mat_a.hpp"])
p("C28","The accuracy budget is respected",
  "If every elementary evaluator meets the accuracy it is given, Evaluator, SymmetricEvaluator and Operator meet the accuracy the caller asked for, with any number of covariance functions, with and without gradient data.",
  "every number of covariance functions and every error pattern",
  "All error combinations.",
  [I+"interpolation/evaluator.hpp", I+"interpolation/symmetric_evaluator.hpp", I+"interpolation/operator.hpp"])
p("C29","Each pair of points contributes to exactly the lag bins containing its distance",
  "VariogramCalculator adds a pair at distance d to bin b iff |d - b*lag| <= lag tolerance (and b < number of lags); bins with no pair are absent and every reported bin has the mean distance and mean semivariance of its pairs and their number.",
  "every point set, value vector, lag, tolerance and number of lags",
  "Boundary distances and all pair sets.",
  ["src/kriging/variogram_calculator.cpp", I+"kriging/variogram_calculator.hpp", I+"kriging/variogram_builder.hpp"])
p("C30","Parallel variogram accumulation is schedule-independent",
  "In exact arithmetic merging per-thread builders in any order and grouping gives the variogram of all pairs processed sequentially.",
  "every split of the pairs among threads, every merge order",
  "Schedules cannot be enumerated.",
  [I+"kriging/variogram_builder.hpp: add_pair, merge", I+"kriging/variogram_calculator.hpp"])
p("C31","Cross validation never predicts a point from itself and fills every prediction",
  "kriging::cross_validate assigns to every point the prediction of a fit to exactly the points of the other sets, for any assignment of set ids, and each entry is written once.",
  "every assignment of points to sets",
  "All groupings.",
  [I+"kriging/cross_validate.hpp: cross_validate"])
p("C32","Detrending leaves residuals orthogonal to the trend polynomials",
  "kriging::detrend throws for a degree outside 0..2; otherwise in exact arithmetic the result is orthogonal to all polynomials up to the degree at the points, adding a polynomial to the data does not change the result, and detrending twice changes nothing.",
  "every point set, value vector and degree",
  "Linear algebra identity.",
  [I+"kriging/detrend.hpp: detrend"])
p("C33","Normal score transformation is rank based and inverted in order",
  "transform maps the data to scores that depend on ranks only and preserve order; back_transform before transform throws; a negative order throws. (n = 1 reads past the end.)",
  "every data vector",
  "All permutations and sizes.",
  [I+"kriging/normal_score_transformation.hpp"])
p("C34","Marching tetrahedra gives a consistently oriented mesh that is closed inside the sampled region",
  "For every assignment of signs to the lattice nodes, the raw surface has each directed edge at most once, every edge whose incident tetrahedra are all present is shared by exactly two faces with opposite directions, and the faces separate negative from positive nodes with a consistent orientation.",
  "every finite set of cells and every sign assignment",
  "2^n sign assignments.",
  [I+"isosurface/rmt/tetrahedron.hpp: get_faces", I+"isosurface/rmt/lattice.hpp", I+"isosurface/rmt/neighbor.hpp"])
p("C35","The mesh used for editing stays a consistent oriented manifold",
  "After every sequence of successful face insertions, flips, collapses and vertex insertions, the directed-edge table lists each directed edge at most once and each face's three edges, opposite-edge links are mutual, and rejected operations leave it unchanged.",
  "every history of edit operations",
  "Unbounded histories of edits.",
  ["src/isosurface/abstract_mesh.hpp: AbstractMesh"])
p("C36","The spatial grid finds every candidate exactly once",
  "After any history of insert and remove, a query visits each stored item at most once and visits every stored item whose box overlaps the query box.",
  "every history of insertions, removals and queries, every cell size",
  "Histories and geometry are unbounded.",
  ["src/isosurface/spatial_grid.hpp","src/isosurface/face_grid.hpp"])
p("C37","Clipping keeps exactly the inside part",
  "clip returns a mesh whose vertices all lie in the closed box, in exact arithmetic; faces keep their orientation; the part of each face inside is kept; shared edges are cut at the same point so no cracks appear.",
  "every triangle mesh and box",
  "All geometric configurations.",
  [I+"isosurface/clip.hpp"])
p("C38","Surface generation reports entire/empty correctly and leaves the generator reusable",
  "Isosurface::generate returns an entire mesh iff no face was found and the field is below the isovalue, and clears its internal lattice so that a later call does not depend on earlier ones.",
  "every field and every history of calls",
  "Histories of calls.",
  [I+"isosurface/isosurface.hpp", I+"isosurface/mesh.hpp"])
p("C39","Bounding boxes form a join semilattice and transform conservatively",
  "convex_hull is commutative, associative, idempotent with the empty box as identity; from_points is the smallest box containing all points; the transformed box contains the image of every contained point.",
  "every box, point set and affine transformation in every dimension",
  "Universally quantified geometry.",
  [I+"geometry/bbox3d.hpp: Bbox"])
p("C40","Tables written are read back",
  "read_table(write_table(t)) = t for every non-empty table; comment lines are ignored, rows of the wrong width are skipped without affecting the others, and an empty table is rejected.",
  "every table and every text file",
  "All files.",
  [I+"table.hpp", I+"numeric/conv.hpp"])
p("C41","RBF gradients and Hessians are the derivatives of the values",
  "For every covariance function, away from the non-smooth set, evaluate_gradient is the derivative of evaluate and evaluate_hessian the derivative of evaluate_gradient, including anisotropy.",
  "every parameter setting and every displacement",
  "Calculus identity over the reals.",
  [I+"rbf/"])
p("C42","Covariance functions are even, bounded by the partial sill and compactly supported where documented",
  "evaluate(d) = evaluate(-d), evaluate(0) = psill, 0 <= evaluate(d) <= psill for covariance functions; spherical and cubic vanish beyond the range; spheroidal = direct part + fast part with the direct part vanishing beyond its support.",
  "every displacement and admissible parameters",
  "Continuum of inputs.",
  [I+"rbf/"])
p("C43","Monomial bases are complete and their derivative rows are derivatives",
  "The basis of degree d in dimension n has C(n+d,n) distinct monomials of degree <= d, and the gradient rows are the partial derivatives of the value rows.",
  "every dimension 1..3, degree -1..2, every point",
  "Polynomial identity.",
  [I+"polynomial/monomial_basis.hpp", I+"polynomial/polynomial_basis_base.hpp"])
p("C44","The Lagrange basis is cardinal at its points and reproduces polynomials",
  "LagrangeBasis evaluated at its own points is the identity; it throws when the points are not unisolvent; it reproduces every polynomial of the degree.",
  "every unisolvent point set",
  "Linear algebra identity.",
  [I+"polynomial/lagrange_basis.hpp"])
p("C45","orthonormalize_cols yields an orthonormal basis of the same space",
  "In exact arithmetic, for independent columns, the output columns are orthonormal and each leading block spans the same space as the input's.",
  "every matrix with independent columns",
  "Linear algebra for every size.",
  [I+"common/orthonormalize.hpp"])
p("C46","Normal orientation only flips signs and achieves the requested side",
  "orient_toward_direction/point leaves each normal or negates it, and afterwards every normal has non-negative product with the direction (towards the point); calls before estimation throw; plane-factor filtering only zeroes normals.",
  "every point cloud and history of calls",
  "All inputs and call histories.",
  ["src/point_cloud/normal_estimator.cpp", I+"point_cloud/normal_estimator.hpp"])
p("C47","SDF data are consistent",
  "SdfDataGenerator produces the input points with value 0 first, then offset points whose value is plus or minus their distance to their origin and whose nearest input point is that origin; zero normals are skipped.",
  "every point cloud with normals, every offset and anisotropy",
  "All point configurations.",
  ["src/point_cloud/sdf_data_generator.cpp"])
p("C48","Random points lie in the requested set",
  "random_points in a cuboid lie in the cuboid, on a sphere lie on the sphere, and the requested number is returned; an empty volume is rejected.",
  "every random stream",
  "All random outcomes.",
  ["src/point_cloud/random_points.cpp"])
p("C49","Unisolvent point sets are valid index sets",
  "UnisolventPointSet returns sorted distinct in-range indices of the basis size whenever some trial found a usable set.",
  "every random stream and point set",
  "All random outcomes.",
  [I+"polynomial/unisolvent_point_set.hpp"])
p("C50","FMM configuration search returns only configurations meeting the accuracy",
  "find_best_configuration returns a configuration whose estimated error is within the requested accuracy, or throws.",
  "every error-estimate behaviour",
  "All estimator outcomes.",
  ["src/fmm/fmm_accuracy_estimator.hpp","src/fmm/interpolator_configuration.hpp"])
p("C51","Bit iteration enumerates set bits",
  "bit_pop repeatedly applied to a bit set yields each set bit exactly once in increasing order and ends with the empty set; bit_count is their number.",
  "every bit set",
  "2^16..2^64 values.",
  [I+"isosurface/bit.hpp"])
p("C52","concatenation stacks rows and columns or rejects mismatched shapes",
  "concatenate_rows/cols returns the matrix made of all inputs in order iff the shared dimension agrees for all inputs and throws otherwise.",
  "every number and shape of inputs",
  "All shapes.",
  [I+"common/concatenate.hpp"])
p("C53","The packed per-node vertex storage is a map from edges to vertices",
  "After any sequence of insert_vertex calls on a lattice node (each edge used at most once), has_vertex(e) is true exactly for the inserted edges, vertex(e) returns the vertex last inserted for e, and the binary sign and intersection flags are unaffected by vertex insertion.",
  "every sequence of insertions and every edge index",
  "All insertion orders of up to 14 edges with arbitrary vertex numbers.",
  [I+"isosurface/rmt/node.hpp", I+"isosurface/bit.hpp"])
p("C54","An evaluator returns the kernel sum of the latest points and weights, whatever calls came before",
  "After any history of set_accuracy, set_source_points, set_target_points, set_weights and evaluate calls, evaluate returns for each target point the sum of the kernel with the latest source points and weights: exactly when the direct sum is used (few points), and the fast sum with a configuration meeting the accuracy found for the first weights otherwise; spheroidal evaluators add a direct part that vanishes beyond its support.",
  "every history of calls and every number of points",
  "All call histories: caches (trees, particles, configuration) must be invalidated by exactly the right setters.",
  ["src/fmm/fmm_evaluator.hpp","src/fmm/fmm_symmetric_evaluator.hpp","src/fmm/direct_evaluator.hpp","src/fmm/spheroidal_evaluator.hpp","src/fmm/full_direct.hpp"])
p("C55","Crossing faces are never missed by the geometric tests",
  "In exact arithmetic and for any tolerance, a segment and a triangle (or two triangles) with a common point are reported as intersecting, and intersecting_faces returns every face of the mesh that has a point in common with another face beyond the corner or edge they share. Conversely a segment that is reported and is not parallel to the triangle's plane meets the triangle up to the tolerance. Two faces with the same corners, with a common edge but not in one plane, or with a common corner and apart otherwise, are not reported, in whatever order they list their corners.",
  "every position of the corners, including touching, degenerate and coplanar ones, every mesh, grid and schedule",
  "A continuum of positions with measure-zero special cases (touching, coplanar, degenerate) that sampling never meets.",
  [I+"isosurface/predicates.hpp","src/isosurface/utility.hpp","src/isosurface/mesh_defects_finder.cpp"])
p("C56","The sampled region is large enough",
  "generate samples the field at exactly the lattice points of the extended bounding box - the loops over the lattice miss none - and the extension is large enough that every lattice tetrahedron with a point in the bounding box has all its corners and all their neighbours sampled, so the surface, clipped to the box, has no border in its interior. The same holds for the part reached from seed points.",
  "every box, resolution, anisotropy, field and every lattice point",
  "A continuum of skewed lattices and boxes; a range too small by one shows only for particular alignments.",
  [I+"isosurface/rmt/primitive_lattice.hpp",I+"isosurface/rmt/lattice.hpp"])
p("C57","The lattice node and the lattice tetrahedron of a point",
  "Node positions round back to the node; a point is mapped to a tetrahedron of the lattice that contains it, with barycentric weights that are non-negative, sum to one and reproduce the point; for points of the bounding box the rounded node and the tetrahedron are sampled.",
  "every lattice with positive determinant, every point, every order in which ties are sorted",
  "A continuum of points, with ties on the faces between tetrahedra.",
  [I+"isosurface/rmt/primitive_lattice.hpp",I+"isosurface/rmt/lattice.hpp"])
p("C58","The preconditioner is a fixed linear sweep with exact residuals and orthogonal weights",
  "Constructing the preconditioner ends with nested levels from at most all points down to about 2048 rows, each level covered by subdomains; applying it is, for every schedule of its threads, the sweep over the levels in which every correction is computed from the true residual of all weights so far; the returned weights satisfy the side conditions, reproduce the values at the coarsest points (all points on a single level, where it is the inverse), and depend linearly on the values.",
  "every data set, model, number of levels, division, schedule and right-hand side",
  "Residuals are updated only where they are needed next, with an incrementally maintained projection; a missed point shows only as slow convergence on data sets with several levels (20000 points and more).",
  [I+"preconditioner/ras_preconditioner.hpp",I+"preconditioner/coarse_grid.hpp",I+"preconditioner/fine_grid.hpp"])
p("C59","The nearest point of a triangle",
  "The point reported as nearest to a given point is a point of the triangle, no point of the triangle is nearer, and the reported value is the squared distance - also for degenerate triangles; the result fails to be finite exactly if the first two corners coincide and the given point projects strictly between them and the third.",
  "every point and triangle (exact arithmetic)",
  "A continuum of positions; the six region tests and their boundaries partition it, and degenerate triangles need care.",
  ["src/isosurface/utility.hpp"])
p("C60","Thinning a snapped mesh keeps what snapping promised",
  "Thinning always ends, without an exception; its result arises by merging snapped vertices into snapped neighbours, one at a time, where every merge keeps the mesh an oriented manifold, flips no face, makes no edge longer than 1.3 resolutions, makes no retargeted face cross a face outside the merged star, and leaves every snap point that was within its tolerance of the surface within its tolerance; at the end no admissible merge is left. So snap points within tolerance stay within tolerance, the boundary is unchanged, faces without snap points are unchanged, and no vertex is moved or invented.",
  "every oriented manifold mesh, set of snap points, tolerances, resolution and anisotropy (exact arithmetic)",
  "The number and order of merges depends on the mesh; each merge is checked only locally, so that the global guarantees need an induction over all of them.",
  ["src/isosurface/snapper/thinner.hpp","src/isosurface/snapper/abstract_mesh.hpp","src/isosurface/snap.cpp"])
p("C61","Smoothing a snapped mesh only flips edges, and only for the better",
  "Smoothing always ends, without an exception, however the queue breaks ties between equal scores; it moves, adds and removes no vertex and changes the mesh only by flips of edges between two faces, at most 50 times the number of faces plus one of them. Every flip keeps the mesh an oriented manifold, lowers the sum of the angles between neighbouring faces by more than 1e-6, makes no edge that is longer than both the old one and 1.3 resolutions, makes no new face cross a face other than its twin, and leaves every snap point that was within its tolerance of the surface within its tolerance. The boundary is unchanged. Unless the limit was reached, every edge was examined, and could not be flipped, after the last change in its surroundings.",
  "every oriented manifold mesh, set of snap points, tolerances, resolution, anisotropy and tie-breaking of the queue (exact arithmetic)",
  "The order of the flips is that of a heap with stale entries, every flip changes the scores around it, and the guarantees are about all sequences of flips.",
  ["src/isosurface/snapper/smoother.hpp","src/isosurface/abstract_mesh.hpp","src/isosurface/snap.cpp"])
p("C62","Triangulating a polygon with interior points",
  "Whatever the coordinates are and however the arithmetic rounds, the constructor returns (unless there are fewer than three corners, or labels for some of the corners only); if ears could not be clipped to the end there are no faces; otherwise the faces are an oriented surface whose boundary is exactly the polygon, with the Euler count of a disc, using each directed edge once, and with no inner edge between corners that share a label. In exact arithmetic the signed areas add up to that of the polygon, every point off the edges is covered as often as the polygon winds around it, strictly convex polygons are always triangulated with counterclockwise faces, an interior point is left out only if it is outside or within tolerance of a corner or an edge of the polygon, and after the flips every inner edge is Delaunay up to the documented exceptions.",
  "every polygon, list of interior points, labels, and every rounding of the predicates (topology), exact arithmetic (geometry)",
  "A continuum of polygons; the combinatorial guarantee has to survive wrong signs from rounding, which tests do not reach.",
  ["src/isosurface/snapper/triangulation.hpp","src/isosurface/abstract_mesh.hpp","src/isosurface/predicates.hpp"])
p("C63","Snapping a mesh to points",
  "Snapping ends after at most nine rounds for each point, does nothing undefined, and of valid arguments only faces without area or coinciding corners can make it throw. It creates no crossing: two returned faces that cross are faces of the given mesh in their places, so an embedded mesh stays embedded. A vertex of the given mesh stays in its place or is moved to a snap point, every other vertex is a snap point, all vertices are in use, and every edge between given vertices has the same surplus of faces on one side as before while every other edge has as many faces on one side as on the other (a closed mesh stays closed). Every given face is replaced by at least one face with corners among its own corners and snap points, in order and not turned over. The counts add up to the number of points: skipped are exactly the points farther than the resolution from the given mesh, honored exactly those of the rest that the returned surface passes within tolerance. A mesh that is not an oriented manifold, and tolerances of a wrong number, are refused; without points or faces the mesh is returned as it is.",
  "every oriented manifold mesh, set of snap points, tolerances, resolution, anisotropy and order of equal elements in the sorts (exact arithmetic)",
  "Every placement can undo earlier ones, which are queued again; the guarantees are about all sequences of placements, failed attempts and retries.",
  ["src/isosurface/snapper/snapper.hpp","src/isosurface/snapper/triangulation.hpp","src/isosurface/snap.cpp","include/polatory/isosurface/snap.hpp"])
p("C64","Refining the vertices of a mesh",
  "Every vertex is moved at most once, along the gradient of the field that is fitted to four samples around its given place, by at most half the resolution, and snapped to the sides of the box it is near; for an affine field it comes to lie on the level set, or half the resolution nearer to it. The faces and the number of vertices stay as they are; no face with an area loses it; two faces that cross in the result are in the places they were given in, so an embedded mesh stays embedded. A vertex stays only if its gradient is zero or its move would turn over or flatten a face or make two faces cross. Nothing undefined happens, and there is no exception unless two corners of a face would come to the same place. A mesh that is not an oriented manifold is refused, and the empty mesh is returned as it is.",
  "every oriented manifold mesh, field function, isovalue, box, resolution and anisotropy (exact arithmetic)",
  "Every move is tested against the mesh that the earlier moves have left, so the guarantee is about all sequences of accepted and rejected moves.",
  ["src/isosurface/vertex_refiner.hpp","src/isosurface/refine.cpp","include/polatory/isosurface/refine.hpp"])
p("C65","Merging the vertices of each lattice node",
  "Vertices that are connected by edges within one lattice cell (strictly inside the extended box) are merged into one vertex, placed where the planes of the faces around them fit best and within the cell; faces that lose a corner vanish, and so do pairs of faces that come to lie back to back. As long as a merged vertex has a defect (its faces are not a fan, or a face at it intersects another one), or is next to a vertex with a defect, its merge is undone and everything is tried again; this ends. In the result no vertex with a defect is merged or shares a face with a merged one; a mesh without singular vertices has none afterwards; intersecting faces are faces of the given mesh in their places, so an embedded mesh stays embedded; every edge has as great a surplus of faces on one side as the edges merged into it, so a closed mesh stays closed; an oriented manifold whose boundary is not touched stays one. A face that refers to no vertex is refused.",
  "every mesh whose faces have three different corners, lattice, resolution, anisotropy, schedule of the parallel defect search and order of hash sets (exact arithmetic)",
  "Undoing merges changes the defects and brings new faces back, so the guarantee is about all sequences of rounds on all meshes.",
  ["src/isosurface/vertex_clusterer.hpp","src/isosurface/quadric_position.hpp","src/isosurface/edge.hpp","src/isosurface/cluster.cpp"])
p("C66","A closed surface comes out of the generator without cracks",
  "If the isosurface does not reach the outside of the extended box, the mesh returned by generate or generate_from_seed_points has no cracks: its faces refer to vertices, which are in the box, and every edge that does not lie on a side of the box has as many faces on one side as on the other. This holds with and without refinement and snap points, for every number of rounds of snapping, and after any other calls on the same object that did not throw.",
  "every field function, box, resolution, anisotropy, seed point, snap points with tolerances, history of calls, schedule and order of hash sets (exact arithmetic)",
  "Up to 47 passes of clustering, smoothing, refining, snapping, thinning and clipping, each with its own sequence of accepted and rejected edits, must all keep the surface closed.",
  ["include/polatory/isosurface/isosurface.hpp","src/isosurface/cluster.cpp","src/isosurface/refine.cpp","src/isosurface/snap.cpp","src/isosurface/snapper/snapper.hpp","include/polatory/isosurface/clip.hpp"])
p("C67","Every surface comes out of the generator without cracks if there are no snap points",
  "Whether or not the isosurface ends inside the extended box: without snap points, the mesh returned by generate or generate_from_seed_points has no cracks: its faces refer to vertices, which are in the box, and every edge that does not lie on a side of the box has as many faces on one side as on the other. The margin around the box is wide enough that neither clustering nor refining brings the outer edge of the mesh into the box. (A crossing exactly in the middle of a lattice edge is excluded: it can be rounded to a third node.)",
  "every field function without crossings at midpoints of lattice edges, box, resolution, anisotropy, seed point, history of calls, schedule and order of hash sets (exact arithmetic)",
  "The open edge of the raw mesh lies anywhere outside the box and is moved by clustering and refining; that it never enters the box is a statement about all surfaces and all anisotropies.",
  ["include/polatory/isosurface/isosurface.hpp","include/polatory/isosurface/rmt/primitive_lattice.hpp","include/polatory/isosurface/rmt/lattice.hpp","src/isosurface/vertex_clusterer.hpp","src/isosurface/vertex_refiner.hpp"])
p("C68","Estimated normals are normals of best-fitting planes",
  "For at least three points PlaneEstimator reports the root mean square distances of the points from their best-fitting point, line and plane (with the documented lower limits), and a unit normal of a plane that fits best: no plane, through any point and in any direction, has a smaller root mean square distance. Points that lie in a plane lie in the reported one. The plane factor is between 1e-10 and 1e10. After estimate_with_knn every normal is such a normal for the nearest min(k, n) points of one of the given k, and after estimate_with_radius for the points within one of the given radii (or zero).",
  "every point cloud, list of neighbour counts and list of radii (exact arithmetic, every correct singular value decomposition and nearest neighbour search)",
  "Optimality over all planes in space and all point clouds.",
  ["src/point_cloud/plane_estimator.cpp", "include/polatory/point_cloud/plane_estimator.hpp", "src/point_cloud/normal_estimator.cpp"])
p("C69","MINRES agrees with GMRES for symmetric operators",
  "When the preconditioned operator is symmetric (and linear) and no breakdown occurs, Minres reports after every iteration the same residual and returns the same solution as Gmres: the basis stays orthonormal although a new vector is orthogonalised against the last two only, the reported residual is the norm of the true (left-preconditioned) residual of the returned solution, it is the smallest one over the search space, never increases, and becomes zero within as many steps as there are unknowns. Calls beyond max_iter change nothing. For an operator that is not symmetric the reported residual need not be that of the returned solution, and nothing detects it.",
  "all symmetric linear operators with left and right preconditioners on any real inner-product space, all right-hand sides and initial values, every number of iterations up to max_iter (exact arithmetic)",
  "The loss of orthogonality of a three-term recurrence and the equality of two algorithms for all operators and iteration counts cannot be sampled; the existing test runs one matrix and compares the final residual.",
  ["src/krylov/minres.cpp: Minres::iterate_process", "include/polatory/krylov/minres.hpp: Minres", "src/krylov/gmres_base.cpp: GmresBase"])
p("C70","The FMM kernels are the derivatives they stand for",
  "For points transformed by the anisotropy, Kernel returns the covariance of the difference of the points, GradientKernel the derivative in the source point (a row), GradientTransposeKernel the derivative in the target point (a column) and HessianKernel the mixed second derivative, laid out as kn*km numbers the way the evaluators read them; exchanging the two points multiplies the array by mutual_coefficient(); the batched form gives in each lane what the scalar form gives; not-finite results and exceptions occur exactly where the covariance function has them. A batch with more lanes than the hard-wired four throws.",
  "all covariance functions, parameters, anisotropies, dimensions, pairs of points, lanes",
  "Derivative identities over the reals for every pair of points and every parameter; tests compare with finite differences at samples.",
  ["include/polatory/fmm/kernel.hpp: Kernel", "include/polatory/fmm/gradient_kernel.hpp: GradientKernel", "include/polatory/fmm/gradient_transpose_kernel.hpp: GradientTransposeKernel", "include/polatory/fmm/hessian_kernel.hpp: HessianKernel"])
p("C71","Evaluator returns the value and the gradient of the interpolant",
  "After any sequence of calls set_source_points / set_target_points / set_weights / evaluate on an interpolation Evaluator, if the weights were set after the latest source points, evaluate() returns at every target point the value and at every target gradient point the gradient given by the defining sums over the latest points and weights (the direct evaluator of C27), whichever of the three implementations (FMM, direct summation over a radius search, or the split of both) each covariance function gets - for problems small enough that kernels are summed directly, and provided the squared support radius is not rounded down when it is passed to the kd-tree. If it is rounded down, contributions are lost; evaluating a compactly supported function before source points are set is undefined.",
  "all models (any number and kind of covariance functions and any polynomial), all histories of calls including failing evaluations, all points and weights, all correct kd-tree searches and sorting orders",
  "The state machine of four evaluators per covariance function has unboundedly many histories and the layout of segments depends on all sizes; tests set everything once.",
  ["include/polatory/interpolation/evaluator.hpp: Evaluator", "src/fmm/direct_evaluator.hpp: FmmGenericDirectEvaluator", "src/fmm/spheroidal_evaluator.hpp", "src/fmm/make_fmm_evaluator.cpp", "src/fmm/impl/", "src/point_cloud/kdtree.cpp: KdTree::radius_search"])
p("C72","Operator applies the interpolation matrix, and SymmetricEvaluator evaluates at its own points",
  "After any sequence of calls on an interpolation Operator in which points were set, including failed applications, operator()(weights) returns the product of the interpolation matrix (nugget on the diagonal of the value block, covariances, their gradients and Hessians, polynomial columns and transposed polynomial rows) for the latest points with the given weights; nothing of earlier points or weights remains. SymmetricEvaluator::evaluate returns the value and gradient at its own points, if the weights were set after the points. This holds whichever implementation each covariance function gets and although every particle skips itself in the sums and gets its self interaction added afterwards - for point counts below the threshold of the fast method and a search radius that is not rounded down. One gradient point with a spherical or cubic function makes operator() throw.",
  "all models, all histories of calls on both classes including failing ones, all points and weights (fewer than 1024 value and gradient points), all correct kd-tree searches and sorting orders",
  "The layout of the segments, the skipped self interactions and the state of four evaluators per covariance function interact over all sizes and histories; tests compare one application with a dense matrix at a few sizes.",
  ["include/polatory/interpolation/operator.hpp: Operator", "include/polatory/interpolation/symmetric_evaluator.hpp: SymmetricEvaluator", "src/fmm/fmm_symmetric_evaluator.hpp: FmmGenericSymmetricEvaluator", "src/fmm/direct_symmetric_evaluator.hpp", "src/fmm/spheroidal_symmetric_evaluator.hpp", "src/fmm/full_direct.hpp", "src/fmm/make_fmm_evaluator.cpp"])
p("C73","Variogram fitting reports the model it minimised over, within bounds",
  "Whatever parameters the least-squares solver tries, in or out of their bounds, the residual functor of VariogramFitting does not throw while the trial anisotropies have a positive determinant (which every rotation and every scale within its bounds gives, in 2D and 3D, even for a zero quaternion); it evaluates the model with negative parameters replaced by zero, reports failure exactly if a function's second parameter is zero, and otherwise gives for every bin the weight times the difference of the bin's semivariance and the model's (nugget plus the drop of the covariances). model() returns the given functions in order with the solver's parameters and the fitted anisotropies, and is the model the residuals were computed with: if the solver is optimal, model() has the smallest weighted sum of squares. The squared weights are the documented powers of distance, model semivariance and number of pairs. The anisotropy of the given model is discarded, anisotropy is fitted only with at least 2 (2D) or 3 (3D) variograms, and a polyharmonic function with its default second parameter 0 makes every initial evaluation fail.",
  "all dimensions 1, 2, 3, models with any number of functions, variograms, weight functions, trial parameter blocks and solvers",
  "A test fits a few synthetic variograms; it cannot cover every trial point of an iterative solver, including infeasible ones where set_parameters or set_anisotropy could throw through Ceres.",
  ["include/polatory/kriging/variogram_fitting.hpp: clamp_parameters, compute_residuals", "include/polatory/kriging/variogram_fitting_1d.hpp: VariogramFitting<1>", "include/polatory/kriging/variogram_fitting_2d.hpp: VariogramFitting<2>", "include/polatory/kriging/variogram_fitting_3d.hpp: VariogramFitting<3>", "include/polatory/kriging/weight_function.hpp: WeightFunction", "include/polatory/model.hpp: set_parameters, parameters, parameter_lower_bounds"])
p("C74","A mesh is generated from the values of the field in the announced box",
  "Isosurface::generate and generate_from_seed_points ask the field function only for points of the box announced to it by set_evaluation_bbox (the bounding box extended by two cells), up to a thousandth of the resolution in each coordinate for the samples of the refinement: two field functions that agree there give the same mesh or the same exception, with or without refinement and snapping, after any history of calls whose last use of the lattice did not throw, even if the field functions differ or throw elsewhere. Without refinement the values at the lattice points of the announced box are enough.",
  "all lattices with positive determinant, boxes, resolutions, pairs of field functions and sets of points at which they throw, seed points, snap points, histories, schedules and orders of hash sets",
  "A test evaluates a few fields; that no point outside of the box is ever asked for concerns every vertex that clustering, smoothing and refinement may produce.",
  ["include/polatory/isosurface/isosurface.hpp: generate, generate_from_seed_points, generate_common", "include/polatory/isosurface/lattice.hpp: add_node_unchecked, clustered_vertices, vertex", "include/polatory/isosurface/primitive_lattice.hpp: second_extended_bbox, first_extended_bbox", "include/polatory/isosurface/mesh/vertex_refiner.hpp: refine_vertices", "include/polatory/isosurface/field_function.hpp: set_evaluation_bbox"])
p("C75","Everything an interpolant evaluates lies inside the cube of the FMM tree",
  "For every anisotropy and every non-empty set of finite points the cube built from their bounding box contains all transformed points strictly inside, even if all points coincide. After any history of fits and evaluations, Interpolant::evaluate uses an evaluator whose cube contains all centers, gradient centers and given points; after set_evaluation_bbox with a non-empty finite box it contains the centers and all points of the box widened by half a percent. So all points that mesh generation asks RbfFieldFunction or RbfFieldFunction25D for (C74) are inside, provided the announced box is wider than a fifth of the resolution in each direction - which holds if the anisotropy of the lattice stretches no coordinate direction more than 13 times, but with stronger anisotropy samples of the refinement can be outside. The 2.5D field is the height above the interpolant. The tree height is defined wherever it is used (at least 1024 points), at least 2 (3 in up to three dimensions), monotone in the number of points and gives about 2^d points for each leaf.",
  "all dimensions, anisotropies, point sets, boxes, histories of calls, resolutions and lattices",
  "A test tries a few point sets; a point outside of the cube is silently sorted into a wrong cell, and whether one can be outside depends on all boxes, anisotropies and histories.",
  ["src/fmm/utility.hpp: make_box, fmm_tree_height", "include/polatory/interpolant.hpp: evaluate, set_evaluation_bbox_impl, fit, fit_incrementally, fit_inequality", "include/polatory/isosurface/rbf_field_function.hpp: RbfFieldFunction", "include/polatory/isosurface/rbf_field_function_25d.hpp: RbfFieldFunction25D", "src/fmm/fmm_evaluator.hpp: prepare", "src/fmm/fmm_symmetric_evaluator.hpp: prepare"])
p("C76","The description of a covariance model describes its covariance functions",
  "Model::description() throws std::runtime_error unless every function is a covariance function. Otherwise its table shows the nugget and, in order, one row per function with its type and partial sill, positive ranges in descending order and angles with dip azimuth in [0, 360), dip in [0, 90] and rotation in [0, 180) (only a rotation in [0, 180) in two dimensions, none in one), such that the function of this type, partial sill and ranges along the axes turned by these angles has the same value as the model's function at every point, for every invertible anisotropy. So models with the same table have the same covariance functions. The underlying decomposition of an anisotropy yields a proper rotation and positive scales reproducing all transformed lengths.",
  "all covariance models in one, two and three dimensions with invertible anisotropies and positive ranges, all directions, all Euler angles",
  "The angles go through several reflections and wrap-arounds depending on their quadrant, and the columns of the eigenvectors have arbitrary signs: a test sees a few orientations.",
  ["include/polatory/model.hpp: Model::description, is_covariance_model", "include/polatory/geometry/anisotropy.hpp: decompose_inverse_anisotropy"])
p("C77","The model options of the commands stand for exactly one model",
  "The tokens of --rbf together with --nug and --deg are turned into a model exactly if they are a sequence of one or more functions, each written as one of the sixteen names, then its parameters as decimal numerals (two, or for polyharmonic functions also none or one, completed by scale 1 and c 0), then any number of times the word aniso and Dim*Dim numerals in row order with a positive determinant of which the last counts, with a trend degree that is allowed (or -2 for the least possible one) and a nonnegative nugget; the model then has exactly these functions in this order, this degree and this nugget, and no other reading of the tokens is possible. All other options are refused with std::runtime_error or std::invalid_argument; reading always ends. Every model of the library whose numbers can be printed as numerals can be written this way.",
  "all lists of tokens, nuggets, degrees and dimensions; all models",
  "The parser interleaves several loops over the same iterator; a test tries a few option strings, not all lists of tokens.",
  ["examples/common/make_model.hpp: make_model, is_identifier, is_number, throw_unexpected_input", "examples/common/model_options.hpp: ModelOptions, make_model_options_description", "include/polatory/rbf/make_rbf.hpp: make_rbf", "cli/create_model_command.cpp: run_impl"])
p("C78","The OBJ file of a mesh determines the mesh",
  "Reading the file export_obj writes gives back the vertices, bit for bit and in order, and the faces in order, with corner numbers counted from one as OBJ requires; the file holds a comment exactly if the mesh has no faces, which is '# entire' exactly if is_entire() and '# empty' exactly if is_empty(). Two different meshes never have the same file.",
  "all meshes a constructor makes, with any vertices and faces",
  "A test writes a few meshes; that no two meshes share a file and that every number survives is about all of them.",
  ["include/polatory/isosurface/mesh.hpp: Mesh::export_obj, is_empty, is_entire, EntireTag", "include/polatory/numeric/conv.hpp: to_string"])
p("C79","unique keeps whole rows, separated and covering, and is idempotent",
  "polatory unique writes a table whose rows are rows of its input, with all their columns and in the same order, the first one among them; the points of two different rows of the output are farther apart than --dist, and the point of every row that was dropped is within --dist of that of an earlier row that was kept. If no two points are that close nothing changes, and running the command on its own output with the same or a smaller distance gives the same file byte for byte. A distance that is too small or NaN, an unsupported dimension and an empty file are refused before anything is written.",
  "all input files, distances and dimensions",
  "A test filters a few files; separation, covering and idempotence are about all tables and distances.",
  ["cli/unique_command.cpp: run_impl, UniqueCommand::run", "include/polatory/point_cloud/distance_filter.hpp: DistanceFilter", "include/polatory/table.hpp: read_table, write_table"])
p("C80","evaluate and cross-validate write one line for every line they read, next to its own point",
  "Line i of the output of polatory evaluate holds the point of line i of the input, the value of the interpolant at that point and, with --grads, the components of its gradient at that point. Line i of the output of polatory cross-validate is line i of the input, with all columns, followed by the value at its point of an interpolant fitted to exactly the points and values of the lines that belong to other sets, whatever the order of the sets. Unsupported dimensions and empty files are refused. (Tables with too few columns are not: they are read past their end.)",
  "all input files, dimensions, interpolants and assignments of lines to sets",
  "A misplaced reshape or a mixed-up index shows only for some numbers of points and dimensions; tests use a few.",
  ["cli/evaluate_command.cpp: run_impl", "cli/cross_validate_command.cpp: run_impl", "include/polatory/kriging/cross_validate.hpp: cross_validate", "include/polatory/common/concatenate.hpp: concatenate_cols"])
p("C81","show-variogram describes every variogram of a set",
  "For a three-dimensional set of variograms the overview lists every variogram once, in order, with its total number of pairs and an azimuth in [0,360] and an elevation in [0,90] that point along its direction or, if it points downwards, against it. The listing of a variogram has one line per bin, in order, with its number of pairs and with distance and gamma rounded by at most five millionths of the largest in the variogram; an id that is not in the set is refused. (One- and two-dimensional sets, which the command accepts, make the overview read a component that does not exist.)",
  "all directions of length one, all sets of variograms, all ids",
  "The branches on signs of angles only show their mistakes in some octants; tests look at a few directions.",
  ["cli/show_variogram_command.cpp: run_impl, format_precision", "include/polatory/kriging/variogram.hpp: Variogram", "include/polatory/kriging/variogram_calculator.hpp: set_directions"])
p("C82","fit-model-to-variogram saves the best of its trials",
  "The model that is printed and saved is the model of a trial whose final cost is least among all trials, the first such one; a trial with an infinite or NaN cost is never chosen; the cost does not get worse with more trials. If no trial has a finite cost, the given model is saved unchanged.",
  "all sequences of trials and costs, including infinite and NaN costs",
  "Fitting is randomised; a test cannot enumerate sequences of costs with ties and NaNs.",
  ["cli/fit_model_to_variogram_command.cpp: run_impl", "include/polatory/kriging/variogram_fitting.hpp: VariogramFitting"])
p("C83","normals-to-sdf uses the wanted share of the normals and keeps every point",
  "With a ratio r in [0,1] and n points, polatory normals-to-sdf writes all points with value zero, in order, and then one point on the negative and one on the positive side of each of k normals (those that are not zero), where k is r*n rounded, whichever normals the shuffle picks; each has the properties of signed distance data (C47). With r = 1 all normals are used, with r = 0 none. For different points with unit normals the command ends. Other ratios, NaN included, are refused.",
  "all points, normals, ratios, offsets and outcomes of the shuffle",
  "Which normals are used depends on a shuffle and a rounding; tests fix one generator and a few ratios.",
  ["cli/normals_to_sdf_command.cpp: run_impl, NormalsToSdfCommand::run", "src/point_cloud/sdf_data_generator.cpp: SdfDataGenerator"])
p("C84","create-model, fit, evaluate and extract-model work together",
  "polatory create-model writes the model its options stand for; fit --model uses exactly this model, and extract-model gives the same file back byte for byte. fit runs the fitter its options ask for on exactly the points and values in the lines of the table (with --ineq also the two bounds of each line), followed by the points and vectors of the gradient file, started with the weights of --initial at the same places, and writes the points, the weights and the model; if an argument is not acceptable or the fitter throws, the command throws and writes nothing. evaluate evaluates exactly this interpolant, so fit followed by evaluate on the same table gives, line by line, values as near to the given ones as the fitter promises. --grad-in with --ineq, --initial with --reduce and other dimensions than 1, 2, 3 are refused. (Found: --reduce is silently ignored with --ineq; a table with missing columns is read past its end.)",
  "all tables, gradient tables, model and interpolant files, options, and all results of the fitters",
  "Tests fit and evaluate in one process on a few tables; that no value gets to the wrong point on the way through three files holds for all of them only by proof.",
  ["cli/fit_command.cpp: run_impl, FitCommand::run", "cli/evaluate_command.cpp: run_impl", "cli/create_model_command.cpp: run_impl", "cli/extract_model_command.cpp: run_impl", "include/polatory/interpolant.hpp: Interpolant"])
p("C85","estimate-normals writes one oriented normal per point, in order",
  "polatory estimate-normals writes one row for each row of its table, in the same order: the point unchanged and a normal. The normal is that of a best-fitting plane through the nearest k points (or the points within the radius), for the k (radius) with the largest plane factor among those given (10, 30, 100, 300 by default), or its negation; it is zero exactly when that factor is below the threshold. With --point and --direction every normal has a non-negative product with the direction asked for, otherwise each connected part is oriented consistently and not downwards at its highest point. Conflicting options, k below 3 and radii that are not positive are refused; with one or two points all normals are zero. The output is fit for normals-to-sdf: for different points that command ends and writes all the points. (Found: the help says that a threshold of 1.0 disables filtering; it does not - points around a line have a smaller plane factor and lose their normals.)",
  "all tables, options, decompositions, and orders of the priority queue",
  "Tests of the estimator look at a few clouds and do not run the command; the row order, the defaults and the sides hold for all tables only by proof.",
  ["cli/estimate_normals_command.cpp: run_impl, EstimateNormalsCommand::run", "src/point_cloud/normal_estimator.cpp: NormalEstimator", "src/point_cloud/plane_estimator.cpp: PlaneEstimator", "cli/normals_to_sdf_command.cpp: run_impl"])
p("C86","Following the field from seed points always ends, and finds the surface unless there is a false minimum",
  "generate_from_seed_points walks from each seed point towards the isosurface and then along it. For every field, box and list of seed points (those outside are moved into the box) this ends - after at most ten rounds per node of the extended box for the walk and one per pair of nodes for the following - and never reads a value that has not been computed. The node each seed is rounded to and its fourteen neighbours are sampled, nothing outside the extended box is, and what is sampled does not depend on the order of the seeds or on repetitions. Each step goes to an inner node whose value is nearer to the isovalue, to one that keeps the drift off the line of steepest descent smallest; only if all such nodes are at the border of the box does the search widen, up to ten steps. If the distance of the field from the isovalue has no minimum away from the surface, every seed leads down to an edge that the surface crosses, and both ends of every edge reached from there across the surface are sampled. (Found: a seed at a minimum away from the surface gives up silently, wherever the surface is.)",
  "all boxes, fields, gradients, seed points, and lattices with a positive determinant",
  "The walk depends on the values of the field at every node it meets; a test follows a few seeds in a few fields and cannot exclude that a walk never ends or reads a node that is not there.",
  ["include/polatory/isosurface/rmt/lattice.hpp: add_nodes_from_seed_points, knn_nodes, is_boundary_node, gradient, Seed", "include/polatory/isosurface/rmt/lattice_coordinates.hpp: make_lattice_coordinates_pair, LatticeCoordinatesLess", "include/polatory/isosurface/isosurface.hpp: generate_from_seed_points"])
p("C87","The commands isosurface and surface-25d write a mesh without cracks, and say when there is none",
  "polatory isosurface (of a three-dimensional interpolant) and surface-25d (of the height given by a two-dimensional one) write an OBJ file from which exactly the vertices and faces of the generated mesh are read back. If the interpolant is on one side of the isovalue outside the output box, the mesh is in the box and has no cracks, for every interpolant, box (or that of the interpolant if none is given), positive resolution, anisotropy with a positive determinant, seed points (the first of which is not a tie) and snap points; without snap points the same holds for every surface that crosses no lattice edge in its middle. Where the whole announced box is inside, or none of it, the file is just the comment entire or empty. Nothing is written for an interpolant that is not fitted or cannot be loaded, an anisotropy without a positive determinant, or tolerances that are not numbers from 0 to 1. (Found: a --bbox whose minimum exceeds its maximum is silently replaced by that of the interpolant; seed and snap tables with fewer than three columns are read beyond their end.)",
  "all interpolants, boxes, resolutions, anisotropies, isovalues and files of seed and snap points",
  "The commands combine reading tables, generating, snapping and clipping a mesh and printing it; a test runs them on a few interpolants and cannot exclude a crack or a face of a wrong vertex in others.",
  ["cli/isosurface_command.cpp: IsosurfaceCommand::run", "cli/surface_25d_command.cpp: Surface25DCommand::run", "include/polatory/isosurface/rbf_field_function.hpp: RbfFieldFunction", "include/polatory/isosurface/rbf_field_function_25d.hpp: RbfFieldFunction25D", "include/polatory/isosurface/isosurface.hpp: Isosurface, set_snap_points", "include/polatory/interpolant.hpp: bbox, throw_if_not_fitted"])
p("C88","The example offset_surface: signed distances from a mesh, and an offset surface on the wanted side of the points",
  "For an oriented mesh whose edges belong to at most two faces, the example finds exactly the edges and corners of the border. Its signed distance of a point is never more than the distance from the mesh in absolute value, and equals it unless the nearest point is on the border, where it is the distance from the plane of the face; on a closed mesh it is zero exactly on the mesh. Where the nearest point is inside a face, the point is that nearest point moved along the normal by the value; at an edge whose faces have normals with a positive product it does not matter which of the two is reported. The field of the offset surface is, within the tolerance, zero at the points of the table with side zero, not positive at those with a negative side, not negative at those with a positive side, if at least one point has side zero, and fitting reads nothing outside of its arrays. (Found: at sharper edges the sign depends on the face reported, so a point outside of a closed mesh gets a negative distance; the border found in a mesh with an edge of three faces depends on the order of the faces.)",
  "all meshes, points, answers of the tree that name a nearest point, tables of points with sides, and fitted interpolants",
  "Signs go wrong only in particular positions relative to edges and borders; a test with a few points around one mesh does not show that they are right everywhere.",
  ["examples/offset_surface/main.cpp: SignedDistanceField, OffsetFieldFunction, main", "include/polatory/interpolant.hpp: fit_inequality", "include/polatory/interpolation/inequality_fitter.hpp: fit"])
p("C89","The directions of anisotropic variograms leave no pair of points out",
  "With the anisotropic directions of VariogramCalculator (variogram --aniso), every pair of points is counted in exactly one direction if the angle tolerance is automatic, and that direction is at most 13.7 degrees from the line through the points (11.4 degrees in two dimensions, none in one). An angle tolerance from 13.7 (11.4) to 90 degrees leaves no pair out; one of at most 9.9 (11) degrees counts no pair of different points twice. (Found: a tolerance above 90 degrees is accepted but works as its difference from 180 degrees, so that with 180 degrees nearly all pairs are left out.)",
  "all pairs of points in one, two and three dimensions, all angle tolerances",
  "A gap between directions shows only for pairs in that gap; no finite set of pairs shows that 46 directions cover the sphere.",
  ["src/kriging/variogram_calculator.cpp: kAnisotropicDirections", "include/polatory/kriging/variogram_calculator.hpp: calculate, set_angle_tolerance, set_directions", "cli/variogram_command.cpp: run_impl"])
p("C90","The variogram command writes the variograms of the prepared values, and counts every pair once",
  "polatory variogram writes a file that loads as the empirical variograms of the points and values of the table: the values with the trend of --detrend taken off (the rest is orthogonal to every polynomial of the degree), replaced by their normal scores with --normal-score, the semivariances then transformed back with the Hermite coefficients of the same data; --angle-tol is in degrees; without --aniso the direction is the first axis. Whatever the schedule of the threads, the counts of all variograms add up to the number of (pair, direction, lag) with the pair in the direction and within the tolerance of the lag; with automatic tolerances and no distance half-way between lags every pair closer than (lags - 1/2) lag distances is counted exactly once. In every variogram distances, semivariances and counts are as many, there is at least one, counts are positive, semivariances not negative, and distances ascend if the lag tolerance is at most half a lag. A degree above 2, a tolerance neither -1 nor positive, a negative number of lags and an unsupported dimension are refused. (Found: a table with too few columns and normal scores of fewer than two rows are undefined behaviour.)",
  "all tables, options, thread schedules, points and values",
  "That no pair is lost or counted twice, whatever the schedule, and that each option reaches the computation in every combination, is a statement about all tables and interleavings.",
  ["cli/variogram_command.cpp: run_impl, run", "include/polatory/kriging/variogram_calculator.hpp: calculate", "include/polatory/kriging/variogram_set.hpp: back_transform", "include/polatory/kriging/variogram.hpp: back_transform"])
p("C91","Searches of a KdTree find the right points, from any number of threads",
  "KdTree::knn_search gives min(k, number of points) different points with their distances, and no other point is nearer than one of them; radius_search gives different points with their distances, every point nearer than r(1 - 2^-24) and none farther than r(1 + 2^-24) (the squared radius is rounded to float), and the former contents of the vectors are gone. k <= 0 and a negative or NaN radius throw invalid_argument. In any interleaving of threads, on the same tree or on several, every thread gets from its calls what it gets running alone. DistanceFilter on such a tree keeps no two points nearer than d(1 - 2^-24), and every point left out has an earlier kept point within d(1 + 2^-24). (Found: searches of a tree without points leave the vectors of the caller as they were; DistanceFilter keeps pairs of points within the distance, because the squared radius is rounded down.)",
  "all sets of points, query points, k, radii from 2^-63 to the square root of the largest float, threads and interleavings",
  "The rounding matters only for distances within one part in 16 million of the radius, and a shared buffer only in some interleavings; tests hit neither.",
  ["src/point_cloud/kdtree.cpp: KdTree::Impl::knn_search, KdTree::Impl::radius_search, indices_v_, distances_v_, KdTree::knn_search, KdTree::radius_search", "include/polatory/point_cloud/distance_filter.hpp: filter"])
p("C92","The program reaches every command by its name, and its status and files tell what happened, at every crash point",
  "polatory NAME ARGS runs the command of that name and no other, and each of the 14 commands has one name. --help ends with status 0 (with any further options), no or an unknown command, options that do not parse and options refused end with status 1, and no file is touched. A command ends with status 0 only if all its inputs could be read and gave a result; then, if the disk has room, the output file has the whole result (even if it is one of the inputs) and no other file has changed. If it ends with status 1 no file was changed at any time. If the process is stopped at any moment, no file but the output has changed, and that holds the first bytes of the result. (Found: nothing looks at the stream after writing, so that on a full disk every command ends with status 0 and leaves a truncated output.)",
  "all argument lists, contents of files, permissions, amounts of room on the disk and moments at which the process is stopped",
  "The states of the files at every crash point and every point where the disk fills up cannot be enumerated by tests.",
  ["cli/main.cpp: main", "cli/commands.hpp: POLATORY_COMMAND", "cli/unique_command.cpp: run, run_impl", "include/polatory/table.hpp: read_table, write_table", "include/polatory/common/io.hpp: load, save", "include/polatory/isosurface/mesh.hpp: export_obj"])
p("C93","Python objects are kept while they are needed, and the model of an interpolant is its own",
  "Whatever statements a Python program runs that make, name, rename, delete, fit and change models, interpolants and their model attributes, no statement and no evaluation uses memory that has been freed. The object passed to Interpolant(model) can be changed afterwards without any effect on the interpolant. A field function gives the values of its interpolant as it is at that moment, as long as the name of the interpolant is kept. An array x.weights keeps its numbers, whatever becomes of x, while nothing is fitted. (Found: fitting x again frees the memory such an array uses, so that reading it afterwards is undefined. The field function itself does not keep the interpolant: RbfFieldFunction(x), del x, generate uses freed memory. Interpolant.model is read-only but what it gives is not: x.model.parameters = q changes a fitted interpolant, which then evaluates the weights computed for the old parameters with the new ones.)",
  "all histories of Python statements on models, interpolants, attributes, field functions and names",
  "Whether an object outlives what refers to it depends on the whole history; a test sees freed memory only by luck.",
  ["python/python_binding.cpp: define_module (Model, Interpolant, RbfFieldFunction)", "include/polatory/isosurface/rbf_field_function.hpp: RbfFieldFunction", "include/polatory/interpolant.hpp: Interpolant, model"])
here = os.path.dirname(os.path.abspath(__file__))
with open(os.path.join(here, "..", "properties.jsonl"), "w") as f:
    for x in P: f.write(json.dumps(x)+"\n")
print(len(P))
