# Formal model of polatory in Lean 4 — design

## Layout
* `properties.jsonl` – the English properties C01 …, generated by `tools/gen_props.py`.
* `lean/Verif/Model/*.lean` – the model: total functions; each definition cites the file and lines of /repo it models and says what is simplified.
* `lean/Verif/Spec/*.lean` – small independent specifications, where a property needs its own vocabulary; they do not use the model's helpers.
* `lean/Verif/Lemmas/*.lean` – helper lemmas, with no claim of their own.
* `lean/Verif/Props/*.lean` – the property theorems `Cnn_name`, each with a concrete example meeting its hypotheses.
* `MANIFEST.json` (generated by `tools/gen_manifest.py`, notes in `tools/notes.json`) – claim → theorem names and what is missing.
* `seeded/LOG.jsonl` – mutation tests: the model edited the way a bug would change the program, and the theorems that then fail (`tools/mutate.py`).

## Conventions
* C++ exceptions are an outcome of the call (`Outcome.throw`); undefined behaviour (out-of-bounds access, null dereference, an
  unrepresentable cast) is a distinct outcome (`Outcome.ub`), never silently totalised. Calls that may throw return the state they leave behind.
* `double` is modelled in one of three ways, stated per file: (a) as an opaque bit pattern (serialisation, parameters); (b) as a real number –
  "exact arithmetic" –, with NaN and infinities as `none` where the code can meet them; (c) as an arbitrary type, or by arbitrary
  computed values of the predicates, where control flow must be right whatever rounding does.
* External code (FMM library, LDLT/SVD/LU of Eigen, flann kd-tree, OS calls, random generators) enters as arbitrary functions; what is
  assumed of them is a hypothesis of the theorem.
* Loops are folds or structural recursion where they are bounded; otherwise recursion with fuel, plus a theorem that the fuel suffices
  (termination) or that none does (the hang is the finding).
* Threads: a parallel loop is a schedule (which thread runs which iterations, in which order the threads reach the critical section) over
  which the theorem quantifies; `BinaryCache` is interleaved at the granularity of system calls.
* POLATORY_ASSERT is compiled out (release build); debug assertions are therefore not checks.

## Trusted base
* The kernel of Lean 4.33.0 and the axioms `propext`, `Classical.choice`, `Quot.sound`; no theorem depends on any other axiom
  (`tools/axioms.sh` lists the axioms of every claimed theorem). No `native_decide`, no `bv_decide`.
* The faithfulness of the model: that each definition says what the cited lines do. The mutation log shows that the theorems notice changes of
  the definitions; it cannot show that a definition matches the source.
* Outside of the model: compiler, standard library, OS, Eigen, Boost, ScalFMM, flann, fast_float; rounding except where noted.

## Per property: what is modelled, and how it is proved
| id | modelled | proof |
|----|----------|-------|
| C01 | `zip_sort`: zip, a sort meeting the contract of `std::sort`, unzip | permutation and sortedness of the zipped list |
| C02 | `complementary_indices`: sort and set_difference into a fixed buffer, overflow is undefined | induction on the merge |
| C03 | byte encoders/decoders of `common/io.hpp` for every supported type | round trip with an arbitrary tail, induction on structure |
| C04 | encoders of covariance functions, Model, Interpolant, Bbox, Variogram, VariogramSet | composition of C03 |
| C05 | fail-bit semantics of istream | truncated input: which cuts are rejected, which accepted (negative witnesses) |
| C06 | list with node identities + map | invariant over histories, refinement of a specification LRU |
| C07 | system calls on a shared descriptor, mutex, record table | invariant over all interleavings |
| C08 | parent array with path halving | forest invariant, equals the generated equivalence |
| C09 | adjacency matrix, DFS/BFS with fuel | reachability; fuel suffices |
| C10 | link graph of each vertex on top of C09 | equals the specified link; any schedule |
| C11 | face grid, per-thread accumulation, merge, sort, unique | completeness by C36/C55, any schedule |
| C12, C13 | Model and its covariance functions as a state machine | case analysis, induction over the functions |
| C14, C15 | Interpolant: every public call as a state transformer | invariant over histories; negative witnesses for the two-step interface |
| C16 | `build_initial_weights`: map from locations to weights | list lemmas |
| C17 | greedy filter over a distance | induction over the indices |
| C18 | fitting loop with an arbitrary solver/evaluator | invariant of a pass, termination measure by separation |
| C19 | fitting loop with active sets | invariant of a pass; greedy filter on the sorted residuals for what a pass adds; negative witnesses for the index mismatch |
| C20 | solver loop with NaN-aware numbers | induction on iterations |
| C21 | Arnoldi + Givens recurrences of GMRES/FGMRES in an inner product space | induction; minimality of the residual |
| C22, C23 | domain division over sorted lists; coarse point selection with fuel | strong induction; hang as a theorem |
| C24 | writes of the subdomains as index → value maps | disjointness ⇒ any order gives the same |
| C25 | packing of the LDLT factor, memcpy ranges | injectivity of the triangular index |
| C26 | reduced systems of coarse/fine grids | matrix identities; wrong gradient rows as a theorem |
| C27, C28 | direct operator/evaluator/matrix; split of the accuracy | Finset sums, triangle inequality |
| C29, C30 | lag bins, per-thread builders, merge | floor/ceil lemmas; commutative monoid, any schedule |
| C31 | loop over set ids with an arbitrary fit | induction over the ids |
| C32 | QR-free statement of detrending on orthonormal columns | normal equations |
| C33 | ranks, ordering, inverse | order lemmas |
| C34 | case tables of tetrahedron.hpp/neighbor.hpp, node list, both ways of filling the lattice, vertex creation, mesh generation | finite tables checked by the kernel and lifted to all lattices and fields; end to end on the resulting mesh (manifold, oriented, closed inside) |
| C35 | half-edge structure: every edit operation incl. failure states | invariant over histories of edits |
| C36 | hash grid and FaceGrid | invariant over histories of inserts/removals |
| C37 | clip case tables, vertex sharing, in-circle choice | case analysis; convex geometry in exact arithmetic |
| C38 | generate()/generate_from_seed_points() with the lattice state | invariant over histories incl. exceptions; sign argument through C34 |
| C39 | boxes with extended reals/NaN | order lemmas |
| C40 | text tables; number formatting by hypothesis | induction over characters |
| C41, C42 | all radial functions over ℝ incl. the spheroidal constants | Mathlib derivatives; rational bounds on constants |
| C43, C44 | monomial and Lagrange bases | derivatives; linear algebra |
| C45 | modified Gram–Schmidt | induction over columns |
| C46 | orientation loops with priority queue/connected components | invariants |
| C47 | SDF offset loop with fuel | geometry in an inner product space |
| C48 | rejection sampling over an arbitrary stream | case analysis |
| C49 | unisolvent point search with fuel | induction |
| C50 | configuration search | case analysis over the list of configurations |
| C51, C53 | bit tricks on `BitVec w`, the packed per-node storage | popcount/rank lemmas, refinement of a map |
| C52 | concatenation of rows/columns | list lemmas |
| C54 | evaluators as state machines | invariant over histories of calls |
| C55 | segment/triangle predicates | separating planes: if the code says "no", the sets are disjoint |
| C56, C57 | primitive lattice: extended box, loop ranges, nearest node, containing tetrahedron | linear inequalities over ℝ |
| C58 | construction of the levels and one application of the preconditioner | composition of C22–C26; hang as a theorem |
| C59 | `point_triangle_closest` | Voronoi-region case analysis ⇒ minimal distance |
| C60 | thinner: collapse tests, mesh edit (C35), grids (C36), queue | invariant over the loop |
| C61 | smoother: flip tests, queue with budgets | invariant over the loop, termination |
| C63 | snapper: classification, the three kinds of placement with undo, patches (C62), grids (C36), intersection tests (C55), queue with budgets | invariant over the loop (`J`), termination by rounds, counting sides |
| C64 | vertex refiner: samples, fitted gradient, capped step, snapping, orientation and crossing tests (C55), grid (C36) | the moves as a sequence of steps over positions; induction over it |
| C65 | vertex clusterer: disjoint sets (C08), quadric position, renumbering, back-to-back faces, defect finder (C10, C11), roll-back loop | specification as a quotient of the mesh and a sequence of rounds; counting sides; walk around a vertex |
| C66 | `generate_common` with the modelled steps themselves (C34, C37, C38, C56, C60, C61, C63–C65) in the places of the parameters of the C38 model | closedness (each edge has as many faces on one side as on the other) is an invariant of every step; composition; a concrete call that returns |
| C67 | the same for surfaces that leave the extended box, without snap points | invariant `Skirt`: where the mesh is open it is beyond the margin around the box and at outer nodes; the margin of the lattice (any anisotropy) is larger than half the resolution in each coordinate (`steady`) |
| C68 | `PlaneEstimator` over any function that satisfies the contract of a singular value decomposition (shown to exist for all matrices by the spectral theorem), put into the model of the normal estimator (C46) | squared distances in terms of singular values (Parseval), shift to the barycenter; composition with C46 |
| C69 | `Model/Minres.lean`: the state of GMRES plus β; one `iterate_process` with the three-term recurrence, the two old rotations applied to the band column and the new rotation; `setup`, `solution_vector`, residual shared with the GMRES model. | Lockstep induction with the GMRES run: with a symmetric operator the entries of the Hessenberg column above the band vanish, so both runs produce the same basis, R, rotations and g; C21 then carries over. The unsymmetric counterexample is computed for the rotation of the plane by a right angle. |
| C70 | `Model/FmmKernel.lean`: the four kernels as the list of writes into the array in loop order, for points already transformed; `block` reads the array with the layout of the evaluators; the batch form lane by lane. | Chain rule on top of C41 (gradients and Hessians of the covariance functions), symmetry of the Hessian matrix, and array bookkeeping. |
| C71 | `Model/Evaluator.lean`: an elementary evaluator is the list of calls it received, with results by the FMM model of C54, the direct evaluator (particles, tree, search bound rounded to float) or their sum; `Evaluator` with head/segment/tail of weights and results, polynomial rows, exceptions part way. | Invariant over histories: every elementary evaluator has been told the latest points and its segment of the weights; each implementation returns the full sum (C54; compact support makes far blocks zero; the split parts add up); sums regrouped into the form of C27. |
| C72 | `Model/FmmSymmetric.lean`: the symmetric FMM evaluator with its sorting, configuration cache and tree; the symmetric direct evaluator with its kd-tree; their sum; `Operator` and `SymmetricEvaluator` on four elementary evaluators per covariance function, with exceptions part way and the self interaction's exception. | Invariant over histories: every elementary evaluator has been told the latest points (and weights); each implementation returns the full sum (self block depends only on the difference; far blocks vanish); sums regrouped into the form of C27. |
| C73 | Model/VariogramFitting.lean: parameters, bounds, clamping, set_parameters, the residual functors of the three specialisations (anisotropy blocks as a Scheme), constructor with Ceres as an arbitrary function, model() | clamping loop computed by induction; setting parameters and anisotropies described position by position (Describes); rotations orthogonal with determinant 1; optimality carried over by uniqueness of the description |
| C74 | Model/Pipeline.lean, Model/Isosurface.lean, Model/Clusterer.lean, Model/Refiner.lean; Spec/FieldLocal.lean: Near, IsField | congruence of the lattice functions under agreement of fields on nodes in the box (Lemmas/FieldLocal.lean); vertices and clustered vertices stay in the extended box since they are clamped to it, smoothing does not move them, offsets of the samples are at most a thousandth of the resolution (Lemmas/FieldLocalBox.lean) |
| C75 | Model/FmmBox.lean: make_box and fmm_tree_height over doubles without rounding, the projection of the 2.5D field function; with Model/Bbox.lean, Model/Interpolant.lean, Model/PrimitiveLattice.lean | explicit bounds of a transformed box (centre plus or minus the sum of |a_kj| times half widths), strictness from the factor 1.01; the interpolant's box is the box of its centers by induction over the history; width of the extended box from three orthogonal lattice vectors and Cauchy-Schwarz; a counterexample for strong anisotropy |
| C76 | Model/Description.lean: decompose_inverse_anisotropy over an arbitrary eigenvalue solver, the normalisation of the angles over real numbers with fmod, atan2 as the argument of a complex number, the rows of the tables; formatting is not modelled | spectral form of the squared length; each reflection of the angles changes the columns of the rotation at most by signs, which the covariance does not see; scaling lemma for each kind of covariance function; the promises of the solver and of the Euler angles are proved satisfiable (spectral theorem, explicit Euler angles) |
| C77 | Model/MakeModel.lean: the regular expressions as RegularExpression Char, the loops of make_model over a list of tokens, on top of Model/RbfModel.lean; conversions of numerals and the determinant are parameters | the language of the regular expressions is characterised (Language.mem_mul, mem_kstar); soundness and completeness of the parser against a grammar by induction on the tokens and on the functions, using that names, numerals and the word aniso exclude each other where they have to; termination by length |
| C78 | Model/Obj.lean: the mesh, its constructors and the characters written; numbers print as in Model/Table.lean | a reader for OBJ lines (Spec/Obj.lean) inverts the writer line by line (split at blanks, decimal digits); lines_unlines puts the lines together |
| C79 | Model/Cli.lean: the commands as functions from file contents to file contents, on top of Model/Table.lean and Model/DistanceFilter.lean | composition of the round trip of tables (C40) and the distance filter (C17); idempotence by showing that a separated table is kept entirely |
| C80 | Model/Cli.lean (columns, beside, reshaped, evaluateImpl, crossValidateImpl); the interpolant enters through its functions, cross validation through Model/Kriging.lean | lists of rows as maps of the input rows; the reshaped tail of the values by induction on the rows; C31 for the predictions and C40 for the files |
| C81 | Model/ShowVariogram.lean: the angles, the loops and the precision over the reals | polar coordinates from Complex.norm_mul_cos_arg, cos_arcsin, turning by half and full circles; floor of the logarithm for the precision |
| C82 | Model/ShowVariogram.lean (less, bestOf, fitModel): costs are extended reals or NaN | invariant of the loop by induction on the trials |
| C83 | Model/NormalsToSdf.lean on top of Model/SdfData.lean: rounding, the cut of the shuffled indices, the zeroed normals | the shuffled indices are a permutation: taken and dropped part are disjoint; C47_result and C47_ends for the masked data, transferred to the original data |
| C84 | Model/FitCommand.lean: the commands as functions from file contents to file contents, on top of the models of tables (C40), of the interpolant (C14), of the binary files (C04) and of the model options (C77); the three fitters and the evaluator are parameters | C14_step for the single call on a new interpolant, C04 for the file, C40 for the tables, then C80 for evaluate |
| C85 | Model/EstimateNormals.lean: the options and the command on the points of the table, on top of the models of the normal estimator (C46) and the plane estimator (C68); reading and writing of tables is C40/C80 | C46 for each step, composed; C68 for the planes; C83 for the command that follows; a concrete cloud for the threshold |
| C86 | Model/SeedTracking.lean: the two while loops with the lattice of Model/Lattice.lean, the scan of the neighbours, the choice of the next node, the pairs; the direction of steepest descent is an arbitrary function of the node (the nodes it is computed from must be evaluated), exact arithmetic, the field does not throw | a measure (nodes nearer to the isovalue, width of the search) for the walk, unvisited pairs for the following; the loops are equal to loops without the lattice while its invariant holds; the visited pairs at the end are closed; then C38_from_seeds |
| C87 | Model/IsosurfaceCommand.lean: the bodies of both commands over the models of tables (C40), the generator (C38, C66), seed tracking (C86) and OBJ files (C78); the loaded interpolant is a real-valued function with a box, numbers are converted to reals and back by two functions, accuracies and option parsing are left out | the files are read back (C40); tracking ends (C86) and its batches are those C38_from_seeds wants; then C66 and C67 for the mesh, C38 and the sign of the field where there is none, C78 for the file |
| C88 | Model/OffsetSurface.lean: the border set, the signed distance, the split of the table into values and bounds, the field; exact arithmetic; the tree and the barycentric coordinates of libigl are a parameter (Nearest: a nearest point, a face it is in, its coordinates), the sign of a negative zero is left out, so are reading the files (C40, C78), a table of fewer than four columns (undefined behaviour) and the generation of the surface (C38, C66) | invariant of the toggled edges for the border; convexity of a face and variation of the nearest point for the side; Gram determinant for edges; a tetrahedron for the defect; C19 for the fit, whose solver hypothesis cannot hold if two closest points coincide |
| C89 | Model/Directions.lean: the tables of directions with their decimals as integers, over the calculator of C29 (real arithmetic) | the convex hull of the directions and their opposites: a vector is in the cone over the face that reaches furthest in its direction (its coordinates are not negative because the neighbouring faces reach less far), and there its product with the best corner is at least the distance of the face; the 180 faces are a certificate checked by the kernel in integer arithmetic; Gram determinant for the other direction |
| C90 | Model/VariogramCommand.lean: the command as a function from the text of the table to the bytes of the variogram file, over the models of the table (C40), detrend (C32), normal scores (C33), the calculator (C29) and files (C04); numbers are real, converted from and to doubles by functions | composition of C29, C32, C33, C40, C04; exchange of the sums over directions, bins and pairs; rounding to the nearest lag is unique away from the half-way distances |
| C91 | Model/KdTree.lean: checks, the branch for no points, the squared radius converted to float, buffers for each thread, the copy with square roots; flann's index and the conversion are parameters, exact index and rounding to the nearest binary32 are the hypotheses | relative error of rounding to nearest with 24 bits from the exponent interval; projection of an interleaving on one thread by induction; C17's invariant with the float bound in place of the distance |
| C92 | Model/Main.lean: a program reads and writes files, with the states passed through; the dispatch of main, the common part of the run functions, and which files each of the 14 commands reads and writes; parsing and what is computed are parameters | each command is shown to be a sequence of reads followed by one write, then induction over the reads; instance: unique with the same file for input and output, by C79 |
| C93 | Model/PythonObjects.lean: names, objects and what refers to what, with the return value policies of pybind11; an object is freed when nothing keeps it; solver and values are parameters | invariant (names and attributes refer to objects in memory) by induction over the statements; the three further theorems hold after any history |
| C62 | triangulation: ear clipping, insertion, Lawson flips on the half-edge mesh | topology for arbitrary predicate values; geometry exact |

Nothing in the list was found to be inexpressible in a model (no claim is `not_applicable`); where a statement is false of the code the
claim is `partial`, the true part is proved and the failure is a theorem.

## What is false of the code (each a theorem)
`C05_*` truncated files are loaded · `C15_stale_evaluator`, `C15_null_evaluator` · `C18_conflicting_duplicates_never_return`,
`C18_single_large_value_is_ignored` · `C19_unconstrained_point_reads_out_of_bounds`, `C19_too_few_values_are_ignored`, `C19_worse_offender_passed_over` · C23/`C58_constructor_hangs`
(the constructor of the preconditioner never returns for some sizes) · C26 wrong gradient rows, `C58_coarse_values` (nugget left out between
levels) · `C33_fewer_than_two_data_are_undefined` · `C35_rejected_face_is_kept`, `C35_rejected_face_leaves_links` · `C37_outside_dropped` ·
`C38_stale_after_throw`, `C38_seed_tie_throws` · `C39_transformed_empty_box_is_not_empty` · `C40_leading_blank_line_drops_the_rows` ·
`C41_even_hessian_nan` · `C46_smaller_radius_undefined` · `C47_duplicate_point_gives_nan`, `C47_long_normals_never_end` ·
`C50_zero_accuracy_is_not_checked` · `C54_retry_does_not_throw` · `C55_flat_wall_is_reported` · `C56_missing_plane_undefined`,
`C56_loop_undefined` · `C62_short_labels` · `C64_throws`, `C64_empty` (second half) · `C07_short_write_corrupts`, `C11_degenerate_faces_overflow`, `C25_order_two_overlaps`.

## Files of /repo: modelled / not modelled
Modelled: `common/` (zip_sort, complementary_indices, concatenate, orthonormalize, io), `model.hpp`, `interpolant.hpp`, `table.hpp`,
`numeric/conv.hpp` (by hypothesis), `geometry/bbox3d.hpp`, `rbf/*`, `polynomial/*`, `interpolation/*` (fitters, solver, direct operator and
evaluator, accuracy split), `preconditioner/*`, `krylov/gmres*`, `fgmres`, `minres`, `kriging/` (variogram builder/calculator/set, cross_validate,
detrend, normal score), `point_cloud/` (kd-tree, distance filter, plane and normal estimator, SDF data, random points), `fmm/` (evaluators as state
machines, LRU cache, configuration search), `isosurface/` (bit, rmt/*, mesh defects, abstract mesh, grids, graph, predicates, clip,
isosurface.hpp, closest point, snapper/{snapper, thinner, smoother, triangulation}, vertex_refiner.hpp, vertex_clusterer.hpp,
quadric_position.hpp, the OBJ writer), `kriging/variogram_fitting*`, and the commands of `cli/` as functions from the text of their inputs to that of their outputs.

Not modelled: the FMM algorithm itself (by contract), flann's index (by contract; `kdtree.cpp` around it is, C91), Eigen's decompositions (by contract), the
numerical optimiser called by `variogram_fitting`, parsing of the command line by Boost, the Python binding (except which objects it keeps, C93), `examples/`, floating-point
rounding (except C41's constants, the interpolation hypothesis of C37 and the float radius of C91).
