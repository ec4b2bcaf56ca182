{"id": "C01", "title": "gcd and lcm are right for every pair of integers", "statement": "gcd(a,b) terminates and returns the non-negative greatest common divisor of a and b (the other one's absolute value when one is 0); lcm(a,b) returns a value whose magnitude is the least common multiple, 0 iff one argument is 0, and on non-negative arguments is non-negative. The only other outcome is signed overflow of the product a*b, which the caller must exclude.", "quantifier": "all pairs of 64-bit integers", "why_tests_cant": "2^128 input pairs; termination of the recursion must hold for all of them", "anchors": ["lib/math_support.c:gcd", "lib/math_support.c:lcm"]}
{"id": "C02", "title": "Simplifying a constraint system never changes its solutions", "statement": "pluto_constraints_simplify (row gcd normalisation, sorting, removal of duplicate and trivial rows) leaves the set of solutions of every system of the list unchanged, and never increases the number of rows.", "quantifier": "all constraint systems (any number of rows, columns, any list length), all integer and all rational points", "why_tests_cant": "infinitely many systems and points", "anchors": ["lib/constraints.c:pluto_constraints_simplify", "lib/constraints.c:row_compar"]}
{"id": "C03", "title": "Fourier-Motzkin elimination computes the exact rational shadow", "statement": "After eliminating variable pos, a rational point satisfies the resulting system iff it can be extended by some rational value at pos to a solution of the input; for integers, every projected integer solution satisfies the result (sound over-approximation). The same holds for a whole sequence of eliminations (projecting out a range).", "quantifier": "all systems with equalities and inequalities, all positions, all points", "why_tests_cant": "quantifies over all systems and over an existential witness value", "anchors": ["lib/constraints.c:fourier_motzkin_eliminate", "lib/constraints.c:fourier_motzkin_eliminate_smart", "lib/constraints.c:pluto_constraints_project_out"]}
{"id": "C04", "title": "Gaussian elimination of a variable bound by an equality is an exact rational projection", "statement": "pluto_constraints_gaussian_eliminate on a variable occurring in some equality yields a system whose rational solutions are exactly the projections of the rational solutions of the input, equalities staying equalities; every projected integer solution is kept.", "quantifier": "all systems having an equality with a non-zero coefficient at the eliminated position, all points", "why_tests_cant": "unbounded number of systems and coefficient values", "anchors": ["lib/constraints.c:pluto_constraints_gaussian_eliminate"]}
{"id": "C05", "title": "Rewriting equalities as inequalities preserves the solutions", "statement": "pluto_constraints_to_pure_inequalities_single returns a system without equalities that has exactly the same solutions as its input.", "quantifier": "all systems, all points", "why_tests_cant": "sum-of-equalities trick must be right for every number of equalities", "anchors": ["lib/constraints.c:pluto_constraints_to_pure_inequalities_single"]}
{"id": "C06", "title": "Farkas application is sound and complete", "statement": "farkas_lemma_affine(dom, phi) returns constraints on the unknown coefficients such that a coefficient vector satisfies them iff the affine form it defines is non-negative at every rational point of dom (soundness for every dom; completeness when dom is non-empty).", "quantifier": "all domains, all coefficient templates, all coefficient vectors, all points of the domain", "why_tests_cant": "quantifies over all points of a possibly unbounded parametric polyhedron", "anchors": ["lib/constraints.c:farkas_lemma_affine", "lib/constraints.c:pluto_constraints_best_elim_candidate"]}
{"id": "C07", "title": "Legality constraints guarantee non-negative dependence distance", "statement": "If a coefficient vector satisfies the permutability constraints built for a dependence, the hyperplanes it defines for source and target statement satisfy phi(target) - phi(source) >= 0 for every pair of instances in the dependence polyhedron, whatever the program parameters.", "quantifier": "all dependences, statement dimensions, parameters, coefficient vectors and dependent instance pairs", "why_tests_cant": "an arbitrary parametric problem size means infinitely many instance pairs", "anchors": ["lib/framework.cpp:compute_permutability_constraints_dep", "lib/framework.cpp:get_permutability_constraints"]}
{"id": "C08", "title": "Bounding constraints bound the dependence distance", "statement": "If a coefficient vector satisfies the bounding constraints of a dependence, then phi(target) - phi(source) <= u.p + w for every dependent instance pair, u and w being the bound coefficients of the vector.", "quantifier": "all dependences, coefficient vectors, parameters and dependent instance pairs", "why_tests_cant": "infinitely many instances", "anchors": ["lib/framework.cpp:compute_permutability_constraints_dep"]}
{"id": "C09", "title": "Feautrier constraints guarantee strict satisfaction", "statement": "If a coefficient vector satisfies the one-dimensional schedule constraints of a dependence then phi(target) - phi(source) >= 1 for every dependent instance pair.", "quantifier": "all dependences, coefficient vectors and dependent instance pairs", "why_tests_cant": "infinitely many instances", "anchors": ["lib/framework.cpp:get_feautrier_schedule_constraints_dep"]}
{"id": "C10", "title": "Every schedule returned by the automatic transformation is legal", "statement": "Whenever pluto_auto_transform reports success, for every dependence except read-after-read and every pair of dependent instances the timestamp of the source is lexicographically smaller than that of the target, whatever feasible solutions the ILP solver returned and whatever cut decisions the fusion heuristic took.", "quantifier": "all programs, all dependences, all ILP answers, all fusion choices, all problem sizes", "why_tests_cant": "iterates over histories of solver answers and cuts and over infinitely many instances", "anchors": ["lib/pluto.c:pluto_auto_transform", "lib/pluto.c:find_permutable_hyperplanes", "lib/pluto.c:deps_satisfaction_check"]}
{"id": "C11", "title": "A failed transformation falls back to the original schedule", "statement": "When the automatic transformation cannot satisfy all dependences it reports failure and every statement's schedule and the number of hyperplanes are exactly what they were before the call.", "quantifier": "all programs and all solver behaviours", "why_tests_cant": "needs all failure points of the search", "anchors": ["lib/pluto.c:pluto_auto_transform"]}
{"id": "C12", "title": "The dependence satisfaction test is exact", "statement": "dep_satisfaction_test reports a dependence satisfied at a level iff phi(target) - phi(source) >= 1 at that level for every dependent instance pair.", "quantifier": "all dependences, schedules, levels and instance pairs", "why_tests_cant": "infinite instance sets", "anchors": ["lib/framework.cpp:dep_satisfaction_test", "lib/pluto.c:dep_satisfaction_update"]}
{"id": "C13", "title": "Dependence directions are exact", "statement": "get_dep_direction returns 0 iff the component is zero for all instances, + iff it is never negative but somewhere positive, - iff never positive but somewhere negative, * iff it takes both signs.", "quantifier": "all dependences, schedules, levels and instance pairs", "why_tests_cant": "infinite instance sets", "anchors": ["lib/framework.cpp:get_dep_direction"]}
{"id": "C14", "title": "SCC ids are exactly the strongly connected components, in topological order", "statement": "After ddg_compute_scc two statements have the same scc id iff each is reachable from the other, and any edge between different components goes from a lower to a higher id.", "quantifier": "all dependence graphs of any size", "why_tests_cant": "all graphs, recursion depth unbounded", "anchors": ["lib/ddg.c:ddg_compute_scc", "lib/ddg.c:dfs_for_scc", "lib/ddg.c:dfs"]}
{"id": "C15", "title": "Distributing strongly connected components is legal", "statement": "After cut_all_sccs every dependence that was not satisfied before the call (an edge of the dependence graph) and goes between different SCCs is strictly satisfied by the new scalar dimension, and no dependence that was not satisfied has a negative component on it; outer dimensions are unchanged.", "quantifier": "all programs, dependence graphs and instances", "why_tests_cant": "all graphs and numberings", "anchors": ["lib/pluto.c:cut_all_sccs", "lib/pluto.c:cut_between_sccs"]}
{"id": "C16", "title": "Connected component ids identify the connected components", "statement": "After ddg_compute_cc two statements have the same cc id iff they are connected in the undirected dependence graph.", "quantifier": "all dependence graphs", "why_tests_cant": "all graphs", "anchors": ["lib/ddg.c:ddg_compute_cc", "lib/ddg.c:dfs_vertex"]}
{"id": "C17", "title": "The transitive closure of the dependence graph is reachability", "statement": "compute_transitive_closure yields a non-zero entry (i,j) exactly when there is a path of length at least one from i to j.", "quantifier": "all graphs", "why_tests_cant": "all graphs and path lengths", "anchors": ["lib/ddg.c:compute_transitive_closure"]}
{"id": "C18", "title": "Tiling executes every iteration exactly once", "statement": "After tiling a band with positive sizes, every point of the original iteration domain extends to exactly one point of the tiled domain (its supernode coordinates are the floors of the hyperplane values over the sizes) and every point of the tiled domain projects to an original one.", "quantifier": "all statements, domains, bands, tile sizes >= 1, parameter values and iterations", "why_tests_cant": "infinitely many iterations and sizes", "anchors": ["lib/tile.c:pluto_tile_band"]}
{"id": "C19", "title": "Tiling a permutable band is legal", "statement": "If every dependence not satisfied before the band has non-negative components on all hyperplanes of the band, then the tiled schedule (tile coordinates, then the original hyperplanes) still orders every dependent pair lexicographically.", "quantifier": "all bands, tile sizes, dependences and instance pairs", "why_tests_cant": "infinitely many instances and sizes", "anchors": ["lib/tile.c:pluto_tile_band", "lib/tile.c:pluto_tile"]}
{"id": "C20", "title": "The wavefront tile schedule is legal and exposes parallel loops", "statement": "Replacing the first tile loop by the sum of the tile loops preserves lexicographic order of all dependent pairs in a permutable tile band, and after it no dependence between tiles of the same wavefront is carried by the loops that were added in.", "quantifier": "all bands, numbers of pipelined dimensions, dependences and tile pairs", "why_tests_cant": "infinitely many tiles", "anchors": ["lib/tile.c:pluto_create_tile_schedule_band"]}
{"id": "C21", "title": "Loops marked parallel carry no dependence", "statement": "If pluto_loop_is_parallel accepts a loop, then no two dependent instances of its statements that agree on all enclosing schedule dimensions run in different iterations of that loop.", "quantifier": "all programs, legal schedules, loops and dependent instance pairs", "why_tests_cant": "a race shows only for some sizes and interleavings", "anchors": ["lib/polyloop.c:pluto_loop_is_parallel", "lib/pluto.c:pluto_compute_dep_satisfaction"]}
{"id": "C22", "title": "The remapping inverts the schedule", "statement": "pluto_stmt_get_remapping returns a matrix and positive divisors such that for every iteration x with timestamp t, div_i * x_i equals the i-th row applied to (t, parameters, 1).", "quantifier": "all statements with a full column rank schedule, all iterations and parameters", "why_tests_cant": "all matrices and points", "anchors": ["lib/program.cpp:pluto_stmt_get_remapping"]}
{"id": "C23", "title": "Transformed access functions touch the same elements", "statement": "pluto_get_new_access_func returns rows and divisors such that, at the timestamp of any iteration, row/divisor equals the original subscript value.", "quantifier": "all statements, accesses and iterations", "why_tests_cant": "all matrices and points", "anchors": ["lib/program.cpp:pluto_get_new_access_func"]}
{"id": "C24", "title": "Index set splitting partitions iterations and dependences", "statement": "After index-set splitting each original iteration belongs to exactly one piece and each original dependent pair is represented by exactly one of the new dependences, attached to the pieces its end points fall into.", "quantifier": "all domains, hyperplanes and dependences", "why_tests_cant": "infinite domains", "anchors": ["lib/iss.c:pluto_iss", "lib/iss.c:pluto_update_deps_after_iss", "lib/constraints.c:pluto_hyperplane_get_negative_half_space"]}
{"id": "C25", "title": "Matrix rank", "statement": "pluto_matrix_get_rank returns the rank of its argument.", "quantifier": "all integer matrices of any shape", "why_tests_cant": "all shapes and entries", "anchors": ["lib/math_support.c:pluto_matrix_get_rank", "lib/math_support.c:pluto_matrix_to_row_echelon"]}
{"id": "C26", "title": "Constraint systems survive conversion", "statement": "Converting a constraint system to the PolyLib matrix form and back, or printing it in PolyLib form and reading it again, gives the same system, including which rows are equalities.", "quantifier": "all systems", "why_tests_cant": "all systems", "anchors": ["lib/constraints.c:pluto_constraints_to_matrix", "lib/constraints.c:pluto_constraints_from_matrix", "lib/constraints.c:pluto_constraints_print_polylib", "lib/constraints.c:pluto_constraints_read"]}
{"id": "C27", "title": "Dimension editing of constraint systems means what it says", "statement": "Adding a dimension leaves the new variable unconstrained and all others as before; removing an added dimension is the identity; interchanging two columns exchanges the two variables; adding rows intersects; shifting a dimension by an affine function is substitution; bounds and fixings intersect with x>=lb, x<=ub, x=v.", "quantifier": "all systems, positions and points", "why_tests_cant": "all systems and points", "anchors": ["lib/constraints.c:pluto_constraints_add_dim", "lib/constraints.c:pluto_constraints_remove_dim", "lib/constraints.c:pluto_constraints_interchange_cols", "lib/constraints.c:pluto_constraints_shift_dim", "lib/constraints.c:pluto_constraints_add_lb", "lib/constraints.c:pluto_constraints_add"]}
{"id": "C28", "title": "The ILP wrapper returns a solution of the system it was given", "statement": "pluto_prog_constraints_lexmin drops the columns of non-loop variables, reverses coefficient order, solves, and maps back: the returned vector satisfies the original system, has zero coefficients for dropped variables, and no solution with those zeros is smaller in the documented search order; it returns nothing only when there is no such solution.", "quantifier": "all systems, all column layouts, every exact lexicographic solver", "why_tests_cant": "all systems and solver answers", "anchors": ["lib/pluto.c:pluto_prog_constraints_lexmin"]}
{"id": "C29", "title": "Negating a constraint gives its integer complement", "statement": "The negative half space of a hyperplane and its non-negative half space partition the integer points, and pluto_constraints_negate_constraint turns a row into its integer complement.", "quantifier": "all rows and integer points", "why_tests_cant": "all rows and points", "anchors": ["lib/constraints.c:pluto_constraints_negate_constraint", "lib/constraints.c:pluto_hyperplane_get_negative_half_space", "lib/constraints.c:pluto_hyperplane_get_non_negative_half_space"]}
{"id": "C30", "title": "Constant bounds reported for a dimension are valid bounds", "statement": "When pluto_constraints_get_const_lb (ub) succeeds, the reported value is a lower (upper) bound for the dimension over all solutions.", "quantifier": "all systems, dimensions and solutions", "why_tests_cant": "all solutions", "anchors": ["lib/constraints.c:pluto_constraints_get_const_lb", "lib/constraints.c:pluto_constraints_get_const_ub"]}
{"id": "C31", "title": "Constant extent of a dimension", "statement": "The constant returned by get_const_bound_difference bounds the number of integer values a dimension can take for fixed values of the other dimensions.", "quantifier": "all domains, dimensions and parameter values", "why_tests_cant": "all systems and points", "anchors": ["lib/program.cpp:get_const_bound_difference"]}
{"id": "C32", "title": "Adding and removing a statement dimension keeps domain, schedule, accesses and dependences consistent", "statement": "pluto_stmt_add_dim followed by pluto_stmt_remove_dim at the same position restores domain, schedule, accesses and dependence polyhedra; adding a dimension keeps every hyperplane value, access subscript and dependence unchanged on the old coordinates.", "quantifier": "all statements, positions and points", "why_tests_cant": "all statements and positions", "anchors": ["lib/program.cpp:pluto_stmt_add_dim", "lib/program.cpp:pluto_stmt_remove_dim"]}
{"id": "C33", "title": "The transformed domain is the image of the domain", "statement": "pluto_get_new_domain returns a system whose rational solutions are exactly the timestamps of rational domain points; each iteration's timestamp is in it.", "quantifier": "all statements and points", "why_tests_cant": "infinite domains", "anchors": ["lib/program.cpp:pluto_get_new_domain", "lib/pluto.c:pluto_stmt_get_schedule"]}
{"id": "C34", "title": "Loop enumeration covers every loop dimension of every statement exactly once", "statement": "pluto_get_loops_under reports, for every statement and every non-scalar schedule dimension from the given depth on, exactly one loop at that depth containing the statement, and two statements share a loop only if they agree on all scalar dimensions outside it.", "quantifier": "all programs and schedules", "why_tests_cant": "all programs", "anchors": ["lib/polyloop.c:pluto_get_loops_under", "lib/polyloop.c:pluto_get_all_loops"]}
{"id": "C35", "title": "Loops of a detected permutable band can be interchanged", "statement": "For a band returned by pluto_get_permutable_band on a legal schedule, any permutation of its hyperplanes (in particular making one of them innermost) keeps every dependent pair of its statements in order.", "quantifier": "all programs, bands, permutations and instance pairs", "why_tests_cant": "all permutations and instances", "anchors": ["lib/polyloop.c:pluto_get_permutable_band", "lib/transforms.c:pluto_make_innermost_loop"]}
{"id": "C36", "title": "Conversion between machine words and big integers", "statement": "mpz_set_sll represents exactly the 64-bit value it is given; isl_val_get_num_ll returns the exact value when it fits and saturates to the nearest representable value otherwise.", "quantifier": "all 64-bit values and all big integers", "why_tests_cant": "2^64 values and unbounded integers", "anchors": ["lib/math_support.c:mpz_set_sll", "lib/isl_support.c:isl_val_get_num_ll", "lib/isl_support.c:mpz_fits_ll"]}
{"id": "C37", "title": "Every hyperplane found is linearly independent of the previous ones", "statement": "A solution satisfying the linear independence constraints of a statement yields a row that is not a linear combination of the statement's previous loop hyperplanes.", "quantifier": "all schedules, statements and solutions", "why_tests_cant": "all matrices and solutions", "anchors": ["lib/framework.cpp:get_stmt_lin_ind_constraints", "lib/framework.cpp:get_linear_ind_constraints"]}
{"id": "C38", "title": "Non-trivial-solution and coefficient bounding constraints", "statement": "Every solution has non-negative coefficients within the requested bound, and in eager mode a non-zero hyperplane for every statement that still needs loops.", "quantifier": "all programs, bounds and solutions", "why_tests_cant": "all solutions", "anchors": ["lib/framework.cpp:get_non_trivial_sol_constraints", "lib/framework.cpp:get_coeff_bounding_constraints"]}
{"id": "C39", "title": "ILP solutions are written to the right coefficients", "statement": "pluto_add_hyperplane_from_ilp_solution gives each statement the coefficients that the legality constraints talked about, so the difference of hyperplanes evaluated on instances is the form that was constrained; non-loop columns get zero.", "quantifier": "all programs and solutions", "why_tests_cant": "all layouts", "anchors": ["lib/framework.cpp:pluto_add_hyperplane_from_ilp_solution"]}
{"id": "C40", "title": "Removing and adding statements keeps dependences attached to their statements", "statement": "After pluto_add_stmt the dependences are unchanged, existing statements keep id, domain and the value of their schedule at every level (schedules may be extended by zero rows so that all have the same number of rows and hyperplane types), and the new statement has the next id; after pluto_remove_stmt every remaining dependence still connects the statements it connected before.", "quantifier": "all programs and positions", "why_tests_cant": "all programs", "anchors": ["lib/program.cpp:pluto_remove_stmt", "lib/program.cpp:pluto_add_stmt"]}
{"id": "C41", "title": "Normalising domains to a common dimensionality and back", "statement": "Padding all statements to the same dimensionality before the search and undoing it afterwards restores the statement dimensions, and the padded coefficients never influence the schedule of an original iteration.", "quantifier": "all programs", "why_tests_cant": "all programs and points", "anchors": ["lib/pluto.c:normalize_domains", "lib/pluto.c:denormalize_domains"]}
{"id": "C42", "title": "Diamond tiling rescheduling is undoable and legal", "statement": "Swapping the evicted hyperplane back into the tile space is an involution on every statement's schedule, and a face allowing concurrent start lies strictly inside the cone of the tiling hyperplanes.", "quantifier": "all bands and statements", "why_tests_cant": "all schedules", "anchors": ["lib/tile.c:pluto_diamond_tile_reschedule", "lib/pluto.c:pluto_auto_transform"]}
{"id": "C43", "title": "Tile sizes are adjusted to positive multiples", "statement": "approximate_to_nearest_multiple and round_tile_sizes_wrt_unroll_jam_factor return multiples of the factor nearest to the request, never smaller than the unroll factor.", "quantifier": "all sizes and factors", "why_tests_cant": "all values", "anchors": ["lib/tile_size_selection_model.cpp:approximate_to_nearest_multiple", "lib/tile_size_selection_model.cpp:round_tile_sizes_wrt_unroll_jam_factor"]}
{"id": "C44", "title": "Strip-mining keeps the iterations", "statement": "pluto_stripmine of a dimension by a factor keeps exactly the original iterations, each in exactly one strip.", "quantifier": "all statements, dimensions, factors >= 1 and iterations", "why_tests_cant": "infinite domains", "anchors": ["lib/transforms.c:pluto_stripmine"]}
{"id": "C45", "title": "Row and column edits of matrices", "statement": "Adding then removing a row or column is the identity and shifts the others, moving a column is a rotation, reversing rows twice is the identity, interchanging is an involution, the product is the matrix product (composition of affine maps).", "quantifier": "all matrices and positions", "why_tests_cant": "all shapes and values", "anchors": ["lib/math_support.c:pluto_matrix_add_col", "lib/math_support.c:pluto_matrix_remove_col", "lib/math_support.c:pluto_matrix_move_col", "lib/math_support.c:pluto_matrix_reverse_rows", "lib/math_support.c:pluto_matrix_product"]}
{"id": "C46", "title": "Union lists behave as unions", "statement": "Operations on lists of systems (unionize_simple, add_to_each, is_empty, add_dim, set_var) act on the union of their members: membership in the result is the corresponding set operation.", "quantifier": "all lists, all points", "why_tests_cant": "all list lengths", "anchors": ["lib/constraints.c:pluto_constraints_unionize_simple", "lib/constraints.c:pluto_constraints_add_to_each", "lib/constraints.c:pluto_constraints_is_empty"]}
{"id": "C47", "title": "Dependence graph edges reflect unsatisfied dependences", "statement": "ddg_create / ddg_update set the edge weight (i,j) to the number of unsatisfied non read-after-read dependences from i to j, so that an edge is absent iff nothing remains to be satisfied.", "quantifier": "all programs and satisfaction states", "why_tests_cant": "all programs", "anchors": ["lib/ddg.c:ddg_create", "lib/ddg.c:ddg_update"]}
{"id": "C48", "title": "Supernode constraints are moved from domain to schedule without changing the meaning", "statement": "normalize_domain_schedule moves tile (supernode) constraints from a statement's domain to its schedule relation; the relation between original iterations and timestamps is unchanged.", "quantifier": "all tiled statements and points", "why_tests_cant": "all statements and points", "anchors": ["lib/plutolib.c:normalize_domain_schedule"]}
{"id": "C49", "title": "The index-set-splitting hyperplane is a near mid-point cut", "statement": "The hyperplane pluto_find_iss returns has non-negative, not all zero iterator coefficients, and for every dependent pair (s,t) of the given polyhedra |g(s)+g(t)| <= m for the smallest possible m <= 5, g being its affine form; it returns nothing exactly when no such hyperplane exists.", "quantifier": "all dependence polyhedra", "why_tests_cant": "infinitely many dependent pairs; minimality over all hyperplanes", "anchors": ["lib/iss.c:pluto_find_iss", "lib/iss.c:pluto_iss_dep"]}
{"id": "C50", "title": "Tiling a program as a whole keeps the schedule legal", "statement": "pluto_tile (band selection, one or two levels of tiling, intra-tile loop reordering, wavefront schedules of tiles) succeeds, runs exactly the statement instances of the program (each extended by its tile coordinates) and respects every dependence of a program whose schedule respected them: the timestamp of the source still comes lexicographically before that of the target.", "quantifier": "all programs, tile sizes >= 1, option settings, and choices of the vectorizable loop", "why_tests_cant": "all programs and all infinitely many dependent instance pairs; the composition of four transformations", "anchors": ["lib/tile.c:pluto_tile", "lib/tile.c:pluto_tile_scattering_dims", "lib/post_transform.c:pluto_intra_tile_optimize_band", "lib/tile.c:pluto_create_tile_schedule"]}
{"id": "C51", "title": "Loops reported parallel after tiling carry no dependence", "statement": "Any loop that pluto_loop_is_parallel accepts in the result of pluto_tile carries no dependence: dependent instances of its statements that agree on all outer levels are executed in the same iteration of it.", "quantifier": "all programs, tile sizes, options, loops", "why_tests_cant": "all programs and all infinitely many dependent instance pairs", "anchors": ["lib/tile.c:pluto_tile", "lib/polyloop.c:pluto_loop_is_parallel", "lib/tile.c:pluto_create_tile_schedule_band"]}
{"id": "C52", "title": "Scheduling a program end to end is legal", "statement": "pluto_schedule_prog (automatic transformation, then tiling or intra-tile reordering, then wavefronts, according to the options) either reports failure, with the schedules of the input, or yields schedules that run exactly the statement instances of the input program, each extended by its tile coordinates, and every dependent pair of instances of the input in order.", "quantifier": "all programs, options, tile sizes >= 1, ILP solutions", "why_tests_cant": "all programs and all infinitely many dependent instance pairs; the composition of all passes", "anchors": ["lib/plutolib.c:pluto_schedule_prog", "lib/pluto.c:pluto_auto_transform", "lib/tile.c:pluto_tile", "lib/post_transform.c:pluto_intra_tile_optimize", "lib/tile.c:pluto_create_tile_schedule"]}
{"id": "C53", "title": "Loops marked for OpenMP and vectorization carry no dependence", "statement": "The dominating parallel loops are parallel, share no statement pairwise, and cover all parallel loops; every level of a parallel band carries no dependence; every loop of the AST that pluto_mark_parallel marks, or pluto_mark_vector marks, carries no dependence (dependent instances of its statements that agree on all outer levels are in the same iteration of it), and vectorized loops have no loop below them.", "quantifier": "all programs, schedules, and ASTs (also with loops that CLooG removed)", "why_tests_cant": "all programs and all infinitely many dependent instance pairs; a race shows up only in some runs", "anchors": ["lib/polyloop.c:pluto_get_dom_parallel_loops", "lib/polyloop.c:pluto_get_parallel_band", "tool/ast_transform.c:pluto_mark_parallel", "tool/ast_transform.c:pluto_mark_vector"]}
{"id": "C54", "title": "Unroll-jam keeps dependences", "statement": "For every loop that pluto_get_unroll_jam_loops returns, unrolling it by any factor and jamming the copies into the loops inside it runs every dependent pair of instances in order.", "quantifier": "all programs, schedules, unroll factors and alignments", "why_tests_cant": "all programs and all infinitely many dependent instance pairs", "anchors": ["lib/polyloop.c:pluto_get_unroll_jam_loops", "lib/polyloop.c:pluto_get_innermost_permutable_bands", "lib/polyloop.c:pluto_is_band_innermost"]}
{"id": "C55", "title": "Colouring of the fusion conflict graph is proper and complete", "statement": "Colouring the loops of a component with a new colour either gives this colour to exactly one uncoloured loop of each statement such that no two loops of the colour are joined by an edge, changing nothing else, or fails, leaving all colours, and then no such choice exists. Updating the graph after statements have been distributed removes exactly the edges between loops of statements that were separated.", "quantifier": "all graphs, colourings, numbers of statements and loops, components", "why_tests_cant": "the search backtracks over exponentially many choices; completeness speaks about all of them", "anchors": ["lib/framework-dfp.c:colour_scc", "lib/framework-dfp.c:is_valid_colour", "lib/framework-dfp.c:get_next_min_vertex", "lib/framework-dfp.c:update_fcg_between_sccs"]}
{"id": "C56", "title": "Automatic transformation with --dfp is legal", "statement": "When pluto_auto_transform with --dfp returns normally, every dependent pair of instances of the input is ordered by the schedules found, and the schedules are a permutation of the loops of every statement up to scaling and shifting (so that no two instances of a statement coincide), interleaved with scalar levels.", "quantifier": "all programs, dependences, fusion modes, fusion conflict graphs, ILP solutions", "why_tests_cant": "all programs and all infinitely many dependent instance pairs", "anchors": ["lib/pluto.c:pluto_auto_transform", "lib/framework-dfp.c:find_permutable_dimensions_scc_based", "lib/framework-dfp.c:colour_fcg_scc_based", "lib/framework-dfp.c:scale_shift_permutations", "lib/framework-dfp.c:add_coeff_constraints_from_fcg_colouring"]}
{"id": "C57", "title": "Skewing keeps schedules legal", "statement": "introduce_skew either reports that no skew was introduced and leaves the schedules as they are, or changes rows of loop levels only, keeping the number and types of levels; every dependent pair of instances that was in order before the call is in order after it.", "quantifier": "all programs in the state the search with --dfp produces, all ILP solutions", "why_tests_cant": "all programs and all infinitely many dependent instance pairs", "anchors": ["lib/framework-dfp.c:introduce_skew", "lib/framework-dfp.c:dims_to_be_skewed", "lib/framework-dfp.c:get_skewing_constraints", "lib/framework-dfp.c:swap_trans_for_cc", "lib/framework.cpp:get_cc_permutability_constraints"]}
{"id": "C58", "title": "The fusion conflict graph has exactly the conflicts", "statement": "In the fusion conflict graph, a loop of a statement has a self edge iff no scaling of it respects the dependences of the statement on itself; loops of two directly dependent statements are joined iff no scaling and shifting makes them one level that respects the dependences between and within the two statements; loops of one statement are always joined, and those of unrelated statements only so that they are distributed. Loops, one per statement, that are pairwise not joined can be made one level of the schedule (the code asserts this when it scales and shifts them).", "quantifier": "all programs, dependences, colourings, bounds on coefficients", "why_tests_cant": "legality speaks about all rational scaling factors and shifts and all infinitely many dependent instance pairs", "anchors": ["lib/framework-dfp.c:build_fusion_conflict_graph", "lib/framework-dfp.c:fcg_add_pairwise_edges", "lib/framework-dfp.c:add_permute_preventing_edges", "lib/framework-dfp.c:add_must_distribute_edges", "lib/framework-dfp.c:scale_shift_permutations"]}
{"id": "C59", "title": "Conversions to and from isl keep the sets", "statement": "Converting a polyhedron or a relation between PlutoConstraints and isl keeps exactly its integer points (a relation with existentially quantified variables loses only those); union, intersection and projection through isl return exactly the union, intersection and projection of the points.", "quantifier": "all systems, dimensions, coefficients", "why_tests_cant": "all infinitely many points of all systems, and all 64-bit coefficients", "anchors": ["lib/constraints_isl.c:isl_basic_set_from_pluto_constraints", "lib/constraints_isl.c:isl_basic_set_to_pluto_constraints", "lib/constraints_isl.c:isl_basic_map_from_pluto_constraints", "lib/constraints_isl.c:isl_basic_map_to_pluto_constraints", "lib/constraints_isl.c:pluto_constraints_union_isl", "lib/constraints_isl.c:pluto_constraints_intersection_isl", "lib/constraints_isl.c:pluto_constraints_project_out_isl_single"]}
{"id": "C60", "title": "pluto_transform returns a legal schedule or NULL", "statement": "Given iteration domains S_0, ..., S_<n-1> and dependences as isl objects, pluto_transform returns NULL if it finds no transformation, and otherwise a schedule relation for every domain that gives every instance of the domain exactly one time, such that for every dependent pair of instances the time of the source is lexicographically before that of the target.", "quantifier": "all domains, dependences, options, tile sizes >= 1, ILP solutions", "why_tests_cant": "all inputs and all infinitely many dependent instance pairs; the composition of extraction, all passes, and conversion back", "anchors": ["lib/plutolib.c:pluto_transform", "lib/plutolib.c:pluto_prog_from_isl_domains_dependences", "lib/plutolib.c:extract_stmt", "lib/program.cpp:basic_map_extract_dep", "lib/plutolib.c:pluto_schedules_to_isl", "lib/plutolib.c:normalize_domain_schedule"]}
{"id": "C61", "title": "Dependences computed through isl order all conflicting accesses", "statement": "compute_deps_isl returns only dependences from an instance to a later one that access the same array element, one of them writing it. Without lastwriter the RAW, WAR and WAW dependences are exactly all such pairs. With lastwriter they are the pairs that no write of the element lies between, and any two instances that access the same element, at least one writing, are still connected by a chain of dependences.", "quantifier": "all access relations, schedules, parameters, options", "why_tests_cant": "all infinitely many instances; transitivity through any number of writes in between", "anchors": ["lib/program.cpp:compute_deps_isl"]}
{"id": "C62", "title": "pluto_schedule keeps the order of conflicting instances", "statement": "Given a schedule and access relations, pluto_schedule returns NULL if it finds no transformation, and otherwise a schedule with exactly one time for every instance the given schedule runs and none for other instances, in which any two instances that access the same element, at least one writing, come in the same order as in the given schedule.", "quantifier": "all schedules, accesses, options, tile sizes >= 1, ILP solutions", "why_tests_cant": "all inputs and all infinitely many conflicting instance pairs; the composition of dependence analysis, extraction, all passes, and conversion back", "anchors": ["lib/plutolib.c:pluto_schedule", "lib/program.cpp:compute_deps_isl", "lib/plutolib.c:pluto_transform"]}
{"id": "C63", "title": "The file written for CLooG describes the transformed program; code generated from it keeps all dependences", "statement": "pluto_gen_cloog_file writes a file in CLooG's input format whose context is the intersection of the parameter and the code generation context, whose domains are exactly the statement domains, and whose scattering gives every instance exactly its time stamp; hence code that CLooG generates from it (every instance once, in lexicographic order of the scattering) runs dependent instances in order. The private clause of a loop marked for OpenMP names exactly the iterators of the levels inside it (and lbv, ubv); pluto_omp_parallelize picks the first parallel level (two with multipar).", "quantifier": "all programs, contexts, parameter values, loops", "why_tests_cant": "all infinitely many instances and parameter values; every number of levels", "anchors": ["tool/pluto_codegen_if.c:pluto_gen_cloog_file", "lib/constraints.c:pluto_constraints_print_polylib", "lib/pluto.c:pluto_stmt_get_schedule", "tool/ast_transform.c:pluto_mark_parallel", "tool/pluto_codegen_if.c:pluto_get_parallel_loop_list", "tool/pluto_codegen_if.c:pluto_omp_parallelize", "tool/pluto_codegen_if.c:get_first_point_loop"]}
{"id": "C64", "title": "The program made from a scop has its instances and orders its conflicting accesses", "statement": "pet_to_pluto_prog makes a program with one statement for every statement of the scop that is not dead, whose domain contains exactly its instances. Names given to accesses are read back as the statement, kind and number they were made from. Two instances that access the same array element, one of them writing it, are connected by a chain of dependences of the program; every dependence of the program relates two such instances, in the order of the scop, with the type and the accesses recorded for it. Only statements whose values are not used are removed as dead. The code generation context is that of the option codegen-context.", "quantifier": "all scops, parameter values, options", "why_tests_cant": "all scops and all infinitely many instances; chains of dependences of any length", "anchors": ["tool/pet_to_pluto.cpp:pet_to_pluto_prog", "tool/pet_to_pluto.cpp:pet_to_pluto_stmts", "tool/pet_to_pluto.cpp:compute_deps_pet", "tool/pet_to_pluto.cpp:mark_trivial_dead_code", "lib/program.cpp:basic_map_extract_dep", "lib/program.cpp:extract_accesses_for_pluto_stmt"]}
{"id": "C65", "title": "The transformed program computes what the source program computes", "statement": "For a scop read by pet, the code generated from the file that the tool writes leaves in memory what the statements of the scop leave there when run in their original order, whatever the statements do (as long as they read and write only what the access relations say), also if the iterations of loops that carry no dependence are run in any order. The same holds for running the instances in the order of the schedule that pluto_schedule returns.", "quantifier": "all scops, statement bodies, initial memories, parameter values, options, tile sizes >= 1, ILP solutions, interleavings of parallel iterations", "why_tests_cant": "all programs, all memories and all interleavings; the composition of all parts of the tool", "anchors": ["tool/main.cpp:main", "tool/pet_to_pluto.cpp:pet_to_pluto_prog", "lib/plutolib.c:pluto_schedule", "lib/plutolib.c:pluto_schedule_prog", "tool/pluto_codegen_if.c:pluto_gen_cloog_file"]}
{"id": "C66", "title": "Integer coefficients from GLPK are a point of the constraints", "statement": "With GLPK, pluto_prog_constraints_lexmin returns, if the solver finds a solution, integer coefficients that satisfy the constraints it is given: the hyperplanes they describe keep every dependence of the constraints and the bound they contain bounds it. With --lp (the default of --dfp) the integers are a rational solution multiplied by one factor of at least one per connected component; scaling never fails. Without --lp the integers have the smallest value of the weighted objective.", "quantifier": "all programs, constraint systems, LP and ILP solutions", "why_tests_cant": "all programs and systems; rational solutions with arbitrary denominators; all infinitely many dependent instances", "anchors": ["lib/pluto.c:pluto_prog_constraints_lexmin", "lib/pluto.c:construct_cplex_objective", "lib/constraints.c:pluto_prog_constraints_lexmin_glpk", "lib/constraints.c:get_scaling_lp_glpk", "lib/framework.cpp:populate_scaling_csr_matrices_for_pluto_program", "lib/pluto.c:ddg_compute_cc"]}
{"id": "C67", "title": "Transformed schedules are one-to-one; the library's remappings recover the iteration from its time", "statement": "After pluto_auto_transform, and after the passes of pluto_schedule_prog (tiling, skewing, vectorization, unroll-jam interchange, intra-tile order), two different instances of the same statement have different times. pluto_get_remapping succeeds exactly if this holds, and the matrix and divisors it returns recover every component of an iteration from its time. pluto_parallel_schedule_with_remapping reports the loops that are parallel.", "quantifier": "all programs, domains, options, tile sizes >= 1, ILP solutions", "why_tests_cant": "all programs, all infinitely many pairs of instances, any sequence of passes", "anchors": ["lib/pluto.c:pluto_auto_transform", "lib/program.cpp:pluto_transformations_full_ranked", "lib/plutolib.c:pluto_schedule_prog", "lib/plutolib.c:pluto_get_remapping", "lib/plutolib.c:pluto_schedule_and_get_remapping", "lib/plutolib.c:pluto_parallel_schedule_with_remapping", "lib/plutolib.c:pluto_schedule_str", "lib/program.cpp:pluto_stmt_get_remapping"]}
{"id": "C68", "title": "The OpenScop front end gives the program, its schedule and its dependences", "statement": "osl_scop_to_pluto_prog makes from a scop (as read by clan or with --readscop) a program with the same statements, instances, accesses and initial schedule, whatever the order of the rows of scattering and access relations. Whenever an instance runs before another one and one of them writes what the other accesses, a chain of dependences of the program leads from the first to the second; every dependence of the program is between two such instances. With --candldep the dependences are those of candl. After transformation, pluto_populate_scop writes back domains, scatterings and accesses that stand for the transformed program.", "quantifier": "all scops (numbers of statements, iterators, parameters, accesses; values of parameters), options isldepaccesswise, lastwriter, rar", "why_tests_cant": "all scops and all infinitely many pairs of instances", "anchors": ["tool/osl_pluto.c:osl_scop_to_pluto_prog", "tool/osl_pluto.c:osl_to_pluto_stmts", "tool/osl_pluto.c:compute_deps_osl", "tool/osl_pluto.c:deps_read", "tool/osl_pluto.c:pluto_populate_scop", "lib/program.cpp:basic_map_extract_dep", "tool/osl_pluto.c:osl_scattering_to_isl_map", "tool/osl_pluto.c:osl_relation_get_row_id_for_nth_dimension"]}
{"id": "C69", "title": "The reuse cost model describes the memory that loops touch", "statement": "is_invariant says yes exactly if iterations that differ in this loop only access the same element. has_spatial_reuse says yes exactly if they access elements whose last subscript only differs, growing by at most four per unit of time. pluto_loop_is_vectorizable says yes only for loops whose iterations are independent and all of whose accesses are invariant or have spatial reuse. get_best_vectorizable_loop returns one of the loops given, with the greatest score, and prefers vectorizable loops. get_unique_accesses_in_stmts counts different accesses once. If is_unroll_jam_profitable says yes, then no inner loop, jammed by the unroll factor, touches more elements per iteration than there are registers.", "quantifier": "all programs, schedules, access functions, lists of loops and unroll factors", "why_tests_cant": "all programs and all pairs of iterations; any number of accesses and loops", "anchors": ["lib/post_transform.c:has_spatial_reuse", "lib/post_transform.c:get_num_spatial_accesses", "lib/post_transform.c:pluto_loop_is_vectorizable", "lib/post_transform.c:get_best_vectorizable_loop", "lib/polyloop.c:is_invariant", "lib/polyloop.c:get_num_invariant_accesses", "lib/polyloop.c:is_unroll_jam_profitable", "lib/program.cpp:get_unique_accesses_in_stmts", "lib/program.cpp:are_pluto_accesses_same"]}
{"id": "C70", "title": "Tiles have the sizes given in tile.sizes, the default sizes, or the selected sizes", "statement": "pluto_tile tiles each loop of a band with the number that the file tile.sizes has for it, in the order of the loops, and (with --second-level-tile) with the ratios that follow; comments as in README.md may stand between the numbers. Without the file, or if it has too few numbers (with a warning), the sizes are 32 and the ratios 8. --ft and --lt give the levels to be tiled. With --determine-tile-size a size is found for every level of every band; sizes that depend on the reuse are multiples of the unroll factor. Whatever the sizes, the tiled program runs the same instances and keeps all dependences.", "quantifier": "all programs, bands, contents of tile.sizes, options", "why_tests_cant": "all programs and files of any length; all infinitely many instances", "anchors": ["lib/tile.c:read_tile_sizes", "lib/tile.c:pluto_tile_scattering_dims", "lib/tile.c:pluto_tile", "lib/tile_size_selection_model.cpp:find_tile_sizes", "lib/tile_size_selection_model.cpp:infer_tile_sizes", "lib/tile_size_selection_model.cpp:get_vectorizable_dimensions", "lib/tile_size_selection_model.cpp:pluto_band_has_wavefront_parallelism", "lib/polyloop.c:pluto_loop_is_parallel_for_stmt"]}
{"id": "C71", "title": "One bounding function per connected component (--per-cc-obj)", "statement": "With --per-cc-obj, every solution of the system built for the search gives hyperplanes that keep all unsatisfied dependences, and the dependence distance is bounded by the bounding function of the connected component of the dependence. The first columns are at least the sum of the bounding functions of all components, so that the lexicographic minimum minimises the sum first. pluto_auto_transform with this option does whatever it does without it: it returns legal schedules or restores the old ones.", "quantifier": "all programs, dependence graphs, numbers of components, ILP solutions, options", "why_tests_cant": "all programs and graphs; all infinitely many dependent instances; any number of iterations of the search", "anchors": ["lib/framework.cpp:get_permutability_constraints", "lib/pluto.c:get_per_cc_obj_sum_constraints", "lib/pluto.c:find_permutable_hyperplanes", "lib/pluto.c:pluto_prog_constraints_lexmin", "lib/pluto.c:pluto_auto_transform", "lib/framework.cpp:get_face_with_concurrent_start_for_stmts", "lib/pluto.c:ddg_compute_cc"]}
{"id": "C72", "title": "A custom fusion structure (.fst, .precut) is respected and the result is legal", "statement": "If there is a file .fst, the statements are distributed at the outermost level into its components, in their order; if there is only a file .precut, the transformation begins with the rows given there for each statement and is completed. In both cases success means that all dependences are kept, and a transformation that is not valid is not accepted; on failure the old schedules are restored. A .fst with more components than statements has no effect. Hyperplanes that are loops are marked as loops.", "quantifier": "all programs, contents of the two files, options, ILP solutions", "why_tests_cant": "all programs and files of any length; all infinitely many dependent instances; any number of iterations of the search", "anchors": ["lib/pluto.c:precut", "lib/pluto.c:get_loop_type", "lib/pluto.c:pluto_auto_transform", "lib/pluto.c:dep_satisfaction_update", "lib/pluto.c:ddg_update", "README.md:.fst and .precut"]}
{"id": "C73", "title": "Edits of a whole program keep its meaning", "statement": "pluto_prog_add_param adds a parameter at any position: domains, schedules, subscripts, dependences and contexts mean the same for every value of the new parameter. pluto_interchange exchanges two levels of all statements and the types of these levels, and keeps the schedule legal if the levels between them can be permuted. pluto_separate_stmts adds a level at which the given statements get numbers in their order and the others number 0; the schedule stays legal exactly if no dependence that is not ordered further out goes from a greater to a smaller number.", "quantifier": "all programs, positions, levels, lists of statements", "why_tests_cant": "all programs; all infinitely many instances and values of the parameters", "anchors": ["lib/program.cpp:pluto_prog_add_param", "lib/program.cpp:pluto_separate_stmts", "lib/program.cpp:pluto_separate_stmt", "lib/transforms.c:pluto_interchange", "lib/transforms.c:pluto_stmt_loop_interchange"]}
{"id": "C74", "title": "Matrices extracted from isl maps are the maps", "statement": "isl_map_to_pluto_func and isl_basic_map_extract_access_func give for a schedule or an access relation a matrix with one row per output dimension; at every point of the map, the row gives the value of this dimension if it has only one. extract_accesses_for_pluto_stmt lists one access per basic map, with its array. Hence the program made by the pet front end has the times of the scop, and is legal before it is transformed.", "quantifier": "all isl maps, all answers of isl that are right, all scops", "why_tests_cant": "all maps of any dimension, all infinitely many points", "anchors": ["lib/isl_support.c:isl_aff_to_pluto_func", "lib/constraints_isl.c:isl_map_to_pluto_func", "lib/program.cpp:isl_basic_map_extract_access_func", "lib/program.cpp:extract_accesses_for_pluto_stmt"]}
{"id": "C75", "title": "The clustered search (--dfp --clusterscc, typed and hybrid fusion) returns and its schedules are legal", "statement": "pluto_auto_transform with --dfp --clusterscc (which --typedfuse and --hybridfuse turn on) returns for every program that has a legal schedule by permuting, scaling and shifting loops. In the result the source of every dependent pair of instances comes before its target. Every loop of every statement gets a level of its own, so that different instances of a statement have different times, whatever the fusion conflict graph looks like, whichever components are parallel and however often it is rebuilt. Schedules have one row per level; dimensions, domains and dependences are those of the input.", "quantifier": "all programs, dependence graphs, fusion conflict graphs, options, LP and ILP solutions", "why_tests_cant": "all programs and conflict graphs; any number of components, levels and rebuilds; all infinitely many dependent instances; non-termination", "anchors": ["lib/pluto.c:pluto_auto_transform", "lib/framework-dfp.c:find_permutable_dimensions_scc_based", "lib/framework-dfp.c:colour_fcg_scc_based", "lib/framework-dfp.c:colour_scc_cluster", "lib/framework-dfp.c:colour_scc_cluster_greedy", "lib/framework-dfp.c:rebuild_scc_cluster_fcg", "lib/framework-dfp.c:get_scc_colours_from_vertex_colours", "lib/framework-dfp.c:update_scc_cluster_fcg_between_sccs", "lib/framework-dfp.c:add_coeff_constraints_from_scc_clustered_fcg_colouring"]}
{"id": "C76", "title": "The conflict graph of the clustered search says exactly which loops can be fused", "statement": "build_fusion_conflict_graph with --clusterscc gives a graph with a vertex per loop of each strongly connected component. For loops that can still get the current colour: there is a self edge exactly if the loop cannot be a level that respects the dependences within its component; there is an edge between loops of two dependent components exactly if they cannot be made one level by scaling and shifting. Different loops of a component are joined, and loops of unrelated components only for the first colour if no scalar level separates them. With typed fusion, a component is called parallel only if one of its loops can be a level that carries none of its dependences, and loops of two such components are joined by a parallelism preventing edge exactly if fusing them would lose this parallelism.", "quantifier": "all programs, dependence graphs, components, colourings, options, LP solvers", "why_tests_cant": "all programs; the systems have a variable per loop; exactness is about all rational scalings and shifts and all infinitely many dependent instances", "anchors": ["lib/framework-dfp.c:build_fusion_conflict_graph", "lib/framework-dfp.c:fcg_scc_cluster_add_inter_scc_edges", "lib/framework-dfp.c:fcg_scc_cluster_add_permute_preventing_edges", "lib/framework-dfp.c:fcg_add_intra_scc_edges", "lib/framework-dfp.c:add_must_distribute_edges", "lib/framework-dfp.c:is_lp_solution_parallel", "lib/framework-dfp.c:get_inter_scc_dep_constraints", "lib/framework-dfp.c:compute_intra_scc_dep_cst"]}
{"id": "C77", "title": "Typed fusion recognizes exactly the stencils", "statement": "is_scc_stencil returns true exactly for the strongly connected components that have the dependences of a stencil: there is a face parallel to a loop of each statement along which all dependences of the component go strictly forward (concurrent start), there is a plane outside the face along which all dependences are short (at most 10 in either direction), and no such plane is free of dependences; the dependences lie on either side of the face. A component without dependences is no stencil. The function returns for all programs and options.", "quantifier": "all programs, components, options, ILP solvers", "why_tests_cant": "all programs and components; a plane is one of infinitely many affine functions per statement; all infinitely many dependent instances", "anchors": ["lib/framework.cpp:is_scc_stencil", "lib/framework.cpp:compute_dep_dist_lb_constraints_for_stencil_check", "lib/framework.cpp:get_dep_distance_bounding_constraints_for_scc", "lib/framework.cpp:get_dep_dist_lower_bound_constraints_for_scc", "lib/framework.cpp:get_face_with_concurrent_start_for_stmts", "lib/pluto.c:pluto_auto_transform"]}
{"id": "C78", "title": "Printed bounds, extents and bounding boxes contain all points", "statement": "get_lb_ub_expr prints two C expressions in the parameters between which every value of the variable lies, for all parameters and all values of the other variables; without other variables they are exact. get_parametric_extent and get_parametric_extent_const print an expression that, evaluated as C, is at least the number of values of the variable for any values of the variables before it. get_parametric_bounding_box prints an expression that is at least the number of points of a block of variables in a union of polyhedra.", "quantifier": "all polyhedra and unions, positions, parameters", "why_tests_cant": "all systems of any size and all values of parameters; the claim is about the meaning of the printed text", "anchors": ["lib/program.cpp:get_expr", "lib/program.cpp:get_func_of_expr", "lib/program.cpp:get_lb_ub_expr", "lib/program.cpp:get_parametric_extent", "lib/program.cpp:get_parametric_extent_const", "lib/program.cpp:get_parametric_bounding_box"]}
{"id": "C79", "title": "Tiling with diamond tiling keeps schedules legal", "statement": "pluto_tile with --diamond-tile, which tiles the bands with the hyperplanes found for concurrent start and then puts the evicted hyperplanes back in the point loops (pluto_diamond_tile_reschedule), turns legal schedules into legal schedules: every instance runs exactly once, and every dependent pair of instances in order; the point loops get the evicted hyperplanes and no other row changes.", "quantifier": "all programs, bands, tile sizes, one or two levels, evicted hyperplanes, parameters", "why_tests_cant": "all tile sizes and all infinitely many dependent instances; the examples run by the test suite have one stencil statement each", "anchors": ["lib/tile.c:pluto_tile", "lib/tile.c:pluto_diamond_tile_reschedule", "lib/tile.c:pluto_tile_scattering_dims", "lib/pluto.c:pluto_diamond_tile"]}
{"id": "C80", "title": "--lpcolor: hyperplanes and marks of strongly connected components", "statement": "With --lpcolor and without clustering, mark_parallel_sccs gives every strongly connected component with loops left the coefficients of a hyperplane that uses loops without colour and respects all unsatisfied dependences inside the component; a component marked parallel has one on which source and target of these dependences coincide. colour_scc then gives one colour to a loop of each statement without joining two loops in the fusion conflict graph, and fails only if there is no such colouring.", "quantifier": "all programs, dependences, graphs, colourings, LP solutions", "why_tests_cant": "the option is used by no test; all infinitely many instances of dependences and all solutions of the LP", "anchors": ["lib/framework-dfp.c:mark_parallel_sccs", "lib/framework-dfp.c:dfp_get_scc_ortho_constraints", "lib/framework-dfp.c:get_next_min_vertex", "lib/framework-dfp.c:colour_scc", "lib/framework.cpp:get_scc_permutability_constraints", "lib/pluto.c:ddg_compute_scc"]}
{"id": "C81", "title": "Printed transformations and tile space loops", "statement": "The text printed for an affine function, for a schedule dimension of a statement (T(S): (...)) and for a --bee schedule means the row it was made from: read as a sum of terms with division rounding down it has the value of the row at every point of the domain. A dimension recognised as a tile dimension is the rounded down quotient of the function reported by the tile size reported, everywhere in the domain; is_tile_space_loop tells the loops over tiles from the others, and pluto_get_unroll_jam_loops returns no tile space loop.", "quantifier": "all rows, names, domains, programs, points", "why_tests_cant": "the claim is about the meaning of texts for all values of the variables, all rows and all domains; nothing in the test suite reads the printed transformations", "anchors": ["lib/math_support.c:pluto_affine_function_print", "lib/math_support.c:pluto_affine_function_sprint", "lib/program.cpp:pluto_check_supernode", "lib/program.cpp:is_tile_space_loop", "lib/program.cpp:pluto_stmt_print_hyperplane", "tool/pluto_codegen_if.c:gen_stmt_macro", "lib/polyloop.c:pluto_get_unroll_jam_loops"]}
{"id": "C82", "title": "Printed constraint systems and the PIP solver", "statement": "The texts made by pluto_constraints_pretty_print, pluto_constraints_compact_print (unions) and pluto_constraints_cplex_print mean the system they were made from: read line by line as relations between sums of terms, they hold for a point exactly when the point is in the system. The matrix handed to PIP has the same points as the system, so pluto_constraints_lexmin returns the lexicographically least non-negative point and nothing exactly when there is none, with either solver.", "quantifier": "all systems, names, points, solvers", "why_tests_cant": "the claim is about the meaning of texts for all values of the variables and about all systems; the test suite does not look at printed systems", "anchors": ["lib/constraints.c:pluto_constraints_pretty_print", "lib/constraints.c:pluto_constraints_compact_print_single", "lib/constraints.c:pluto_constraints_cplex_print", "lib/constraints.c:pluto_constraints_to_pip_matrix", "lib/constraints.c:pip_matrix_populate", "lib/constraints.c:pluto_constraints_lexmin_pip", "lib/constraints.c:pluto_constraints_lexmin"]}
{"id": "C83", "title": "Hyperplane coefficients from Gurobi", "statement": "With --gurobi, pluto_prog_constraints_lexmin returns integer coefficients of a hyperplane that satisfies the system, and NULL only when there is no solution; with --lp these are the coefficients of a rational solution multiplied by one positive factor per connected component, so that all dependences stay respected, and the bound coefficients bound the dependence distances along the hyperplane (zero when the hyperplane is parallel).", "quantifier": "all programs, systems, dependence graphs, solver answers", "why_tests_cant": "Gurobi is a commercial solver that the test suite does not use; the claim is about all systems and all instances of dependences", "anchors": ["lib/gurobi-plugin.c:pluto_prog_constraints_lexmin_gurobi", "lib/gurobi-plugin.c:set_gurobi_constraints_from_pluto_constraints", "lib/gurobi-plugin.c:get_scaling_lp_gurobi", "lib/gurobi-plugin.c:get_max_scale_factor", "lib/gurobi-plugin.c:pluto_fcg_constraints_lexmin_gurobi", "lib/pluto.c:pluto_prog_constraints_lexmin"]}
{"id": "C84", "title": "Command line options", "statement": "Options accepted by the tool fit together: exactly one dependence analysis, diamond tiling only with tiling, multipar only with parallel, DFP wherever typed or hybrid fusion, delayed cuts or clusters need it, an LP solver wherever DFP or --lp needs one; the solver asked for is the one that is called; options asked for are not silently overruled, and what a message announces is done. The default output and CLooG files never overwrite each other or the source file.", "quantifier": "all builds (with or without GLPK and Gurobi), all lists of flags in every order, all file names", "why_tests_cant": "30 flags in every combination and order, for four kinds of builds; tests run a few of them on one build", "anchors": ["tool/main.cpp:main", "lib/pluto.c:pluto_prog_constraints_lexmin", "lib/program.cpp:pluto_options_alloc"]}
{"id": "C85", "title": "Tile volume", "statement": "With automatic tile sizes, the reuse polynomial of a band is the number of array elements that a tile touches, as a function of one variable, less the number of elements that fit into the cache; its root gives the largest tiles whose data fit into the cache; the computation never fails.", "quantifier": "all bands, accesses, reuse counts, cache sizes", "why_tests_cant": "the claim is about counts of elements for all accesses and sizes; tests only look at generated code", "anchors": ["lib/tile_size_selection_model.cpp:get_linearly_independent_rows_in_mat", "lib/tile_size_selection_model.cpp:compute_tile_footprint_coefficient_for_access", "lib/tile_size_selection_model.cpp:construct_expression_for_tile_volume", "lib/tile_size_selection_model.cpp:solve_reuse_expression", "lib/tile_size_selection_model.cpp:solve_quadratic_equation"]}
{"id": "C86", "title": "Fusion options", "statement": "With --nofuse two statements share an outermost level only if they depend on each other both ways (also in spite of a .fst or .precut file); with --smartfuse statements whose sets of mutually dependent statements have nests of different depth are separated at the outermost level; a statement never comes before one it depends on.", "quantifier": "all programs, dependences, solver answers, numbers of iterations", "why_tests_cant": "the claim is about all dependence graphs and all answers of the solver; tests look at a few kernels", "anchors": ["lib/pluto.c:pluto_auto_transform", "lib/pluto.c:cut_all_sccs", "lib/pluto.c:cut_scc_dim_based", "lib/pluto.c:ddg_compute_scc", "lib/pluto.c:precut", "README.md"]}
{"id": "C87", "title": "The automatic transformation ends", "statement": "The main loop of pluto_auto_transform ends: on every program without empty dependences it is left, with a transformation or with failure, after at most one iteration per loop and dependence of the program and two more.", "quantifier": "all programs, dependences, options, solver answers", "why_tests_cant": "a loop that does not end on some input shows up in no test of other inputs, and no test runs for all inputs", "anchors": ["lib/pluto.c:pluto_auto_transform", "lib/pluto.c:find_permutable_hyperplanes", "lib/pluto.c:cut_smart", "lib/pluto.c:cut_conservative", "lib/pluto.c:cut_all_sccs", "lib/program.cpp:pluto_transformations_full_ranked"]}
{"id": "C88", "title": "Set operations through PolyLib", "statement": "pluto_constraints_union, _intersection and _difference return a list of systems whose integer points are the union, intersection and difference of those of the two argument lists; _unionize, _intersect and _subtract leave exactly that list in their first argument, whatever it held; pluto_constraints_are_equal returns 1 exactly when both lists have the same integer points.", "quantifier": "all lists of systems of any length over any number of variables", "why_tests_cant": "tests compare a few small sets; the lists can be of any length and the conversion of each row has to be right", "anchors": ["tool/constraints_polylib.c:pluto_constraints_union", "tool/constraints_polylib.c:pluto_constraints_difference", "tool/constraints_polylib.c:pluto_constraints_intersection", "tool/constraints_polylib.c:pluto_constraints_intersect", "tool/constraints_polylib.c:pluto_constraints_subtract", "tool/constraints_polylib.c:pluto_constraints_are_equal", "lib/constraints.c:pluto_constraints_copy", "lib/constraints.c:pluto_constraints_unionize", "lib/constraints.c:pluto_constraints_is_empty"]}
{"id": "C89", "title": "Names stay with their variables", "statement": "After pluto_constraints_add_dim, _remove_dim, _set_names, _set_names_range and _copy_single every variable of the system has the name it had before (in the source, for a copy), a new variable has the name asked for, every name is in a string of its own, names no longer used are freed once, and the strings of other systems are untouched. The domain of a statement given to the library has its variables named after the iterators and parameters.", "quantifier": "all systems with any number of variables, any of them without a name, any other strings in memory", "why_tests_cant": "a wrong or freed name shows only when it is printed or freed again, and only for some orders of calls and sizes of arrays", "anchors": ["lib/constraints.c:pluto_constraints_add_dim", "lib/constraints.c:pluto_constraints_remove_dim", "lib/constraints.c:pluto_constraints_resize_single", "lib/constraints.c:pluto_constraints_set_names", "lib/constraints.c:pluto_constraints_set_names_range", "lib/constraints.c:pluto_constraints_remove_names_single", "lib/constraints.c:pluto_constraints_copy_single", "lib/plutolib.c:extract_stmt"]}
