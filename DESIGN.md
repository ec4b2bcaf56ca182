# Design

Subject: bondhugula/pluto (C/C++), source in /repo, read as text only.

## Approach

The model is a set of total, computable Lean 4 functions, one per C function, over
`List`, `Nat`, `Int` and (for machine words) `BitVec`. Every definition carries the file and
line range it models and says where it simplifies. Specifications (sets of points, lexicographic
order, reachability, ...) are in `Verif/Spec/*.lean`, separate from the model. Property theorems
are in `Verif/Props/*.lean`, separate from helper lemmas.

Common modelling decisions:

* A constraint row is a list of `Int` (last entry is the constant) with an equality flag; a system
  is a list of rows plus its column count; a PlutoConstraints linked list is a Lean list of systems.
* A point satisfies a row when `dot row (x ++ [1])` is `= 0` or `>= 0`. `dot` is generic in the
  coefficient ring so the same statement covers integer and rational points.
* `int64_t` arithmetic is modelled by `Int`: theorems are about runs without signed overflow.
  For the functions where overflow matters most there is a checked model in which overflow is a
  distinct outcome.
* ISL, PIP, PolyLib, GLPK, Gurobi, CLooG, pet and clan are not modelled. Where pluto calls them the
  model takes a function argument (oracle) and the theorem states exactly the property of the oracle
  it needs (e.g. emptiness test is exact on integer points, solver returns a feasible point or says
  there is none).
* C `assert` failures and out-of-range accesses are `none` in the model where they can occur.


## Properties: plan, status, theorems, code

For each property: how it is modelled and proved, the status recorded in MANIFEST.json, the theorems, and the C functions (with lines in /repo) that occur in the theorem statements through the model. `_partial` marks a theorem that proves only part of the English property; `_violated` marks a proof that the code breaks it.

### C01 gcd and lcm are right for every pair of integers (proved)

* Plan: `gcd`/`lcm` transcribed as a recursive function on Int with C truncated `%` and `/`; a second transcription has signed overflow of a*b as a distinct outcome. Strong induction on |a|+|b|; equality with Mathlib `Int.gcd`.
* Result: Unbounded and 64-bit checked models; overflow of the product is a distinct outcome.
* Theorems: Props/Arith.lean: `C01_gcd_correct`, `C01_lcm_natAbs`, `C01_lcm_sign`, `C01_gcd64`, `C01_gcd64_overflow_witness`, `C01_lcm64`, `C01_lcm64_total`
* Code: `lcm` lib/math_support.c:391-395, `gcd` lib/math_support.c:398-410

### C02 Simplifying a constraint system never changes its solutions (proved)

* Plan: rows as lists of Int plus equality flag; normalise, sort, drop duplicates. Solution set preserved over any linearly ordered field and over Int, by induction on rows.
* Result: Any ordered ring; single systems and lists.
* Theorems: Props/Elim.lean: `C02_simplify_sat`, `C02_simplify_shape`, `C02_simplify_list`, `C02_simplify_union`
* Code: `pluto_constraints_simplify` lib/constraints.c:378-474, `gcd` lib/math_support.c:398-410

### C03 Fourier-Motzkin elimination computes the exact rational shadow (proved)

* Plan: function-by-function model of the elimination (classification, lcm multipliers, dropping the column); exactness over a linear ordered field by the max-lower/min-upper witness, soundness over Int.
* Result: Exact over ordered fields, sound over ordered rings; unbounded integers. pluto_constraints_project_out itself calls PolyLib and is not modelled.
* Theorems: Props/Elim.lean: `C03_fm_exact`, `C03_fm_sound`, `C03_fm_shape`, `C03_fm_smart_exact`, `C03_fm_smart_sound`, `C03_fm_union`, `C03_fm_sequence`
* Code: `pluto_constraints_remove_dim` lib/constraints.c:1535-1561, `pluto_constraints_to_pure_inequalities_single` lib/constraints.c:1747-1783, `fourier_motzkin_eliminate_smart` lib/constraints.c:2470-2563, `pluto_constraints_gaussian_eliminate` lib/constraints.c:2565-2608, `pluto_constraints_simplify` lib/constraints.c:378-474, `fourier_motzkin_eliminate` lib/constraints.c:485-581, `lcm` lib/math_support.c:391-395, `gcd` lib/math_support.c:398-410

### C04 Gaussian elimination of a variable bound by an equality is an exact rational projection (proved)

* Plan: first equality row with non-zero pivot, row combination, removal of row and column; exactness by solving the equality for the witness.
* Result: Unbounded integers (the C factors are int).
* Theorems: Props/Elim.lean: `C04_gauss_defined`, `C04_gauss_exact`, `C04_gauss_sound`, `C04_gauss_shape`, `C04_gauss_union`
* Code: `pluto_constraints_remove_dim` lib/constraints.c:1535-1561, `pluto_constraints_gaussian_eliminate` lib/constraints.c:2565-2608, `lcm` lib/math_support.c:391-395, `gcd` lib/math_support.c:398-410

### C05 Rewriting equalities as inequalities preserves the solutions (proved)

* Plan: sum of equalities <= 0; proof by 'sum of non-negatives that is <= 0 is termwise 0'.
* Result: 
* Theorems: Props/Elim.lean: `C05_pure_ineq`
* Code: `pluto_constraints_to_pure_inequalities_single` lib/constraints.c:1747-1783

### C06 Farkas application is sound and complete (proved)

* Plan: model builds the multiplier system and eliminates with the C candidate selection; soundness by linear combination; completeness by a self-contained Farkas lemma proved through Fourier-Motzkin.
* Result: Sound for every domain; exact on non-empty rational domains; integer corollary.
* Theorems: Props/Farkas.lean: `C06_farkas_sound`, `C06_farkas_complete`, `C06_farkas_exact`, `C06_farkas_shape`, `C06_farkas_sound_int`
* Code: `pluto_constraints_remove_dim` lib/constraints.c:1535-1561, `pluto_constraints_to_pure_inequalities_single` lib/constraints.c:1747-1783, `farkas_lemma_affine` lib/constraints.c:213-280, `pluto_constraints_best_elim_candidate` lib/constraints.c:2339-2375, `j` lib/constraints.c:2349-2367, `fourier_motzkin_eliminate_smart` lib/constraints.c:2470-2563, `pluto_constraints_gaussian_eliminate` lib/constraints.c:2565-2608, `pluto_constraints_add` lib/constraints.c:285-307, `pluto_constraints_simplify` lib/constraints.c:378-474, `lcm` lib/math_support.c:391-395, `gcd` lib/math_support.c:398-410

### C07 Legality constraints guarantee non-negative dependence distance (proved)

* Plan: template matrix built as in the C code for inter- and intra-statement dependences, Farkas model, scatter into global layout. Proof composes C06 with layout lemmas.
* Result: Unbounded integers; sound for all integer instances, exact on non-empty rational polyhedra. --per-cc-obj: C71. skipdeps.txt is not modelled.
* Theorems: Props/Legality.lean: `C07_dep_legal`, `C07_permutability_legal`, `C07_dep_exact`
* Code: `pluto_constraints_remove_dim` lib/constraints.c:1535-1561, `pluto_constraints_to_pure_inequalities_single` lib/constraints.c:1747-1783, `farkas_lemma_affine` lib/constraints.c:213-280, `pluto_constraints_best_elim_candidate` lib/constraints.c:2339-2375, `j` lib/constraints.c:2349-2367, `fourier_motzkin_eliminate_smart` lib/constraints.c:2470-2563, `pluto_constraints_gaussian_eliminate` lib/constraints.c:2565-2608, `pluto_constraints_add` lib/constraints.c:285-307, `pluto_constraints_simplify` lib/constraints.c:378-474, `CONSTRAINTS_SIMPLIFY_THRESHOLD` lib/framework.cpp:32, `get_permutability_constraints` lib/framework.cpp:348-485, `compute_permutability_constraints_dep` lib/framework.cpp:62-272, `lcm` lib/math_support.c:391-395, `gcd` lib/math_support.c:398-410, `CST_WIDTH` lib/pluto.h:71

### C08 Bounding constraints bound the dependence distance (proved)

* Plan: as C07 for the second template.
* Result: Same scope as C07.
* Theorems: Props/Legality.lean: `C08_dep_bounded`, `C08_permutability_bounded`
* Code: `pluto_constraints_remove_dim` lib/constraints.c:1535-1561, `pluto_constraints_to_pure_inequalities_single` lib/constraints.c:1747-1783, `farkas_lemma_affine` lib/constraints.c:213-280, `pluto_constraints_best_elim_candidate` lib/constraints.c:2339-2375, `j` lib/constraints.c:2349-2367, `fourier_motzkin_eliminate_smart` lib/constraints.c:2470-2563, `pluto_constraints_gaussian_eliminate` lib/constraints.c:2565-2608, `pluto_constraints_add` lib/constraints.c:285-307, `pluto_constraints_simplify` lib/constraints.c:378-474, `CONSTRAINTS_SIMPLIFY_THRESHOLD` lib/framework.cpp:32, `get_permutability_constraints` lib/framework.cpp:348-485, `compute_permutability_constraints_dep` lib/framework.cpp:62-272, `lcm` lib/math_support.c:391-395, `gcd` lib/math_support.c:398-410, `CST_WIDTH` lib/pluto.h:71

### C09 Feautrier constraints guarantee strict satisfaction (proved)

* Plan: as C07 with the -1 constant.
* Result: The intermediate simplification that reads a freed object (framework.cpp:646) is left out of the model.
* Theorems: Props/Legality.lean: `C09_dep_strict`, `C09_feautrier_strict`, `C09_dep_exact`
* Code: `pluto_constraints_remove_dim` lib/constraints.c:1535-1561, `pluto_constraints_to_pure_inequalities_single` lib/constraints.c:1747-1783, `farkas_lemma_affine` lib/constraints.c:213-280, `pluto_constraints_best_elim_candidate` lib/constraints.c:2339-2375, `j` lib/constraints.c:2349-2367, `fourier_motzkin_eliminate_smart` lib/constraints.c:2470-2563, `pluto_constraints_gaussian_eliminate` lib/constraints.c:2565-2608, `pluto_constraints_add` lib/constraints.c:285-307, `pluto_constraints_simplify` lib/constraints.c:378-474, `get_feautrier_schedule_constraints_dep` lib/framework.cpp:489-610, `get_feautrier_schedule_constraints` lib/framework.cpp:613-671, `lcm` lib/math_support.c:391-395, `gcd` lib/math_support.c:398-410, `CST_WIDTH` lib/pluto.h:71

### C10 Every schedule returned by the automatic transformation is legal (partial)

* Plan: state machine of pluto_auto_transform over an arbitrary ILP/emptiness oracle and arbitrary cut choices; invariant: every dependence instance not strictly satisfied so far has all components zero.
* Result: C10_legal_partial: without diamond tiling, all options and fusion heuristics, any feasible ILP solutions, any number of iterations. C10_violated: with diamond tiling (default) success is reported with an illegal schedule, because rows of statements fused with the band but scalar at its depth are not replaced. C10_diamond_partial: legal whenever the bands reported by diamond tiling are not entered or left by unsatisfied dependences and lie among the hyperplanes just found. Elsewhere: --dfp (C56), .fst/.precut (C72), --per-cc-obj (C71).
* Theorems: Props/Auto.lean: `C10_legal_partial`; Props/Diamond.lean: `C10_diamond_partial`, `C10_violated`; Props/Schedule.lean: `C10_shape`, `C10_stepwise`, `C10_levels`
* Code: `pluto_constraints_remove_dim` lib/constraints.c:1535-1561, `pluto_constraints_add_dim` lib/constraints.c:1601-1636, `pluto_constraints_add_lb` lib/constraints.c:1649-1659, `pluto_constraints_add_ub` lib/constraints.c:1662-1672, `pluto_constraints_set_var` lib/constraints.c:1675-1685, `pluto_constraints_to_pure_inequalities_single` lib/constraints.c:1747-1783, `pluto_constraints_interchange_cols` lib/constraints.c:1825-1839, `farkas_lemma_affine` lib/constraints.c:213-280, `pluto_constraints_best_elim_candidate` lib/constraints.c:2339-2375, `j` lib/constraints.c:2349-2367, `fourier_motzkin_eliminate_smart` lib/constraints.c:2470-2563, `pluto_constraints_gaussian_eliminate` lib/constraints.c:2565-2608, `pluto_constraints_add` lib/constraints.c:285-307, `pluto_constraints_simplify` lib/constraints.c:378-474, `fourier_motzkin_eliminate` lib/constraints.c:485-581, `dfs_vertex` lib/ddg.c:116-133, `dfs` lib/ddg.c:136-149, `dfs_for_scc` lib/ddg.c:173-212, `graph_transpose` lib/ddg.c:72-84, `dep_satisfaction_test` lib/framework.cpp:1000-1050, `pluto_dep_remove_satisfied_instances` lib/framework.cpp:1061-1112, `pluto_compute_dep_satisfaction_precise` lib/framework.cpp:1118-1171, `pluto_dep_satisfies_instance` lib/framework.cpp:1174-1221, `get_dep_direction` lib/framework.cpp:1225-1369, `pluto_add_hyperplane_from_ilp_solution` lib/framework.cpp:1416-1449, `get_face_with_concurrent_start` lib/framework.cpp:1467-1557, `CONSTRAINTS_SIMPLIFY_THRESHOLD` lib/framework.cpp:32, `get_permutability_constraints` lib/framework.cpp:348-485, `get_feautrier_schedule_constraints_dep` lib/framework.cpp:489-610, `get_feautrier_schedule_constraints` lib/framework.cpp:613-671, `compute_permutability_constraints_dep` lib/framework.cpp:62-272, `get_stmt_lin_ind_constraints` lib/framework.cpp:696-870, `h` lib/framework.cpp:728-749, `k` lib/framework.cpp:816-826, `get_non_trivial_sol_constraints` lib/framework.cpp:880-934, `get_coeff_bounding_constraints` lib/framework.cpp:937-993, `lcm` lib/math_support.c:391-395, `gcd` lib/math_support.c:398-410, `pluto_matrix_to_row_echelon` lib/math_support.c:454-484, `pluto_matrix_get_rank` lib/math_support.c:487-504, `pluto_matrix_remove_col` lib/math_support.c:63-74, `pluto_vector_is_parallel` lib/math_support.c:644-673, `pluto_vector_is_normal` lib/math_support.c:675-687, `pluto_compute_dep_directions` lib/pluto.c:1027-1041, `pluto_dep_satisfaction_reset` lib/pluto.c:105-115, `normalize_domains` lib/pluto.c:1138-1273, `pluto_compute_dep_satisfaction` lib/pluto.c:122-156, `denormalize_domains` lib/pluto.c:1277-1304, `find_cone_complement_hyperplane` lib/pluto.c:1314-1437, `lambda_cst` lib/pluto.c:1328-1380, `i` lib/pluto.c:1359-1377, `con_start_cst` lib/pluto.c:1382-1398, `is_concurrent_start_face` lib/pluto.c:1443-1451, `find_hyperplane_to_be_evicted` lib/pluto.c:1458-1466, `pluto_auto_transform` lib/pluto.c:1492-1850, `get_num_unsatisfied_inter_scc_deps` lib/pluto.c:1884-1900, `ddg_update` lib/pluto.c:1908-1927, `ddg_create` lib/pluto.c:1932-1947, `get_max_orig_dim_in_scc` lib/pluto.c:1952-1964, `get_coeff_bounding_constraints_for_cone_complement` lib/pluto.c:210-241, `pluto_diamond_tile` lib/pluto.c:2152-2297, `pluto_prog_constraints_lexmin` lib/pluto.c:275-431, `ddg_sccs_direct_connected` lib/pluto.c:434-450, `cut_between_sccs` lib/pluto.c:453-496, `cut_all_sccs` lib/pluto.c:499-529, `cut_scc_dim_based` lib/pluto.c:541-589, `cut_smart` lib/pluto.c:592-624, `dep_satisfaction_update` lib/pluto.c:60-89, `cut_conservative` lib/pluto.c:628-652, `get_linear_ind_constraints` lib/pluto.c:664-733, `find_permutable_hyperplanes` lib/pluto.c:770-857, `deps_satisfaction_check` lib/pluto.c:92-103, `CST_WIDTH` lib/pluto.h:71, `DepDir` lib/pluto.h:79-85, `PlutoHypType` lib/pluto.h:87-93, `pluto_get_loops_under` lib/polyloop.c:117-230, `pluto_get_all_loops` lib/polyloop.c:232-236, `pluto_loop_has_satisfied_dep_with_component` lib/polyloop.c:242-277, `pluto_loop_is_parallel` lib/polyloop.c:279-314, `pluto_loop_is_parallel_for_stmt` lib/polyloop.c:321-353, `is_band_dominated` lib/polyloop.c:730-743, `pluto_is_depth_scalar` lib/polyloop.c:761-771, `pluto_get_permutable_band` lib/polyloop.c:775-826, `pluto_get_dominator_bands` lib/polyloop.c:883-904, `pluto_get_loops_immediately_inner` lib/polyloop.c:89-110, `pluto_get_outermost_permutable_bands` lib/polyloop.c:943-969, `pluto_stmt_add_dim` lib/program.cpp:1002-1084, `pluto_stmt_remove_dim` lib/program.cpp:1088-1145, `pluto_is_hyperplane_scalar` lib/program.cpp:1866-1875, `pluto_get_max_ind_hyps` lib/program.cpp:2127-2135, `pluto_stmt_get_num_ind_hyps` lib/program.cpp:2158-2170, `pluto_transformations_full_ranked` lib/program.cpp:2175-2184, `pluto_prog_get_largest_const_in_domains` lib/program.cpp:719-729, `pluto_sink_statement` lib/transforms.c:23-33

### C11 A failed transformation falls back to the original schedule (proved)

* Plan: same state machine, failure exit.
* Result: With and without diamond tiling (all options except --dfp); also, without diamond tiling, an unsatisfiable dependence never yields success.
* Theorems: Props/Auto.lean: `C11_failure_restores`, `C11_no_false_success`; Props/Diamond.lean: `C11_failure_restores_diamond`
* Code: `pluto_constraints_remove_dim` lib/constraints.c:1535-1561, `pluto_constraints_add_dim` lib/constraints.c:1601-1636, `pluto_constraints_add_lb` lib/constraints.c:1649-1659, `pluto_constraints_add_ub` lib/constraints.c:1662-1672, `pluto_constraints_set_var` lib/constraints.c:1675-1685, `pluto_constraints_to_pure_inequalities_single` lib/constraints.c:1747-1783, `pluto_constraints_interchange_cols` lib/constraints.c:1825-1839, `farkas_lemma_affine` lib/constraints.c:213-280, `pluto_constraints_best_elim_candidate` lib/constraints.c:2339-2375, `j` lib/constraints.c:2349-2367, `fourier_motzkin_eliminate_smart` lib/constraints.c:2470-2563, `pluto_constraints_gaussian_eliminate` lib/constraints.c:2565-2608, `pluto_constraints_add` lib/constraints.c:285-307, `pluto_constraints_simplify` lib/constraints.c:378-474, `fourier_motzkin_eliminate` lib/constraints.c:485-581, `dfs_vertex` lib/ddg.c:116-133, `dfs` lib/ddg.c:136-149, `dfs_for_scc` lib/ddg.c:173-212, `graph_transpose` lib/ddg.c:72-84, `dep_satisfaction_test` lib/framework.cpp:1000-1050, `pluto_dep_remove_satisfied_instances` lib/framework.cpp:1061-1112, `pluto_compute_dep_satisfaction_precise` lib/framework.cpp:1118-1171, `pluto_dep_satisfies_instance` lib/framework.cpp:1174-1221, `get_dep_direction` lib/framework.cpp:1225-1369, `pluto_add_hyperplane_from_ilp_solution` lib/framework.cpp:1416-1449, `get_face_with_concurrent_start` lib/framework.cpp:1467-1557, `CONSTRAINTS_SIMPLIFY_THRESHOLD` lib/framework.cpp:32, `get_permutability_constraints` lib/framework.cpp:348-485, `get_feautrier_schedule_constraints_dep` lib/framework.cpp:489-610, `get_feautrier_schedule_constraints` lib/framework.cpp:613-671, `compute_permutability_constraints_dep` lib/framework.cpp:62-272, `get_stmt_lin_ind_constraints` lib/framework.cpp:696-870, `h` lib/framework.cpp:728-749, `k` lib/framework.cpp:816-826, `get_non_trivial_sol_constraints` lib/framework.cpp:880-934, `get_coeff_bounding_constraints` lib/framework.cpp:937-993, `lcm` lib/math_support.c:391-395, `gcd` lib/math_support.c:398-410, `pluto_matrix_to_row_echelon` lib/math_support.c:454-484, `pluto_matrix_get_rank` lib/math_support.c:487-504, `pluto_matrix_remove_col` lib/math_support.c:63-74, `pluto_vector_is_parallel` lib/math_support.c:644-673, `pluto_vector_is_normal` lib/math_support.c:675-687, `pluto_compute_dep_directions` lib/pluto.c:1027-1041, `pluto_dep_satisfaction_reset` lib/pluto.c:105-115, `normalize_domains` lib/pluto.c:1138-1273, `pluto_compute_dep_satisfaction` lib/pluto.c:122-156, `denormalize_domains` lib/pluto.c:1277-1304, `find_cone_complement_hyperplane` lib/pluto.c:1314-1437, `lambda_cst` lib/pluto.c:1328-1380, `i` lib/pluto.c:1359-1377, `con_start_cst` lib/pluto.c:1382-1398, `is_concurrent_start_face` lib/pluto.c:1443-1451, `find_hyperplane_to_be_evicted` lib/pluto.c:1458-1466, `pluto_auto_transform` lib/pluto.c:1492-1850, `get_num_unsatisfied_inter_scc_deps` lib/pluto.c:1884-1900, `ddg_update` lib/pluto.c:1908-1927, `ddg_create` lib/pluto.c:1932-1947, `get_max_orig_dim_in_scc` lib/pluto.c:1952-1964, `get_coeff_bounding_constraints_for_cone_complement` lib/pluto.c:210-241, `pluto_diamond_tile` lib/pluto.c:2152-2297, `pluto_prog_constraints_lexmin` lib/pluto.c:275-431, `ddg_sccs_direct_connected` lib/pluto.c:434-450, `cut_between_sccs` lib/pluto.c:453-496, `cut_all_sccs` lib/pluto.c:499-529, `cut_scc_dim_based` lib/pluto.c:541-589, `cut_smart` lib/pluto.c:592-624, `dep_satisfaction_update` lib/pluto.c:60-89, `cut_conservative` lib/pluto.c:628-652, `get_linear_ind_constraints` lib/pluto.c:664-733, `find_permutable_hyperplanes` lib/pluto.c:770-857, `deps_satisfaction_check` lib/pluto.c:92-103, `CST_WIDTH` lib/pluto.h:71, `DepDir` lib/pluto.h:79-85, `PlutoHypType` lib/pluto.h:87-93, `pluto_get_loops_under` lib/polyloop.c:117-230, `pluto_get_all_loops` lib/polyloop.c:232-236, `pluto_loop_has_satisfied_dep_with_component` lib/polyloop.c:242-277, `pluto_loop_is_parallel` lib/polyloop.c:279-314, `pluto_loop_is_parallel_for_stmt` lib/polyloop.c:321-353, `is_band_dominated` lib/polyloop.c:730-743, `pluto_is_depth_scalar` lib/polyloop.c:761-771, `pluto_get_permutable_band` lib/polyloop.c:775-826, `pluto_get_dominator_bands` lib/polyloop.c:883-904, `pluto_get_loops_immediately_inner` lib/polyloop.c:89-110, `pluto_get_outermost_permutable_bands` lib/polyloop.c:943-969, `pluto_stmt_add_dim` lib/program.cpp:1002-1084, `pluto_stmt_remove_dim` lib/program.cpp:1088-1145, `pluto_is_hyperplane_scalar` lib/program.cpp:1866-1875, `pluto_get_max_ind_hyps` lib/program.cpp:2127-2135, `pluto_stmt_get_num_ind_hyps` lib/program.cpp:2158-2170, `pluto_transformations_full_ranked` lib/program.cpp:2175-2184, `pluto_prog_get_largest_const_in_domains` lib/program.cpp:719-729, `pluto_sink_statement` lib/transforms.c:23-33

### C12 The dependence satisfaction test is exact (proved)

* Plan: satisfaction test over an emptiness oracle specified as 'no integer point'.
* Result: Emptiness of integer sets (ISL/PIP) is an oracle argument with its specification as hypothesis.
* Theorems: Props/Satisfaction.lean: `C12_test_exact`, `C12_test_defined`, `C12_update`, `C12_compute`, `C12_precise`
* Code: `dep_satisfaction_test` lib/framework.cpp:1000-1050, `pluto_dep_remove_satisfied_instances` lib/framework.cpp:1061-1112, `pluto_compute_dep_satisfaction_precise` lib/framework.cpp:1118-1171, `pluto_dep_satisfies_instance` lib/framework.cpp:1174-1221, `pluto_dep_satisfaction_reset` lib/pluto.c:105-115, `pluto_compute_dep_satisfaction` lib/pluto.c:122-156, `dep_satisfaction_update` lib/pluto.c:60-89, `DepDir` lib/pluto.h:79-85, `PlutoHypType` lib/pluto.h:87-93

### C13 Dependence directions are exact (proved)

* Plan: direction computation over the same oracle.
* Result: Same oracle as C12.
* Theorems: Props/Satisfaction.lean: `C13_direction`, `C13_direction_defined`, `C13_directions`
* Code: `get_dep_direction` lib/framework.cpp:1225-1369, `pluto_compute_dep_directions` lib/pluto.c:1027-1041, `DepDir` lib/pluto.h:79-85, `PlutoHypType` lib/pluto.h:87-93

### C14 SCC ids are exactly the strongly connected components, in topological order (proved)

* Plan: Kosaraju transcription (dfs with visit/finish numbers, transpose, second dfs); white-path style invariants.
* Result: Kosaraju search of ddg.c for graphs of any size; qsort by finish number modelled by insertion sort.
* Theorems: Props/Ddg.lean: `C14_scc`, `C14_order`
* Code: `dfs_vertex` lib/ddg.c:116-133, `dfs` lib/ddg.c:136-149, `dfs_for_scc` lib/ddg.c:173-212, `graph_transpose` lib/ddg.c:72-84, `ddg_compute_scc` lib/pluto.c:2018-2053

### C15 Distributing strongly connected components is legal (proved)

* Plan: cut model and arithmetic on scc ids, on top of C14.
* Result: cut_all_sccs, cut_between_sccs and cut_scc_dim_based.
* Theorems: Props/Auto.lean: `C15_cut_all`, `C15_cut_useful`
* Code: `dfs_vertex` lib/ddg.c:116-133, `dfs` lib/ddg.c:136-149, `dfs_for_scc` lib/ddg.c:173-212, `graph_transpose` lib/ddg.c:72-84, `dep_satisfaction_test` lib/framework.cpp:1000-1050, `ddg_update` lib/pluto.c:1908-1927, `get_max_orig_dim_in_scc` lib/pluto.c:1952-1964, `ddg_sccs_direct_connected` lib/pluto.c:434-450, `cut_between_sccs` lib/pluto.c:453-496, `cut_all_sccs` lib/pluto.c:499-529, `cut_scc_dim_based` lib/pluto.c:541-589, `dep_satisfaction_update` lib/pluto.c:60-89, `DepDir` lib/pluto.h:79-85, `PlutoHypType` lib/pluto.h:87-93

### C16 Connected component ids identify the connected components (partial)

* Plan: transcription of ddg_compute_cc. Expected to be violated by the code (ids overwritten): negation by witness, plus the part that holds.
* Result: The code violates the property (C16_violated): the id of an already visited vertex is overwritten. Proved instead: the number of components is right, and the exact ids assigned; ids are right when components are numbered consecutively.
* Theorems: Props/Ddg.lean: `C16_violated`, `C16_cc_partial`, `C16_consecutive_partial`
* Code: `dfs_vertex` lib/ddg.c:116-133, `get_undirected_graph` lib/ddg.c:88-100, `ddg_compute_cc` lib/pluto.c:1983-2015

### C17 The transitive closure of the dependence graph is reachability (partial)

* Plan: transcription with the code's loop order (k innermost). Expected violation; soundness half proved.
* Result: The code violates the property (C17_violated): loop order. Proved instead: every non-zero entry is a path, paths of at most two edges are found, exact on transitive graphs.
* Theorems: Props/Ddg.lean: `C17_violated`, `C17_closure_partial`, `C17_transitive_partial`
* Code: `compute_transitive_closure` lib/ddg.c:103-113

### C18 Tiling executes every iteration exactly once (proved)

* Plan: supernode rows added to the domain; floor division uniqueness.
* Result: pluto_tile_band and pluto_tile_scattering_dims; tile sizes are an argument (their selection is not part of this property). Domains, schedules and dependence polyhedra.
* Theorems: Props/Tile.lean: `C18_exactly_once`, `C18_schedule`, `C18_dependences`
* Code: `pluto_constraints_add_dim` lib/constraints.c:1601-1636, `pluto_constraints_add` lib/constraints.c:285-307, `pluto_detect_hyperplane_types_stmtwise` lib/pluto.c:1043-1051, `pluto_detect_hyperplane_types` lib/pluto.c:1054-1065, `pluto_update_deps` lib/pluto.c:2081-2129, `DepDir` lib/pluto.h:79-85, `PlutoHypType` lib/pluto.h:87-93, `pluto_stmt_add_dim` lib/program.cpp:1002-1084, `pluto_is_hyperplane_scalar` lib/program.cpp:1866-1875, `pluto_tile_band` lib/tile.c:109-207, `pluto_tile_scattering_dims` lib/tile.c:330-380

### C19 Tiling a permutable band is legal (partial)

* Plan: lexicographic argument: floor is monotone, first non-equal component decides.
* Result: Tiling is legal for permutable, separated, unmixed bands, and the bands pluto_tile selects have these properties for every schedule that satisfies each dependence at one level (C19_tile_partial). Violated when a band mixes scalar and loop rows at one level (C19_violated).
* Theorems: Props/Tile.lean: `C19_legal_partial`, `C19_violated`; Props/TileBands.lean: `C19_bands`, `C19_tile_partial`
* Code: `pluto_constraints_add_dim` lib/constraints.c:1601-1636, `pluto_constraints_add` lib/constraints.c:285-307, `pluto_detect_hyperplane_types_stmtwise` lib/pluto.c:1043-1051, `pluto_detect_hyperplane_types` lib/pluto.c:1054-1065, `pluto_update_deps` lib/pluto.c:2081-2129, `DepDir` lib/pluto.h:79-85, `PlutoHypType` lib/pluto.h:87-93, `pluto_get_loops_under` lib/polyloop.c:117-230, `pluto_get_all_loops` lib/polyloop.c:232-236, `pluto_loop_is_parallel` lib/polyloop.c:279-314, `is_loop_dominated` lib/polyloop.c:400-420, `pluto_get_parallel_loops` lib/polyloop.c:609-630, `is_band_dominated` lib/polyloop.c:730-743, `pluto_is_depth_scalar` lib/polyloop.c:761-771, `pluto_get_permutable_band` lib/polyloop.c:775-826, `pluto_get_dominator_bands` lib/polyloop.c:883-904, `pluto_get_outermost_permutable_bands` lib/polyloop.c:943-969, `pluto_loop_is_innermost` lib/polyloop.c:971-980, `pluto_stmt_add_dim` lib/program.cpp:1002-1084, `pluto_is_hyperplane_scalar` lib/program.cpp:1866-1875, `pluto_tile_band` lib/tile.c:109-207, `pluto_tile` lib/tile.c:214-326, `pluto_tile_scattering_dims` lib/tile.c:330-380

### C20 The wavefront tile schedule is legal and exposes parallel loops (partial)

* Plan: sum of tile coordinates; lexicographic argument.
* Result: Order and same-wavefront claims proved for bands whose dependences are non-negative on the added levels; parallelism stays sound. Violated for bands with a scalar level inside (C20_violated) and with --innerpar (C20_violated_innerpar).
* Theorems: Props/Wavefront.lean: `C20_effect`, `C20_order_partial`, `C20_parallel_partial`, `C20_inner_parallel`, `C20_forward`, `C20_violated`, `C20_violated_innerpar`
* Code: `DepDir` lib/pluto.h:79-85, `PlutoHypType` lib/pluto.h:87-93, `pluto_get_loops_under` lib/polyloop.c:117-230, `pluto_get_all_loops` lib/polyloop.c:232-236, `pluto_loop_is_parallel` lib/polyloop.c:279-314, `is_loop_dominated` lib/polyloop.c:400-420, `pluto_get_parallel_loops` lib/polyloop.c:609-630, `is_band_dominated` lib/polyloop.c:730-743, `pluto_is_depth_scalar` lib/polyloop.c:761-771, `pluto_get_permutable_band` lib/polyloop.c:775-826, `pluto_get_dominator_bands` lib/polyloop.c:883-904, `pluto_get_outermost_permutable_bands` lib/polyloop.c:943-969, `pluto_loop_is_innermost` lib/polyloop.c:971-980, `pluto_is_hyperplane_scalar` lib/program.cpp:1866-1875, `pluto_tile` lib/tile.c:214-326, `first` lib/tile.c:384-470, `pluto_create_tile_schedule_band` lib/tile.c:384-470

### C21 Loops marked parallel carry no dependence (proved)

* Plan: satvec semantics from C12/C13 plus loop test.
* Result: all loops accepted by the parallelism test; the recorded satisfaction/direction data is the one C12/C13 establish (Prog.Info)
* Theorems: Props/Polyloop.lean: `C21_info`, `C21_parallel`, `C21_parallel_loops`, `C21_rejected`
* Code: `dep_satisfaction_test` lib/framework.cpp:1000-1050, `get_dep_direction` lib/framework.cpp:1225-1369, `pluto_compute_dep_directions` lib/pluto.c:1027-1041, `pluto_dep_satisfaction_reset` lib/pluto.c:105-115, `pluto_compute_dep_satisfaction` lib/pluto.c:122-156, `dep_satisfaction_update` lib/pluto.c:60-89, `DepDir` lib/pluto.h:79-85, `PlutoHypType` lib/pluto.h:87-93, `pluto_get_loops_under` lib/polyloop.c:117-230, `pluto_get_all_loops` lib/polyloop.c:232-236, `pluto_loop_is_parallel` lib/polyloop.c:279-314, `pluto_get_parallel_loops` lib/polyloop.c:609-630, `pluto_is_hyperplane_scalar` lib/program.cpp:1866-1875

### C22 The remapping inverts the schedule (proved)

* Plan: integer Gauss-Jordan transcription; invariant that each row stays a consequence of the schedule equations.
* Result: Entries are unbounded integers; the C code keeps divisors in int.
* Theorems: Props/Remap.lean: `C22_inverse`, `C22_defined`
* Code: `pluto_matrix_add_col` lib/math_support.c:117-138, `pluto_matrix_negate_row` lib/math_support.c:141-147, `pluto_matrix_interchange_cols` lib/math_support.c:206-214, `pluto_matrix_move_col` lib/math_support.c:217-229, `lcm` lib/math_support.c:391-395, `gcd` lib/math_support.c:398-410, `pluto_stmt_get_remapping` lib/program.cpp:1883-1981, `i` lib/program.cpp:1937-1947

### C23 Transformed access functions touch the same elements (proved)

* Plan: scaling to a common denominator and matrix product; on top of C22.
* Result: Entries are unbounded integers; the C code keeps divisors in int.
* Theorems: Props/Remap.lean: `C23_same_element`, `C23_defined`
* Code: `pluto_matrix_add_col` lib/math_support.c:117-138, `pluto_matrix_negate_row` lib/math_support.c:141-147, `pluto_matrix_interchange_cols` lib/math_support.c:206-214, `pluto_matrix_move_col` lib/math_support.c:217-229, `lcm` lib/math_support.c:391-395, `gcd` lib/math_support.c:398-410, `pluto_matrix_product` lib/math_support.c:433-451, `pluto_stmt_get_remapping` lib/program.cpp:1883-1981, `i` lib/program.cpp:1937-1947, `pluto_get_new_access_func` lib/program.cpp:1991-2027

### C24 Index set splitting partitions iterations and dependences (partial)

* Plan: half-space cuts; dependence replacement; partition proofs.
* Result: pluto_iss_dep as a whole, with its cuts shown to partition the space; every dependent pair in exactly one new dependence. The splitting frees all dependences and keeps pointing at them when none of them has a pair (C24_violated); defined otherwise (C24_defined).
* Theorems: Props/Iss.lean: `C24_split_partial`, `C24_defined`, `C24_violated`; Props/IssCut.lean: `C24_iss_dep_partial`
* Code: `pluto_constraints_remove_dim` lib/constraints.c:1535-1561, `pluto_constraints_add_dim` lib/constraints.c:1601-1636, `pluto_constraints_add_ub` lib/constraints.c:1662-1672, `pluto_constraints_to_pure_inequalities_single` lib/constraints.c:1747-1783, `pluto_constraints_project_out_single` lib/constraints.c:1786-1814, `pluto_constraints_get_const_lb` lib/constraints.c:1942-1974, `pluto_constraints_get_const_ub` lib/constraints.c:1978-2010, `farkas_lemma_affine` lib/constraints.c:213-280, `pluto_constraints_best_elim_candidate` lib/constraints.c:2339-2375, `j` lib/constraints.c:2349-2367, `pluto_hyperplane_get_non_negative_half_space` lib/constraints.c:2377-2384, `pluto_hyperplane_get_negative_half_space` lib/constraints.c:2386-2395, `fourier_motzkin_eliminate_smart` lib/constraints.c:2470-2563, `pluto_constraints_gaussian_eliminate` lib/constraints.c:2565-2608, `pluto_constraints_add` lib/constraints.c:285-307, `pluto_constraints_simplify` lib/constraints.c:378-474, `pluto_find_iss` lib/iss.c:129-268, `is_long_bidirectional_dep` lib/iss.c:270-295, `pluto_update_deps_after_iss` lib/iss.c:300-386, `pluto_iss` lib/iss.c:391-408, `pluto_iss_dep` lib/iss.c:413-544, `lcm` lib/math_support.c:391-395, `gcd` lib/math_support.c:398-410, `pluto_are_stmts_fused` lib/pluto.c:2133-2149, `DepDir` lib/pluto.h:79-85, `PlutoHypType` lib/pluto.h:87-93, `pluto_get_loops_under` lib/polyloop.c:117-230, `pluto_pad_stmt_transformations` lib/program.cpp:1210-1246, `pluto_add_given_stmt` lib/program.cpp:1249-1260, `pluto_is_hyperplane_scalar` lib/program.cpp:1866-1875, `pluto_stmt_dup` lib/program.cpp:2197-2226, `decrement_stmt_id` lib/program.cpp:2228-2242, `pluto_remove_stmt` lib/program.cpp:2245-2263

### C25 Matrix rank (partial)

* Plan: row echelon transcription. Expected violation for wide matrices; correct part for nrows>=ncols style inputs as `_partial`.
* Result: Violated: get_rank counts non-zero rows after an elimination that stops too early when there are more columns than rows. Proved exact for ncols <= nrows and as upper bound always.
* Theorems: Props/Rank.lean: `C25_rank_partial`, `C25_lower_partial`, `C25_violated`
* Code: `lcm` lib/math_support.c:391-395, `gcd` lib/math_support.c:398-410, `pluto_matrix_to_row_echelon` lib/math_support.c:454-484, `pluto_matrix_get_rank` lib/math_support.c:487-504

### C26 Constraint systems survive conversion (partial)

* Plan: to/from PolyLib matrix, token stream print/read.
* Result: Matrix conversions, the problem set up for GLPK and single-system print/read are proved; unions and sequences of systems do not read back (C26_violated_union, C26_violated_sequence).
* Theorems: Props/CstList.lean: `C26_matrix`, `C26_matrix_inv`, `C26_matrix_meaning`, `C26_mixed_matrix`, `C26_equalities`, `C26_print_read`, `C26_violated_union`, `C26_violated_sequence`; Props/Glpk.lean: `C26_glpk`
* Code: `set_glpk_constraints_from_pluto_constraints` lib/constraints.c:1097-1139, `pluto_constraints_from_equalities` lib/constraints.c:1458-1471, `pluto_constraints_extract_equalities` lib/constraints.c:2248-2265, `pluto_constraints_get_num_non_zero_coeffs` lib/constraints.c:2441-2456, `pluto_constraints_print_polylib_without_num` lib/constraints.c:691-707, `pluto_constraints_print_polylib` lib/constraints.c:709-718, `pluto_constraints_to_matrix` lib/constraints.c:721-733, `pluto_constraints_from_mixed_matrix` lib/constraints.c:736-752, `pluto_constraints_from_matrix` lib/constraints.c:755-770, `pluto_constraints_from_inequalities` lib/constraints.c:773-786, `pluto_constraints_read` lib/constraints.c:789-821

### C27 Dimension editing of constraint systems means what it says (proved)

* Plan: insert/erase column lemmas.
* Result: All dimension and row editing functions: add/remove dim, interchange columns, add, shift_dim, bounds, set_var, universe, empty, select/remove row.
* Theorems: Props/CstEdit.lean: `C27_add_dim`, `C27_add_dim_shape`, `C27_add_leading_dims`, `C27_remove_add_dim`, `C27_remove_dim`, `C27_interchange_cols`, `C27_add`, `C27_add_shape`, `C27_shift_dim`, `C27_add_lb`, `C27_add_ub`, `C27_set_var`, `C27_universe`, `C27_empty`, `C27_select_remove_row`
* Code: `pluto_constraints_remove_row` lib/constraints.c:1522-1532, `pluto_constraints_remove_dim` lib/constraints.c:1535-1561, `pluto_constraints_add_dim` lib/constraints.c:1601-1636, `pluto_constraints_add_leading_dims` lib/constraints.c:1643-1647, `pluto_constraints_add_lb` lib/constraints.c:1649-1659, `pluto_constraints_add_ub` lib/constraints.c:1662-1672, `pluto_constraints_set_var` lib/constraints.c:1675-1685, `pluto_constraints_select_row` lib/constraints.c:1704-1715, `pluto_constraints_interchange_cols` lib/constraints.c:1825-1839, `pluto_constraints_universe` lib/constraints.c:1890-1893, `pluto_constraints_empty` lib/constraints.c:1896-1901, `pluto_constraints_shift_dim` lib/constraints.c:2398-2412, `pluto_constraints_add` lib/constraints.c:285-307

### C28 The ILP wrapper returns a solution of the system it was given (proved)

* Plan: column dropping, reversal, solver oracle, un-reversal.
* Result: The exact lexicographic integer solver (ISL, PIP, GLPK) is an argument with its specification as hypothesis; systems with at least one row.
* Theorems: Props/Search.lean: `C28_lexmin`, `C28_ncols`
* Code: `pluto_constraints_interchange_cols` lib/constraints.c:1825-1839, `pluto_prog_constraints_lexmin` lib/pluto.c:275-431, `CST_WIDTH` lib/pluto.h:71

### C29 Negating a constraint gives its integer complement (partial)

* Plan: half spaces proved; negate_constraint expected violation (constant term) plus partial.
* Result: Half spaces, negate_row proved; pluto_negate_constraints is the complement only when the constant is 0 (C29_violated, C29_negate_partial).
* Theorems: Props/CstEdit.lean: `C29_half_spaces`, `C29_half_spaces_defined`, `C29_violated`, `C29_negate_partial`, `C29_negate_others`, `C29_negate_row`
* Code: `pluto_constraints_negate_row` lib/constraints.c:1720-1728, `pluto_constraints_negate_constraint` lib/constraints.c:1733-1742, `pluto_hyperplane_get_non_negative_half_space` lib/constraints.c:2377-2384, `pluto_hyperplane_get_negative_half_space` lib/constraints.c:2386-2395

### C30 Constant bounds reported for a dimension are valid bounds (partial)

* Plan: expected violation (non-unit coefficients, equality sign) plus partial.
* Result: Bounds are right for inequality rows with unit coefficients; violated for equalities, larger coefficients and values at INT_MIN.
* Theorems: Props/Bounds.lean: `C30_lb_partial`, `C30_ub_partial`, `C30_violated_eq`, `C30_violated_coeff`, `C30_violated_int_min`
* Code: `pluto_constraints_project_out_single` lib/constraints.c:1786-1814, `pluto_constraints_get_const_lb` lib/constraints.c:1942-1974, `pluto_constraints_get_const_ub` lib/constraints.c:1978-2010

### C31 Constant extent of a dimension (partial)

* Plan: expected violation plus partial.
* Result: Extent is right for constant widths under stated shape; violated in general (C31_violated).
* Theorems: Props/Bounds.lean: `C31_extent_partial`, `C31_violated`
* Code: `pluto_constraints_project_out_single` lib/constraints.c:1786-1814, `lcm` lib/math_support.c:391-395, `gcd` lib/math_support.c:398-410, `get_const_bound_difference` lib/program.cpp:1496-1581

### C32 Adding and removing a statement dimension keeps domain, schedule, accesses and dependences consistent (partial)

* Plan: column insertion in domain/trans/accesses/dependences.
* Result: Adding a dimension keeps domain, schedule, accesses and dependences; add then remove restores all of them except bounding_poly, which keeps the extra columns (C32_violated).
* Theorems: Props/StmtEdit.lean: `C32_add_remove_partial`, `C32_add_dim`, `C32_add_dim_deps`, `C32_accesses`, `C32_violated`
* Code: `pluto_constraints_remove_dim` lib/constraints.c:1535-1561, `pluto_constraints_add_dim` lib/constraints.c:1601-1636, `pluto_matrix_add_col` lib/math_support.c:117-138, `pluto_matrix_remove_col` lib/math_support.c:63-74, `DepDir` lib/pluto.h:79-85, `PlutoHypType` lib/pluto.h:87-93, `pluto_stmt_add_dim` lib/program.cpp:1002-1084, `pluto_stmt_remove_dim` lib/program.cpp:1088-1145

### C33 The transformed domain is the image of the domain (proved)

* Plan: schedule relation, intersection, projection by C03 model (PolyLib image is outside the model; assumed exact rational projection).
* Result: For domains with one polyhedron; intersection and projection by PolyLib are arguments assumed exact over the rationals (existence proved).
* Theorems: Props/NewDomain.lean: `C33_schedule`, `C33_new_domain`, `C33_iterations`
* Code: `pluto_constraints_from_equalities` lib/constraints.c:1458-1471, `pluto_constraints_add_dim` lib/constraints.c:1601-1636, `pluto_constraints_add_leading_dims` lib/constraints.c:1643-1647, `pluto_constraints_project_out_single` lib/constraints.c:1786-1814, `pluto_matrix_add_col` lib/math_support.c:117-138, `pluto_matrix_negate_row` lib/math_support.c:141-147, `pluto_stmt_get_schedule` lib/pluto.c:2060-2078, `pluto_get_new_domain` lib/program.cpp:1467-1484

### C34 Loop enumeration covers every loop dimension of every statement exactly once (partial)

* Plan: recursive loop enumeration; induction on depth.
* Result: C34_violated: loops are shared across levels that mix scalar and loop rows; sharing proved under uniformity
* Theorems: Props/Polyloop.lean: `C34_defined`, `C34_loops`, `C34_share_partial`, `C34_violated`
* Code: `PlutoHypType` lib/pluto.h:87-93, `pluto_get_loops_under` lib/polyloop.c:117-230, `pluto_get_all_loops` lib/polyloop.c:232-236, `pluto_is_hyperplane_scalar` lib/program.cpp:1866-1875

### C35 Loops of a detected permutable band can be interchanged (partial)

* Plan: band detection transcription; permutation argument on lexicographic positivity.
* Result: violated for dependences satisfied only by several levels together (C35_violated, C35_violated_tiling); proved otherwise
* Theorems: Props/Band.lean: `C35_permute_partial`, `C35_innermost_partial`, `C35_parallel_innermost`, `C35_violated`, `C35_violated_tiling`
* Code: `pluto_constraints_add_dim` lib/constraints.c:1601-1636, `pluto_constraints_add` lib/constraints.c:285-307, `pluto_detect_hyperplane_types_stmtwise` lib/pluto.c:1043-1051, `pluto_detect_hyperplane_types` lib/pluto.c:1054-1065, `pluto_update_deps` lib/pluto.c:2081-2129, `DepDir` lib/pluto.h:79-85, `PlutoHypType` lib/pluto.h:87-93, `pluto_get_loops_under` lib/polyloop.c:117-230, `pluto_get_all_loops` lib/polyloop.c:232-236, `pluto_loop_is_parallel` lib/polyloop.c:279-314, `is_band_dominated` lib/polyloop.c:730-743, `pluto_is_depth_scalar` lib/polyloop.c:761-771, `pluto_get_permutable_band` lib/polyloop.c:775-826, `pluto_get_dominator_bands` lib/polyloop.c:883-904, `pluto_get_outermost_permutable_bands` lib/polyloop.c:943-969, `pluto_loop_is_innermost` lib/polyloop.c:971-980, `pluto_is_band_innermost` lib/polyloop.c:985-997, `are_stmts_fused_in_band` lib/post_transform.c:291-316, `fuse_per_stmt_bands` lib/post_transform.c:321-401, `make_parallel_loop_innermost` lib/post_transform.c:406-441, `pluto_intra_tile_optimize_band` lib/post_transform.c:444-520, `pluto_stmt_add_dim` lib/program.cpp:1002-1084, `pluto_is_hyperplane_scalar` lib/program.cpp:1866-1875, `pluto_tile_band` lib/tile.c:109-207, `pluto_tile_scattering_dims` lib/tile.c:330-380, `pluto_make_innermost_loop` lib/transforms.c:106-144, `pluto_stmt_loop_interchange` lib/transforms.c:60-66

### C36 Conversion between machine words and big integers (partial)

* Plan: bit-vector transcription of the conversions.
* Result: Conversion exact on the range that fits; saturation has the wrong sign (C36_violated).
* Theorems: Props/Words.lean: `C36_set_sll`, `C36_fits`, `C36_get_num_exact`, `C36_get_num_large`, `C36_get_num_small`, `C36_violated`, `C36_get_num_partial`
* Code: `mpz_fits_ll` lib/isl_support.c:104-119, `isl_val_get_num_ll` lib/isl_support.c:125-170, `mpz_set_sll` lib/math_support.c:690-697

### C37 Every hyperplane found is linearly independent of the previous ones (proved)

* Plan: orthogonal complement rows (isl right kernel is an oracle with its specification); linear algebra over Rat.
* Result: isl_mat_right_kernel is an argument specified as a generating set of the null space; with --per-cc-obj see C71.
* Theorems: Props/LinInd.lean: `C37_needs`, `C37_eager`, `C37_lazy`, `C37_rows`
* Code: `pluto_constraints_add` lib/constraints.c:285-307, `get_stmt_lin_ind_constraints` lib/framework.cpp:696-870, `h` lib/framework.cpp:728-749, `k` lib/framework.cpp:816-826, `lcm` lib/math_support.c:391-395, `gcd` lib/math_support.c:398-410, `pluto_matrix_to_row_echelon` lib/math_support.c:454-484, `pluto_matrix_get_rank` lib/math_support.c:487-504, `pluto_matrix_remove_col` lib/math_support.c:63-74, `get_linear_ind_constraints` lib/pluto.c:664-733, `CST_WIDTH` lib/pluto.h:71, `PlutoHypType` lib/pluto.h:87-93, `pluto_stmt_get_num_ind_hyps` lib/program.cpp:2158-2170

### C38 Non-trivial-solution and coefficient bounding constraints (proved)

* Plan: rows built by the code; direct.
* Result: Exact characterisation of the bounds; eager and lazy mode.
* Theorems: Props/CoeffBounds.lean: `C38_default_bound`, `C38_bounds`, `C38_nontrivial_eager`, `C38_nonzero`, `C38_nontrivial_lazy`
* Code: `pluto_constraints_add_lb` lib/constraints.c:1649-1659, `pluto_constraints_add_ub` lib/constraints.c:1662-1672, `get_non_trivial_sol_constraints` lib/framework.cpp:880-934, `get_coeff_bounding_constraints` lib/framework.cpp:937-993, `lcm` lib/math_support.c:391-395, `gcd` lib/math_support.c:398-410, `pluto_matrix_to_row_echelon` lib/math_support.c:454-484, `pluto_matrix_get_rank` lib/math_support.c:487-504, `pluto_matrix_remove_col` lib/math_support.c:63-74, `CST_WIDTH` lib/pluto.h:71, `PlutoHypType` lib/pluto.h:87-93, `pluto_stmt_get_num_ind_hyps` lib/program.cpp:2158-2170, `pluto_prog_get_largest_const_in_domains` lib/program.cpp:719-729

### C39 ILP solutions are written to the right coefficients (proved)

* Plan: slice placement lemmas.
* Result: 
* Theorems: Props/Auto.lean: `C39_append`; Props/Legality.lean: `C39_row_value`, `C39_row_zero`, `C39_added_rows_legal`
* Code: `pluto_constraints_remove_dim` lib/constraints.c:1535-1561, `pluto_constraints_to_pure_inequalities_single` lib/constraints.c:1747-1783, `farkas_lemma_affine` lib/constraints.c:213-280, `pluto_constraints_best_elim_candidate` lib/constraints.c:2339-2375, `j` lib/constraints.c:2349-2367, `fourier_motzkin_eliminate_smart` lib/constraints.c:2470-2563, `pluto_constraints_gaussian_eliminate` lib/constraints.c:2565-2608, `pluto_constraints_add` lib/constraints.c:285-307, `pluto_constraints_simplify` lib/constraints.c:378-474, `pluto_add_hyperplane_from_ilp_solution` lib/framework.cpp:1416-1449, `CONSTRAINTS_SIMPLIFY_THRESHOLD` lib/framework.cpp:32, `get_permutability_constraints` lib/framework.cpp:348-485, `compute_permutability_constraints_dep` lib/framework.cpp:62-272, `lcm` lib/math_support.c:391-395, `gcd` lib/math_support.c:398-410, `CST_WIDTH` lib/pluto.h:71, `PlutoHypType` lib/pluto.h:87-93

### C40 Removing and adding statements keeps dependences attached to their statements (partial)

* Plan: list model of statement and dependence arrays. Expected violation for removal when dependences touch the removed statement; partial otherwise.
* Result: pluto_add_stmt is proved; pluto_remove_stmt keeps dependences attached only when none involves the removed statement (C40_violated).
* Theorems: Props/StmtOps.lean: `C40_add_stmt`, `C40_remove_stmt_partial`, `C40_violated`
* Code: `DepDir` lib/pluto.h:79-85, `PlutoHypType` lib/pluto.h:87-93, `pluto_create_stmt` lib/program.cpp:1187-1206, `pluto_pad_stmt_transformations` lib/program.cpp:1210-1246, `pluto_add_given_stmt` lib/program.cpp:1249-1260, `pluto_add_stmt` lib/program.cpp:1268-1294, `pluto_stmt_alloc` lib/program.cpp:1349-1404, `decrement_stmt_id` lib/program.cpp:2228-2242, `pluto_remove_stmt` lib/program.cpp:2245-2263

### C41 Normalising domains to a common dimensionality and back (proved)

* Plan: padding and unpadding of columns.
* Result: 
* Theorems: Props/Auto.lean: `C41_pad_unpad`
* Code: `pluto_constraints_remove_dim` lib/constraints.c:1535-1561, `pluto_constraints_add_dim` lib/constraints.c:1601-1636, `pluto_constraints_set_var` lib/constraints.c:1675-1685, `pluto_constraints_to_pure_inequalities_single` lib/constraints.c:1747-1783, `pluto_constraints_add` lib/constraints.c:285-307, `pluto_constraints_simplify` lib/constraints.c:378-474, `fourier_motzkin_eliminate` lib/constraints.c:485-581, `lcm` lib/math_support.c:391-395, `gcd` lib/math_support.c:398-410, `normalize_domains` lib/pluto.c:1138-1273, `denormalize_domains` lib/pluto.c:1277-1304, `DepDir` lib/pluto.h:79-85, `PlutoHypType` lib/pluto.h:87-93, `pluto_stmt_add_dim` lib/program.cpp:1002-1084, `pluto_stmt_remove_dim` lib/program.cpp:1088-1145, `pluto_sink_statement` lib/transforms.c:23-33

### C42 Diamond tiling rescheduling is undoable and legal (proved)

* Plan: swap of schedule rows; cone argument.
* Result: Rescheduling is an involution and puts the evicted hyperplane back; every band reported by diamond tiling had a sequential outermost loop, and its face is a positive combination of the new and the other tiling hyperplanes and crosses all dependences of the band strictly, with and without --fulldiamondtile, provided the statement has fewer than nvar other loops in the band (room for the multipliers; always so by default when nvar >= 2).
* Theorems: Props/Diamond.lean: `C42_cone`; Props/StmtOps.lean: `C42_involution`, `C42_row`
* Code: `pluto_constraints_remove_dim` lib/constraints.c:1535-1561, `pluto_constraints_add_dim` lib/constraints.c:1601-1636, `pluto_constraints_add_lb` lib/constraints.c:1649-1659, `pluto_constraints_add_ub` lib/constraints.c:1662-1672, `pluto_constraints_to_pure_inequalities_single` lib/constraints.c:1747-1783, `pluto_constraints_interchange_cols` lib/constraints.c:1825-1839, `farkas_lemma_affine` lib/constraints.c:213-280, `pluto_constraints_best_elim_candidate` lib/constraints.c:2339-2375, `j` lib/constraints.c:2349-2367, `fourier_motzkin_eliminate_smart` lib/constraints.c:2470-2563, `pluto_constraints_gaussian_eliminate` lib/constraints.c:2565-2608, `pluto_constraints_add` lib/constraints.c:285-307, `pluto_constraints_simplify` lib/constraints.c:378-474, `dep_satisfaction_test` lib/framework.cpp:1000-1050, `get_dep_direction` lib/framework.cpp:1225-1369, `pluto_add_hyperplane_from_ilp_solution` lib/framework.cpp:1416-1449, `get_face_with_concurrent_start` lib/framework.cpp:1467-1557, `CONSTRAINTS_SIMPLIFY_THRESHOLD` lib/framework.cpp:32, `get_permutability_constraints` lib/framework.cpp:348-485, `get_feautrier_schedule_constraints_dep` lib/framework.cpp:489-610, `get_feautrier_schedule_constraints` lib/framework.cpp:613-671, `compute_permutability_constraints_dep` lib/framework.cpp:62-272, `get_coeff_bounding_constraints` lib/framework.cpp:937-993, `lcm` lib/math_support.c:391-395, `gcd` lib/math_support.c:398-410, `pluto_vector_is_parallel` lib/math_support.c:644-673, `pluto_vector_is_normal` lib/math_support.c:675-687, `pluto_compute_dep_directions` lib/pluto.c:1027-1041, `pluto_dep_satisfaction_reset` lib/pluto.c:105-115, `pluto_compute_dep_satisfaction` lib/pluto.c:122-156, `find_cone_complement_hyperplane` lib/pluto.c:1314-1437, `lambda_cst` lib/pluto.c:1328-1380, `i` lib/pluto.c:1359-1377, `con_start_cst` lib/pluto.c:1382-1398, `is_concurrent_start_face` lib/pluto.c:1443-1451, `find_hyperplane_to_be_evicted` lib/pluto.c:1458-1466, `get_coeff_bounding_constraints_for_cone_complement` lib/pluto.c:210-241, `pluto_diamond_tile` lib/pluto.c:2152-2297, `pluto_prog_constraints_lexmin` lib/pluto.c:275-431, `dep_satisfaction_update` lib/pluto.c:60-89, `CST_WIDTH` lib/pluto.h:71, `DepDir` lib/pluto.h:79-85, `PlutoHypType` lib/pluto.h:87-93, `pluto_get_loops_under` lib/polyloop.c:117-230, `pluto_get_all_loops` lib/polyloop.c:232-236, `pluto_loop_has_satisfied_dep_with_component` lib/polyloop.c:242-277, `pluto_loop_is_parallel` lib/polyloop.c:279-314, `pluto_loop_is_parallel_for_stmt` lib/polyloop.c:321-353, `is_band_dominated` lib/polyloop.c:730-743, `pluto_is_depth_scalar` lib/polyloop.c:761-771, `pluto_get_permutable_band` lib/polyloop.c:775-826, `pluto_get_dominator_bands` lib/polyloop.c:883-904, `pluto_get_loops_immediately_inner` lib/polyloop.c:89-110, `pluto_get_outermost_permutable_bands` lib/polyloop.c:943-969, `pluto_is_hyperplane_scalar` lib/program.cpp:1866-1875, `pluto_prog_get_largest_const_in_domains` lib/program.cpp:719-729, `pluto_diamond_tile_reschedule` lib/tile.c:85-105

### C43 Tile sizes are adjusted to positive multiples (partial)

* Plan: natural number arithmetic transcription.
* Result: Right for sizes without 32-bit wrap-around; violated at the top of the range (C43_violated).
* Theorems: Props/Words.lean: `C43_nearest_partial`, `C43_round_partial`, `C43_zero_factor`, `C43_violated`
* Code: `round_tile_sizes_wrt_unroll_jam_factor` lib/tile_size_selection_model.cpp:133-140, `approximate_to_nearest_multiple` lib/tile_size_selection_model.cpp:93-105

### C44 Strip-mining keeps the iterations (partial)

* Plan: transcription; expected violation (constant column).
* Result: pluto_stripmine keeps only iterations whose schedule value is a multiple of the factor (C44_violated); nothing is lost for factor 1.
* Theorems: Props/StmtOps.lean: `C44_partial`, `C44_factor_one_partial`, `C44_violated`
* Code: `pluto_constraints_add_dim` lib/constraints.c:1601-1636, `DepDir` lib/pluto.h:79-85, `PlutoHypType` lib/pluto.h:87-93, `pluto_stmt_add_dim` lib/program.cpp:1002-1084, `pluto_stripmine` lib/transforms.c:37-57

### C45 Row and column edits of matrices (partial)

* Plan: list-of-rows matrices.
* Result: All edits proved; pluto_matrix_interchange_cols truncates through an int temporary (violation witness), exact when entries fit in int.
* Theorems: Props/Matrix.lean: `C45_remove_col`, `C45_remove_row`, `C45_add_col`, `C45_add_row`, `C45_add_remove_col`, `C45_add_remove_row`, `C45_interchange_rows`, `C45_interchange_cols`, `C45_interchange_cols_int_partial`, `C45_interchange_cols_int_violated`, `C45_move_col`, `C45_reverse_rows`, `C45_product`, `C45_product_none`, `C45_identity`, `C45_negate`, `C45_equal`
* Code: `pluto_matrix_add_col` lib/math_support.c:117-138, `pluto_matrix_negate_row` lib/math_support.c:141-147, `pluto_matrix_negate` lib/math_support.c:149-154, `pluto_matrix_add_row` lib/math_support.c:173-194, `pluto_matrix_interchange_rows` lib/math_support.c:196-204, `pluto_matrix_interchange_cols` lib/math_support.c:206-214, `pluto_matrix_move_col` lib/math_support.c:217-229, `pluto_matrix_identity` lib/math_support.c:264-271, `pluto_matrix_product` lib/math_support.c:433-451, `pluto_matrix_reverse_rows` lib/math_support.c:518-524, `pluto_matrix_remove_col` lib/math_support.c:63-74, `are_pluto_matrices_equal` lib/math_support.c:710-720, `pluto_matrix_remove_row` lib/math_support.c:77-88

### C46 Union lists behave as unions (partial)

* Plan: lists of systems; includes the list resize in add_to_each, expected violation.
* Result: All list operations are exact except add_to_each on full allocations and extract_basic_set of a union with more than two pieces (both shown violated).
* Theorems: Props/CstList.lean: `C46_add_dim`, `C46_remove_add_dim`, `C46_interchange_cols`, `C46_set_var`, `C46_add_lb`, `C46_add_ub`, `C46_unionize_simple`, `C46_unionize_simple_return_partial`, `C46_isl_set`, `C46_extract_domain`, `C46_extract_domain_partial`, `C46_violated_extract`, `C46_is_empty`, `C46_add_to_each_partial`, `C46_violated_add_to_each`
* Code: `pluto_constraints_resize_single` lib/constraints.c:127-170, `pluto_constraints_remove_dim` lib/constraints.c:1535-1561, `pluto_constraints_add_dim` lib/constraints.c:1601-1636, `pluto_constraints_add_lb` lib/constraints.c:1649-1659, `pluto_constraints_add_ub` lib/constraints.c:1662-1672, `pluto_constraints_set_var` lib/constraints.c:1675-1685, `pluto_constraints_interchange_cols` lib/constraints.c:1825-1839, `pluto_constraints_empty` lib/constraints.c:1896-1901, `pluto_constraints_is_empty` lib/constraints.c:1903-1927, `pluto_constraints_unionize_simple` lib/constraints.c:1930-1938, `pluto_constraints_add` lib/constraints.c:285-307, `pluto_constraints_add_to_each` lib/constraints.c:310-333, `isl_set_to_pluto_constraints` lib/constraints_isl.c:176-187, `extract_basic_set` lib/plutolib.c:114-131

### C47 Dependence graph edges reflect unsatisfied dependences (proved)

* Plan: counting loop over dependences.
* Result: Weights after ddg_create and ddg_update.
* Theorems: Props/Ddg.lean: `C47_weight`, `C47_absent`
* Code: `ddg_update` lib/pluto.c:1908-1927, `ddg_create` lib/pluto.c:1932-1947

### C48 Supernode constraints are moved from domain to schedule without changing the meaning (partial)

* Plan: row partition between domain and schedule relation.
* Result: Proved for domains with one polyhedron and for unions whose pieces share their tile constraints; refuted for other unions (C48_violated).
* Theorems: Props/NewDomain.lean: `C48_relation`, `C48_union_partial`, `C48_violated`
* Code: `pluto_constraints_from_equalities` lib/constraints.c:1458-1471, `pluto_constraints_remove_row` lib/constraints.c:1522-1532, `pluto_constraints_remove_dim` lib/constraints.c:1535-1561, `pluto_constraints_add_dim` lib/constraints.c:1601-1636, `pluto_constraints_add_leading_dims` lib/constraints.c:1643-1647, `pluto_constraints_select_row` lib/constraints.c:1704-1715, `pluto_constraints_add` lib/constraints.c:285-307, `pluto_matrix_add_col` lib/math_support.c:117-138, `pluto_matrix_negate_row` lib/math_support.c:141-147, `pluto_stmt_get_schedule` lib/pluto.c:2060-2078, `DepDir` lib/pluto.h:79-85, `PlutoHypType` lib/pluto.h:87-93, `normalize_domain_schedule` lib/plutolib.c:223-257, `pluto_stmt_remove_dim` lib/program.cpp:1088-1145

### C49 The index-set-splitting hyperplane is a near mid-point cut (proved)

* Plan: the solver system is shown equivalent (Farkas, both directions) to the near-mid-point condition; lexmin oracle gives minimality.
* Result: Exact lexicographic solver (PIP/isl) as an argument; Farkas elimination is modelled and proved.
* Theorems: Props/IssCut.lean: `C49_near_midpoint`, `C49_none`, `C49_defined`
* Code: `pluto_constraints_remove_dim` lib/constraints.c:1535-1561, `pluto_constraints_add_ub` lib/constraints.c:1662-1672, `pluto_constraints_to_pure_inequalities_single` lib/constraints.c:1747-1783, `farkas_lemma_affine` lib/constraints.c:213-280, `pluto_constraints_best_elim_candidate` lib/constraints.c:2339-2375, `j` lib/constraints.c:2349-2367, `fourier_motzkin_eliminate_smart` lib/constraints.c:2470-2563, `pluto_constraints_gaussian_eliminate` lib/constraints.c:2565-2608, `pluto_constraints_add` lib/constraints.c:285-307, `pluto_constraints_simplify` lib/constraints.c:378-474, `pluto_find_iss` lib/iss.c:129-268, `lcm` lib/math_support.c:391-395, `gcd` lib/math_support.c:398-410

### C50 Tiling a program as a whole keeps the schedule legal (partial)

* Plan: the steps of pluto_tile composed: tiling levels keep permutability, separation and uniformity of the bands (TileSetup.step), intra-tile reordering and wavefronts only touch rows of one band (Edit), recomputation is total and right (recompute_spec). With --innerpar (Props/InnerPar.lean) the last step only changes satisfaction data (`OnlySat`).
* Result: C50_tile_partial: without --innerpar; C50_innerpar_partial: with it (no condition on the bands; the loops then reported parallel are wrong: C51_violated_innerpar). Missing: levels mixing scalar and loop rows, dependences satisfied by several levels jointly, wavefronts over bands with scalar levels (false there). Diamond tiling: C79.
* Theorems: Props/InnerPar.lean: `C50_innerpar_partial`; Props/Pipeline.lean: `C50_tile_partial`, `C50_forward`
* Code: `pluto_constraints_add_dim` lib/constraints.c:1601-1636, `pluto_constraints_add` lib/constraints.c:285-307, `dep_satisfaction_test` lib/framework.cpp:1000-1050, `get_dep_direction` lib/framework.cpp:1225-1369, `pluto_compute_dep_directions` lib/pluto.c:1027-1041, `pluto_detect_hyperplane_types_stmtwise` lib/pluto.c:1043-1051, `pluto_dep_satisfaction_reset` lib/pluto.c:105-115, `pluto_detect_hyperplane_types` lib/pluto.c:1054-1065, `pluto_compute_dep_satisfaction` lib/pluto.c:122-156, `pluto_update_deps` lib/pluto.c:2081-2129, `dep_satisfaction_update` lib/pluto.c:60-89, `DepDir` lib/pluto.h:79-85, `PlutoHypType` lib/pluto.h:87-93, `pluto_get_loops_under` lib/polyloop.c:117-230, `pluto_get_all_loops` lib/polyloop.c:232-236, `pluto_loop_is_parallel` lib/polyloop.c:279-314, `is_loop_dominated` lib/polyloop.c:400-420, `pluto_get_parallel_loops` lib/polyloop.c:609-630, `is_band_dominated` lib/polyloop.c:730-743, `pluto_is_depth_scalar` lib/polyloop.c:761-771, `pluto_get_permutable_band` lib/polyloop.c:775-826, `pluto_get_dominator_bands` lib/polyloop.c:883-904, `pluto_get_outermost_permutable_bands` lib/polyloop.c:943-969, `pluto_loop_is_innermost` lib/polyloop.c:971-980, `pluto_is_band_innermost` lib/polyloop.c:985-997, `are_stmts_fused_in_band` lib/post_transform.c:291-316, `fuse_per_stmt_bands` lib/post_transform.c:321-401, `make_parallel_loop_innermost` lib/post_transform.c:406-441, `pluto_intra_tile_optimize_band` lib/post_transform.c:444-520, `pluto_stmt_add_dim` lib/program.cpp:1002-1084, `pluto_is_hyperplane_scalar` lib/program.cpp:1866-1875, `pluto_tile_band` lib/tile.c:109-207, `pluto_tile` lib/tile.c:214-326, `pluto_tile_scattering_dims` lib/tile.c:330-380, `first` lib/tile.c:384-470, `pluto_create_tile_schedule_band` lib/tile.c:384-470, `pluto_create_tile_schedule` lib/tile.c:473-484, `pluto_make_innermost_loop` lib/transforms.c:106-144, `pluto_stmt_loop_interchange` lib/transforms.c:60-66

### C51 Loops reported parallel after tiling carry no dependence (partial)

* Plan: the satisfaction bits after pluto_tile are followed through the wavefronts (Bits); a clear bit at a loop means no dependence is carried there.
* Result: With --innerpar false: C51_violated_innerpar. Without --parallel every loop, whatever its statements: C51_no_wavefront_partial. Missing: as C50_tile_partial, and, with wavefronts, loops starting at a band's first level with only some of its statements. With diamond tiling: C79_parallel_partial.
* Theorems: Props/InnerParTile.lean: `C51_violated_innerpar`; Props/Pipeline.lean: `C51_parallel_partial`; Props/TileNoWave.lean: `C51_no_wavefront_partial`
* Code: `pluto_constraints_add_dim` lib/constraints.c:1601-1636, `pluto_constraints_add` lib/constraints.c:285-307, `dep_satisfaction_test` lib/framework.cpp:1000-1050, `get_dep_direction` lib/framework.cpp:1225-1369, `pluto_compute_dep_directions` lib/pluto.c:1027-1041, `pluto_detect_hyperplane_types_stmtwise` lib/pluto.c:1043-1051, `pluto_dep_satisfaction_reset` lib/pluto.c:105-115, `pluto_detect_hyperplane_types` lib/pluto.c:1054-1065, `pluto_compute_dep_satisfaction` lib/pluto.c:122-156, `pluto_update_deps` lib/pluto.c:2081-2129, `dep_satisfaction_update` lib/pluto.c:60-89, `DepDir` lib/pluto.h:79-85, `PlutoHypType` lib/pluto.h:87-93, `pluto_get_loops_under` lib/polyloop.c:117-230, `pluto_get_all_loops` lib/polyloop.c:232-236, `pluto_loop_is_parallel` lib/polyloop.c:279-314, `is_loop_dominated` lib/polyloop.c:400-420, `pluto_get_parallel_loops` lib/polyloop.c:609-630, `is_band_dominated` lib/polyloop.c:730-743, `pluto_is_depth_scalar` lib/polyloop.c:761-771, `pluto_get_permutable_band` lib/polyloop.c:775-826, `pluto_get_dominator_bands` lib/polyloop.c:883-904, `pluto_get_outermost_permutable_bands` lib/polyloop.c:943-969, `pluto_loop_is_innermost` lib/polyloop.c:971-980, `pluto_is_band_innermost` lib/polyloop.c:985-997, `are_stmts_fused_in_band` lib/post_transform.c:291-316, `fuse_per_stmt_bands` lib/post_transform.c:321-401, `make_parallel_loop_innermost` lib/post_transform.c:406-441, `pluto_intra_tile_optimize_band` lib/post_transform.c:444-520, `pluto_stmt_add_dim` lib/program.cpp:1002-1084, `pluto_is_hyperplane_scalar` lib/program.cpp:1866-1875, `pluto_tile_band` lib/tile.c:109-207, `pluto_tile` lib/tile.c:214-326, `pluto_tile_scattering_dims` lib/tile.c:330-380, `first` lib/tile.c:384-470, `pluto_create_tile_schedule_band` lib/tile.c:384-470, `pluto_create_tile_schedule` lib/tile.c:473-484, `pluto_make_innermost_loop` lib/transforms.c:106-144, `pluto_stmt_loop_interchange` lib/transforms.c:60-66

### C52 Scheduling a program end to end is legal (partial)

* Plan: the results of C10 (shape, stepwise satisfaction and level uniformity of the schedules found, followed through the search by invariants: auto_keeps, auto_even) are exactly the hypotheses of C50, composed with C50 or with intra-tile reordering and wavefronts of untiled bands.
* Result: C52_schedule_partial, C52_same_depth_partial: without diamond tiling and --innerpar, when the search stays in EAGER mode, for schedules whose levels are uniform (always so if all statements have equally many loops) and wavefronts over bands without scalar levels; C52_innerpar_partial, C52_innerpar_same_depth_partial: with --innerpar, no condition on the bands; C52_post_diamond_partial: the passes after the search with diamond tiling, if the schedules before eviction are legal; C52_failure: failure keeps the schedules. Missing: the excluded cases, partly false (C10_violated, C19_violated, C20_violated, C79_violated). C52_innerpar_diamond_partial: diamond tiling with --innerpar.
* Theorems: Props/InnerPar.lean: `C52_innerpar_post_partial`, `C52_innerpar_partial`, `C52_innerpar_same_depth_partial`; Props/InnerParDiamond.lean: `C52_innerpar_diamond_partial`; Props/Schedule.lean: `C52_post_partial`, `C52_schedule_partial`, `C52_same_depth_partial`, `C52_failure`, `C52_reports`; Props/ScheduleDiamond.lean: `C52_post_diamond_partial`
* Code: `pluto_constraints_remove_dim` lib/constraints.c:1535-1561, `pluto_constraints_add_dim` lib/constraints.c:1601-1636, `pluto_constraints_add_lb` lib/constraints.c:1649-1659, `pluto_constraints_add_ub` lib/constraints.c:1662-1672, `pluto_constraints_set_var` lib/constraints.c:1675-1685, `pluto_constraints_to_pure_inequalities_single` lib/constraints.c:1747-1783, `pluto_constraints_interchange_cols` lib/constraints.c:1825-1839, `farkas_lemma_affine` lib/constraints.c:213-280, `pluto_constraints_best_elim_candidate` lib/constraints.c:2339-2375, `j` lib/constraints.c:2349-2367, `fourier_motzkin_eliminate_smart` lib/constraints.c:2470-2563, `pluto_constraints_gaussian_eliminate` lib/constraints.c:2565-2608, `pluto_constraints_add` lib/constraints.c:285-307, `pluto_constraints_simplify` lib/constraints.c:378-474, `fourier_motzkin_eliminate` lib/constraints.c:485-581, `dfs_vertex` lib/ddg.c:116-133, `dfs` lib/ddg.c:136-149, `dfs_for_scc` lib/ddg.c:173-212, `graph_transpose` lib/ddg.c:72-84, `dep_satisfaction_test` lib/framework.cpp:1000-1050, `pluto_dep_remove_satisfied_instances` lib/framework.cpp:1061-1112, `pluto_compute_dep_satisfaction_precise` lib/framework.cpp:1118-1171, `pluto_dep_satisfies_instance` lib/framework.cpp:1174-1221, `get_dep_direction` lib/framework.cpp:1225-1369, `pluto_add_hyperplane_from_ilp_solution` lib/framework.cpp:1416-1449, `CONSTRAINTS_SIMPLIFY_THRESHOLD` lib/framework.cpp:32, `get_permutability_constraints` lib/framework.cpp:348-485, `compute_permutability_constraints_dep` lib/framework.cpp:62-272, `get_stmt_lin_ind_constraints` lib/framework.cpp:696-870, `h` lib/framework.cpp:728-749, `k` lib/framework.cpp:816-826, `get_non_trivial_sol_constraints` lib/framework.cpp:880-934, `get_coeff_bounding_constraints` lib/framework.cpp:937-993, `lcm` lib/math_support.c:391-395, `gcd` lib/math_support.c:398-410, `pluto_matrix_to_row_echelon` lib/math_support.c:454-484, `pluto_matrix_get_rank` lib/math_support.c:487-504, `pluto_matrix_remove_col` lib/math_support.c:63-74, `pluto_compute_dep_directions` lib/pluto.c:1027-1041, `pluto_detect_hyperplane_types_stmtwise` lib/pluto.c:1043-1051, `pluto_dep_satisfaction_reset` lib/pluto.c:105-115, `pluto_detect_hyperplane_types` lib/pluto.c:1054-1065, `normalize_domains` lib/pluto.c:1138-1273, `pluto_compute_dep_satisfaction` lib/pluto.c:122-156, `denormalize_domains` lib/pluto.c:1277-1304, `pluto_auto_transform` lib/pluto.c:1492-1850, `get_num_unsatisfied_inter_scc_deps` lib/pluto.c:1884-1900, `ddg_update` lib/pluto.c:1908-1927, `ddg_create` lib/pluto.c:1932-1947, `get_max_orig_dim_in_scc` lib/pluto.c:1952-1964, `pluto_update_deps` lib/pluto.c:2081-2129, `pluto_prog_constraints_lexmin` lib/pluto.c:275-431, `ddg_sccs_direct_connected` lib/pluto.c:434-450, `cut_between_sccs` lib/pluto.c:453-496, `cut_all_sccs` lib/pluto.c:499-529, `cut_scc_dim_based` lib/pluto.c:541-589, `cut_smart` lib/pluto.c:592-624, `dep_satisfaction_update` lib/pluto.c:60-89, `cut_conservative` lib/pluto.c:628-652, `get_linear_ind_constraints` lib/pluto.c:664-733, `find_permutable_hyperplanes` lib/pluto.c:770-857, `deps_satisfaction_check` lib/pluto.c:92-103, `CST_WIDTH` lib/pluto.h:71, `DepDir` lib/pluto.h:79-85, `PlutoHypType` lib/pluto.h:87-93, `pluto_schedule_prog` lib/plutolib.c:30-102, `pluto_get_loops_under` lib/polyloop.c:117-230, `pluto_get_all_loops` lib/polyloop.c:232-236, `pluto_loop_is_parallel` lib/polyloop.c:279-314, `is_loop_dominated` lib/polyloop.c:400-420, `pluto_get_parallel_loops` lib/polyloop.c:609-630, `is_band_dominated` lib/polyloop.c:730-743, `pluto_is_depth_scalar` lib/polyloop.c:761-771, `pluto_get_permutable_band` lib/polyloop.c:775-826, `pluto_get_dominator_bands` lib/polyloop.c:883-904, `pluto_get_outermost_permutable_bands` lib/polyloop.c:943-969, `pluto_loop_is_innermost` lib/polyloop.c:971-980, `pluto_is_band_innermost` lib/polyloop.c:985-997, `are_stmts_fused_in_band` lib/post_transform.c:291-316, `fuse_per_stmt_bands` lib/post_transform.c:321-401, `make_parallel_loop_innermost` lib/post_transform.c:406-441, `pluto_intra_tile_optimize_band` lib/post_transform.c:444-520, `pluto_intra_tile_optimize` lib/post_transform.c:524-546, `pluto_stmt_add_dim` lib/program.cpp:1002-1084, `pluto_stmt_remove_dim` lib/program.cpp:1088-1145, `pluto_is_hyperplane_scalar` lib/program.cpp:1866-1875, `pluto_get_max_ind_hyps` lib/program.cpp:2127-2135, `pluto_stmt_get_num_ind_hyps` lib/program.cpp:2158-2170, `pluto_transformations_full_ranked` lib/program.cpp:2175-2184, `pluto_prog_get_largest_const_in_domains` lib/program.cpp:719-729, `pluto_tile_band` lib/tile.c:109-207, `pluto_tile` lib/tile.c:214-326, `pluto_tile_scattering_dims` lib/tile.c:330-380, `first` lib/tile.c:384-470, `pluto_create_tile_schedule_band` lib/tile.c:384-470, `pluto_create_tile_schedule` lib/tile.c:473-484, `pluto_diamond_tile_reschedule` lib/tile.c:85-105, `pluto_make_innermost_loop` lib/transforms.c:106-144, `pluto_sink_statement` lib/transforms.c:23-33, `pluto_stmt_loop_interchange` lib/transforms.c:60-66

### C53 Loops marked for OpenMP and vectorization carry no dependence (partial)

* Plan: the AST is a list of loops (level, statements); domination is nesting (Uniform schedules); parallel bands by Info; the walk of pluto_mark_parallel by induction.
* Result: dominating/outermost/innermost loops and vector marking proved in full; parallel marking proved when dominating parallel loops exist in the AST; otherwise violated (off by one) After tiling, and after all of pluto_schedule_prog, without --parallel: C53_vector_tiled_partial, C53_vector_post_partial.
* Theorems: Props/Mark.lean: `C53_dominating`, `C53_outermost`, `C53_innermost`, `C53_band_partial`, `C53_mark_partial`, `C53_mark_any_partial`, `C53_vector`, `C53_violated`, `C53_violated_band`; Props/TileNoWave.lean: `C53_vector_tiled_partial`, `C53_vector_post_partial`
* Code: `pluto_constraints_add_dim` lib/constraints.c:1601-1636, `pluto_constraints_add` lib/constraints.c:285-307, `dep_satisfaction_test` lib/framework.cpp:1000-1050, `get_dep_direction` lib/framework.cpp:1225-1369, `pluto_compute_dep_directions` lib/pluto.c:1027-1041, `pluto_detect_hyperplane_types_stmtwise` lib/pluto.c:1043-1051, `pluto_dep_satisfaction_reset` lib/pluto.c:105-115, `pluto_detect_hyperplane_types` lib/pluto.c:1054-1065, `pluto_compute_dep_satisfaction` lib/pluto.c:122-156, `pluto_update_deps` lib/pluto.c:2081-2129, `dep_satisfaction_update` lib/pluto.c:60-89, `DepDir` lib/pluto.h:79-85, `PlutoHypType` lib/pluto.h:87-93, `pluto_schedule_prog` lib/plutolib.c:30-102, `pluto_get_loops_under` lib/polyloop.c:117-230, `pluto_get_all_loops` lib/polyloop.c:232-236, `pluto_loop_is_parallel` lib/polyloop.c:279-314, `is_loop_dominated` lib/polyloop.c:400-420, `pluto_get_parallel_loops` lib/polyloop.c:609-630, `pluto_get_dom_parallel_loops` lib/polyloop.c:633-656, `pluto_get_outermost_loops` lib/polyloop.c:659-680, `is_band_dominated` lib/polyloop.c:730-743, `pluto_is_depth_scalar` lib/polyloop.c:761-771, `pluto_get_permutable_band` lib/polyloop.c:775-826, `pluto_get_parallel_band` lib/polyloop.c:833-880, `pluto_get_dominator_bands` lib/polyloop.c:883-904, `pluto_get_loops_immediately_inner` lib/polyloop.c:89-110, `pluto_get_outermost_permutable_bands` lib/polyloop.c:943-969, `pluto_loop_is_innermost` lib/polyloop.c:971-980, `pluto_is_band_innermost` lib/polyloop.c:985-997, `pluto_get_innermost_loops` lib/polyloop.c:999-1016, `are_stmts_fused_in_band` lib/post_transform.c:291-316, `fuse_per_stmt_bands` lib/post_transform.c:321-401, `make_parallel_loop_innermost` lib/post_transform.c:406-441, `pluto_intra_tile_optimize_band` lib/post_transform.c:444-520, `pluto_intra_tile_optimize` lib/post_transform.c:524-546, `pluto_stmt_add_dim` lib/program.cpp:1002-1084, `pluto_is_hyperplane_scalar` lib/program.cpp:1866-1875, `pluto_tile_band` lib/tile.c:109-207, `pluto_tile` lib/tile.c:214-326, `pluto_tile_scattering_dims` lib/tile.c:330-380, `first` lib/tile.c:384-470, `pluto_create_tile_schedule_band` lib/tile.c:384-470, `pluto_create_tile_schedule` lib/tile.c:473-484, `pluto_make_innermost_loop` lib/transforms.c:106-144, `pluto_stmt_loop_interchange` lib/transforms.c:60-66, `pluto_mark_vector` tool/ast_transform.c:192-243, `pluto_mark_parallel` tool/ast_transform.c:23-127

### C54 Unroll-jam keeps dependences (partial)

* Plan: unroll-jam is a rearrangement of time stamps (jamTime); the permutable band theorem (band_comp) gives the order. CLooG's own handling of loops that do not nest perfectly is not modelled; profitability is left open (any loop may be wanted).
* Result: proved when permutable bands reach the innermost loops; violated otherwise
* Theorems: Props/Codegen.lean: `C54_mark_partial`; Props/Mark.lean: `C54_jam_partial`, `C54_violated`
* Code: `DepDir` lib/pluto.h:79-85, `PlutoHypType` lib/pluto.h:87-93, `pluto_get_innermost_permutable_bands` lib/polyloop.c:1019-1047, `pluto_get_loops_under` lib/polyloop.c:117-230, `pluto_get_all_loops` lib/polyloop.c:232-236, `pluto_get_unroll_jam_loops` lib/polyloop.c:576-606, `is_band_dominated` lib/polyloop.c:730-743, `pluto_is_depth_scalar` lib/polyloop.c:761-771, `pluto_get_permutable_band` lib/polyloop.c:775-826, `pluto_get_dominator_bands` lib/polyloop.c:883-904, `pluto_loop_is_innermost` lib/polyloop.c:971-980, `pluto_is_band_innermost` lib/polyloop.c:985-997, `pluto_is_hyperplane_scalar` lib/program.cpp:1866-1875, `pluto_mark_unroll_jam` tool/ast_transform.c:131-188

### C55 Colouring of the fusion conflict graph is proper and complete (partial)

* Plan: colour_scc as a backtracking function over blocks of vertices; soundness and completeness by induction over statements and tries; the edge update by induction over the pairs of statements. With --nofuse the update uses the wrong vertices (violated).
* Result: Colouring is proved sound and complete. The edge update is proved for all fusion modes but --nofuse, where the code violates it (C55_update_violated). --lpcolor: C80; typed fusion and --clusterscc: see C56, C75, C76, C77.
* Theorems: Props/Colour.lean: `C55_colour_sound`, `C55_colour_complete`, `C55_blocks`, `C55_update_partial`, `C55_update_violated`
* Code: `is_adjacent` lib/ddg.c:216-221, `is_valid_colour` lib/framework-dfp.c:1260-1277, `is_discarded` lib/framework-dfp.c:1282-1288, `get_next_min_vertex` lib/framework-dfp.c:1295-1320, `colour_scc` lib/framework-dfp.c:1448-1586, `update_fcg_between_sccs` lib/framework-dfp.c:903-964, `pluto_auto_transform` lib/pluto.c:1492-1850, `PlutoHypType` lib/pluto.h:87-93

### C56 Automatic transformation with --dfp is legal (partial)

* Plan: the search with --dfp is modelled from the initial state to the final distribution, over the functions of the ordinary search (cuts, satisfaction, permutability constraints) and the colouring of C55; which edges the fusion conflict graph has is left open (built from LP solutions). Invariant: the legality invariant of C10 plus: every coloured loop has its schedule row. Violated for statements that depend on each other: the final cut does nothing if they are one component. The theorems are about runs in which introduce_skew introduces no skew (C56_shape: all runs); skewing is C57. The solver is an argument with the assumption LexScales (an integer point, or a rational point times one factor per connected component); integer solvers meet it, GLPK with --lp meets it for dependences between neighbouring statements (C56_lp_partial) and reverses a dependence otherwise (C56_violated_lp).
* Result: Proved for runs in which no skew is introduced: never reversed; unordered only inside a cycle of dependences between statements and then marked unsatisfied; permutation of loops; full legality without such cycles or if all dependences are marked satisfied. C56_shape: all runs. For integer solvers, and for GLPK with --lp if dependences join neighbouring statements (C56_lp_partial). In general the code violates the property (C56_violated; C56_violated_lp: with --lp, the default, a dependence is reversed and marked satisfied).
* Theorems: Props/Dfp.lean: `C56_order_partial`, `C56_quiet`, `C56_shape`, `C56_loops_partial`, `C56_injective_partial`, `C56_self_partial`, `C56_legal_partial`, `C56_marked_partial`, `C56_violated`; Props/LpDfp.lean: `C56_lp_partial`, `C56_lp_order_partial`, `C56_violated_lp`
* Code: `get_scaling_lp_glpk` lib/constraints.c:1269-1317, `max_scale_factor` lib/constraints.c:1328-1415, `pluto_prog_constraints_lexmin_glpk` lib/constraints.c:1328-1415, `pluto_constraints_remove_dim` lib/constraints.c:1535-1561, `pluto_constraints_add_dim` lib/constraints.c:1601-1636, `pluto_constraints_add_lb` lib/constraints.c:1649-1659, `pluto_constraints_add_ub` lib/constraints.c:1662-1672, `pluto_constraints_set_var` lib/constraints.c:1675-1685, `pluto_constraints_to_pure_inequalities_single` lib/constraints.c:1747-1783, `pluto_constraints_interchange_cols` lib/constraints.c:1825-1839, `farkas_lemma_affine` lib/constraints.c:213-280, `pluto_constraints_best_elim_candidate` lib/constraints.c:2339-2375, `j` lib/constraints.c:2349-2367, `fourier_motzkin_eliminate_smart` lib/constraints.c:2470-2563, `pluto_constraints_gaussian_eliminate` lib/constraints.c:2565-2608, `pluto_constraints_add` lib/constraints.c:285-307, `pluto_constraints_simplify` lib/constraints.c:378-474, `fourier_motzkin_eliminate` lib/constraints.c:485-581, `dfs_vertex` lib/ddg.c:116-133, `dfs` lib/ddg.c:136-149, `dfs_for_scc` lib/ddg.c:173-212, `is_adjacent` lib/ddg.c:216-221, `compute_scc_vertices` lib/ddg.c:223-240, `graph_transpose` lib/ddg.c:72-84, `get_undirected_graph` lib/ddg.c:88-100, `is_ilp_solution_parallel` lib/framework-dfp.c:118-126, `is_valid_colour` lib/framework-dfp.c:1260-1277, `is_discarded` lib/framework-dfp.c:1282-1288, `get_next_min_vertex` lib/framework-dfp.c:1295-1320, `colour_scc` lib/framework-dfp.c:1448-1586, `scc_has_must_distribute_edges` lib/framework-dfp.c:1590-1620, `pluto_add_scalar_hyperplanes_between_sccs` lib/framework-dfp.c:2470-2490, `colour_fcg_scc_based` lib/framework-dfp.c:2493-2735, `k` lib/framework-dfp.c:2576-2690, `find_permutable_dimensions_scc_based` lib/framework-dfp.c:2752-2856, `add_coeff_constraints_from_fcg_colouring` lib/framework-dfp.c:2916-2947, `scale_shift_permutations` lib/framework-dfp.c:2952-3034, `get_negative_components` lib/framework-dfp.c:3038-3062, `dims_to_be_skewed` lib/framework-dfp.c:3126-3152, `get_dep_satisfaction_dims` lib/framework-dfp.c:3155-3177, `get_skewing_constraints` lib/framework-dfp.c:3181-3227, `get_outermost_sat_level` lib/framework-dfp.c:3232-3242, `swap_trans_for_cc` lib/framework-dfp.c:3246-3258, `introduce_skew` lib/framework-dfp.c:3262-3447, `update_fcg_between_sccs` lib/framework-dfp.c:903-964, `dep_satisfaction_test` lib/framework.cpp:1000-1050, `pluto_dep_remove_satisfied_instances` lib/framework.cpp:1061-1112, `pluto_compute_dep_satisfaction_precise` lib/framework.cpp:1118-1171, `pluto_dep_satisfies_instance` lib/framework.cpp:1174-1221, `get_dep_direction` lib/framework.cpp:1225-1369, `populate_scaling_csr_matrices_for_pluto_program` lib/framework.cpp:1374-1413, `pluto_add_hyperplane_from_ilp_solution` lib/framework.cpp:1416-1449, `CONSTRAINTS_SIMPLIFY_THRESHOLD` lib/framework.cpp:32, `get_cc_permutability_constraints` lib/framework.cpp:320-345, `get_permutability_constraints` lib/framework.cpp:348-485, `compute_permutability_constraints_dep` lib/framework.cpp:62-272, `get_coeff_bounding_constraints` lib/framework.cpp:937-993, `lcm` lib/math_support.c:391-395, `gcd` lib/math_support.c:398-410, `pluto_matrix_to_row_echelon` lib/math_support.c:454-484, `pluto_matrix_get_rank` lib/math_support.c:487-504, `pluto_matrix_remove_col` lib/math_support.c:63-74, `pluto_compute_dep_directions` lib/pluto.c:1027-1041, `pluto_dep_satisfaction_reset` lib/pluto.c:105-115, `normalize_domains` lib/pluto.c:1138-1273, `denormalize_domains` lib/pluto.c:1277-1304, `pluto_auto_transform` lib/pluto.c:1492-1850, `ddg_update` lib/pluto.c:1908-1927, `ddg_create` lib/pluto.c:1932-1947, `get_max_orig_dim_in_scc` lib/pluto.c:1952-1964, `ddg_compute_cc` lib/pluto.c:1983-2015, `construct_cplex_objective` lib/pluto.c:243-267, `pluto_prog_constraints_lexmin` lib/pluto.c:275-431, `ddg_sccs_direct_connected` lib/pluto.c:434-450, `cut_between_sccs` lib/pluto.c:453-496, `cut_all_sccs` lib/pluto.c:499-529, `cut_scc_dim_based` lib/pluto.c:541-589, `cut_smart` lib/pluto.c:592-624, `dep_satisfaction_update` lib/pluto.c:60-89, `deps_satisfaction_check` lib/pluto.c:92-103, `CST_WIDTH` lib/pluto.h:71, `DepDir` lib/pluto.h:79-85, `PlutoHypType` lib/pluto.h:87-93, `pluto_stmt_add_dim` lib/program.cpp:1002-1084, `pluto_stmt_remove_dim` lib/program.cpp:1088-1145, `pluto_stmt_get_num_ind_hyps` lib/program.cpp:2158-2170, `pluto_transformations_full_ranked` lib/program.cpp:2175-2184, `pluto_prog_get_largest_const_in_domains` lib/program.cpp:719-729, `pluto_sink_statement` lib/transforms.c:23-33

### C57 Skewing keeps schedules legal (partial)

* Plan: introduce_skew is modelled with all its helpers, on the state of the search. Invariant of its loops over components and levels: only rows of loop levels change, and for dependences inside one connected component a new row has non-negative distances (from the permutability constraints it is solved with). Violated with several components: the row is set for all statements but solved with the constraints of one component only. The solver is an argument as in C56. Which loops are skewed, by which loops, and which levels are exchanged is stated for each helper on its own (Spec/SkewDims). `C57_set_once` follows the levels of one component by induction.
* Result: Proved: which loops are skewed and by which (C57_negative, C57_skew_dims, C57_source_dims, C57_next_level, C57_exchange_level, C57_exchange, C57_parallel_row), each level once from the outside in (C57_set_once); unchanged if no skew is reported; only rows of loop levels change; what leading scalar levels order stays ordered; with one connected component, every level keeps the distances of an old level or has none that is negative. Missing: legality in general; the code violates it with several components (C57_violated).
* Theorems: Props/Skew.lean: `C57_unchanged`, `C57_levels`, `C57_leading`, `C57_component_partial`, `C57_nonneg_partial`, `C57_violated`; Props/SkewDims.lean: `C57_negative`, `C57_skew_dims`, `C57_source_dims`, `C57_next_level`, `C57_exchange_level`, `C57_exchange`, `C57_parallel_row`; Props/SkewOnce.lean: `C57_set_once`; Props/SkewRows.lean: `C57_constraints`, `C57_set_types`, `C57_single`
* Code: `pluto_constraints_remove_dim` lib/constraints.c:1535-1561, `pluto_constraints_add_lb` lib/constraints.c:1649-1659, `pluto_constraints_set_var` lib/constraints.c:1675-1685, `pluto_constraints_to_pure_inequalities_single` lib/constraints.c:1747-1783, `pluto_constraints_interchange_cols` lib/constraints.c:1825-1839, `farkas_lemma_affine` lib/constraints.c:213-280, `pluto_constraints_best_elim_candidate` lib/constraints.c:2339-2375, `j` lib/constraints.c:2349-2367, `fourier_motzkin_eliminate_smart` lib/constraints.c:2470-2563, `pluto_constraints_gaussian_eliminate` lib/constraints.c:2565-2608, `pluto_constraints_add` lib/constraints.c:285-307, `pluto_constraints_simplify` lib/constraints.c:378-474, `dfs_vertex` lib/ddg.c:116-133, `dfs` lib/ddg.c:136-149, `dfs_for_scc` lib/ddg.c:173-212, `compute_scc_vertices` lib/ddg.c:223-240, `graph_transpose` lib/ddg.c:72-84, `get_undirected_graph` lib/ddg.c:88-100, `is_ilp_solution_parallel` lib/framework-dfp.c:118-126, `get_negative_components` lib/framework-dfp.c:3038-3062, `dims_to_be_skewed` lib/framework-dfp.c:3126-3152, `get_dep_satisfaction_dims` lib/framework-dfp.c:3155-3177, `get_skewing_constraints` lib/framework-dfp.c:3181-3227, `get_outermost_sat_level` lib/framework-dfp.c:3232-3242, `swap_trans_for_cc` lib/framework-dfp.c:3246-3258, `introduce_skew` lib/framework-dfp.c:3262-3447, `dep_satisfaction_test` lib/framework.cpp:1000-1050, `get_dep_direction` lib/framework.cpp:1225-1369, `pluto_add_hyperplane_from_ilp_solution` lib/framework.cpp:1416-1449, `get_cc_permutability_constraints` lib/framework.cpp:320-345, `compute_permutability_constraints_dep` lib/framework.cpp:62-272, `lcm` lib/math_support.c:391-395, `gcd` lib/math_support.c:398-410, `pluto_compute_dep_directions` lib/pluto.c:1027-1041, `pluto_dep_satisfaction_reset` lib/pluto.c:105-115, `ddg_update` lib/pluto.c:1908-1927, `ddg_create` lib/pluto.c:1932-1947, `get_max_orig_dim_in_scc` lib/pluto.c:1952-1964, `ddg_compute_cc` lib/pluto.c:1983-2015, `pluto_prog_constraints_lexmin` lib/pluto.c:275-431, `dep_satisfaction_update` lib/pluto.c:60-89, `CST_WIDTH` lib/pluto.h:71, `DepDir` lib/pluto.h:79-85, `PlutoHypType` lib/pluto.h:87-93

### C58 The fusion conflict graph has exactly the conflicts (partial)

* Plan: The systems that build_fusion_conflict_graph gives to the LP solver are modelled column by column; the solver is a yes/no oracle that answers correctly over the rationals. An edge is shown to be there iff the corresponding level does not exist (from the exactness of the systems of dependences, C07 and C08, over the rationals). Violated beyond pairs: a program on which pairwise fusable loops do not give a level, so that the assertion after scale_shift_permutations fails (run evaluated with certificates of infeasibility).
* Result: Proved: the exact meaning of every edge (self edges, edges between loops of directly dependent statements, of the same statement, of unrelated statements). Missing: that pairwise conflict-free loops give a level; the code violates it for more than two statements (C58_violated).
* Theorems: Props/FcgBuild.lean: `C58_oracle`, `C58_self`, `C58_conflict`, `C58_same`, `C58_unrelated`, `C58_distribute`; Props/FcgViolated.lean: `C58_violated`
* Code: `pluto_constraints_remove_dim` lib/constraints.c:1535-1561, `pluto_constraints_add_dim` lib/constraints.c:1601-1636, `pluto_constraints_add_lb` lib/constraints.c:1649-1659, `pluto_constraints_add_ub` lib/constraints.c:1662-1672, `pluto_constraints_set_var` lib/constraints.c:1675-1685, `pluto_constraints_to_pure_inequalities_single` lib/constraints.c:1747-1783, `pluto_constraints_interchange_cols` lib/constraints.c:1825-1839, `farkas_lemma_affine` lib/constraints.c:213-280, `pluto_constraints_best_elim_candidate` lib/constraints.c:2339-2375, `j` lib/constraints.c:2349-2367, `fourier_motzkin_eliminate_smart` lib/constraints.c:2470-2563, `pluto_constraints_gaussian_eliminate` lib/constraints.c:2565-2608, `pluto_constraints_add` lib/constraints.c:285-307, `pluto_constraints_simplify` lib/constraints.c:378-474, `fourier_motzkin_eliminate` lib/constraints.c:485-581, `compute_transitive_closure` lib/ddg.c:103-113, `dfs_vertex` lib/ddg.c:116-133, `dfs` lib/ddg.c:136-149, `dfs_for_scc` lib/ddg.c:173-212, `is_adjacent` lib/ddg.c:216-221, `compute_scc_vertices` lib/ddg.c:223-240, `graph_transpose` lib/ddg.c:72-84, `get_undirected_graph` lib/ddg.c:88-100, `add_must_distribute_edges` lib/framework-dfp.c:1016-1072, `build_fusion_conflict_graph` lib/framework-dfp.c:1080-1226, `is_ilp_solution_parallel` lib/framework-dfp.c:118-126, `is_valid_colour` lib/framework-dfp.c:1260-1277, `is_discarded` lib/framework-dfp.c:1282-1288, `get_next_min_vertex` lib/framework-dfp.c:1295-1320, `colour_scc` lib/framework-dfp.c:1448-1586, `scc_has_must_distribute_edges` lib/framework-dfp.c:1590-1620, `fcg_add_pairwise_edges` lib/framework-dfp.c:230-369, `pluto_add_scalar_hyperplanes_between_sccs` lib/framework-dfp.c:2470-2490, `colour_fcg_scc_based` lib/framework-dfp.c:2493-2735, `k` lib/framework-dfp.c:2576-2690, `find_permutable_dimensions_scc_based` lib/framework-dfp.c:2752-2856, `add_coeff_constraints_from_fcg_colouring` lib/framework-dfp.c:2916-2947, `scale_shift_permutations` lib/framework-dfp.c:2952-3034, `get_negative_components` lib/framework-dfp.c:3038-3062, `dims_to_be_skewed` lib/framework-dfp.c:3126-3152, `get_dep_satisfaction_dims` lib/framework-dfp.c:3155-3177, `get_skewing_constraints` lib/framework-dfp.c:3181-3227, `get_outermost_sat_level` lib/framework-dfp.c:3232-3242, `swap_trans_for_cc` lib/framework-dfp.c:3246-3258, `introduce_skew` lib/framework-dfp.c:3262-3447, `compute_intra_stmt_deps` lib/framework-dfp.c:596-634, `add_permute_preventing_edges` lib/framework-dfp.c:680-745, `update_fcg_between_sccs` lib/framework-dfp.c:903-964, `are_sccs_fused` lib/framework-dfp.c:987-1012, `dep_satisfaction_test` lib/framework.cpp:1000-1050, `pluto_dep_remove_satisfied_instances` lib/framework.cpp:1061-1112, `pluto_compute_dep_satisfaction_precise` lib/framework.cpp:1118-1171, `pluto_dep_satisfies_instance` lib/framework.cpp:1174-1221, `get_dep_direction` lib/framework.cpp:1225-1369, `pluto_add_hyperplane_from_ilp_solution` lib/framework.cpp:1416-1449, `CONSTRAINTS_SIMPLIFY_THRESHOLD` lib/framework.cpp:32, `get_cc_permutability_constraints` lib/framework.cpp:320-345, `get_permutability_constraints` lib/framework.cpp:348-485, `compute_permutability_constraints_dep` lib/framework.cpp:62-272, `get_coeff_bounding_constraints` lib/framework.cpp:937-993, `lcm` lib/math_support.c:391-395, `gcd` lib/math_support.c:398-410, `pluto_matrix_to_row_echelon` lib/math_support.c:454-484, `pluto_matrix_get_rank` lib/math_support.c:487-504, `pluto_matrix_remove_col` lib/math_support.c:63-74, `pluto_compute_dep_directions` lib/pluto.c:1027-1041, `pluto_dep_satisfaction_reset` lib/pluto.c:105-115, `normalize_domains` lib/pluto.c:1138-1273, `denormalize_domains` lib/pluto.c:1277-1304, `pluto_auto_transform` lib/pluto.c:1492-1850, `ddg_update` lib/pluto.c:1908-1927, `ddg_create` lib/pluto.c:1932-1947, `get_max_orig_dim_in_scc` lib/pluto.c:1952-1964, `ddg_compute_cc` lib/pluto.c:1983-2015, `pluto_prog_constraints_lexmin` lib/pluto.c:275-431, `ddg_sccs_direct_connected` lib/pluto.c:434-450, `cut_between_sccs` lib/pluto.c:453-496, `cut_all_sccs` lib/pluto.c:499-529, `cut_scc_dim_based` lib/pluto.c:541-589, `cut_smart` lib/pluto.c:592-624, `dep_satisfaction_update` lib/pluto.c:60-89, `deps_satisfaction_check` lib/pluto.c:92-103, `CST_WIDTH` lib/pluto.h:71, `DepDir` lib/pluto.h:79-85, `PlutoHypType` lib/pluto.h:87-93, `pluto_stmt_add_dim` lib/program.cpp:1002-1084, `pluto_stmt_remove_dim` lib/program.cpp:1088-1145, `pluto_stmt_get_num_ind_hyps` lib/program.cpp:2158-2170, `pluto_transformations_full_ranked` lib/program.cpp:2175-2184, `pluto_prog_get_largest_const_in_domains` lib/program.cpp:719-729, `pluto_sink_statement` lib/transforms.c:23-33

### C59 Conversions to and from isl keep the sets (partial)

* Plan: isl objects are modelled as the systems isl keeps (in, out, existentially quantified, parameter columns), with unbounded entries; the functions of isl are an argument with a specification (IslOps.OK), and a simple implementation is shown to meet it. Conversions are modelled entry by entry with the word sizes of the code (64 bits to sets, 32 bits to relations). Union and intersection through isl are exact; relations are exact if entries fit 32 bits (violated otherwise), projection contains the projection (violated: not equal, as quantified variables are dropped).
* Result: proved: conversions of sets both ways, relations to constraints, union, intersection, copy, intersect; relations from constraints proved for entries of 32 bits (violated beyond, C59_violated_from_map); projection through isl proved to contain the projection (violated: it may be larger, C59_violated_project)
* Theorems: Props/IslConv.lean: `C59_to_map`, `C59_to_map_exact`, `C59_from_set`, `C59_to_set`, `C59_round_trip`, `C59_from_map_partial`, `C59_violated_from_map`, `C59_union`, `C59_intersection`, `C59_copy`, `C59_intersect`, `C59_project_partial`, `C59_violated_project`
* Code: `pluto_constraints_empty` lib/constraints.c:1896-1901, `pluto_constraints_unionize_simple` lib/constraints.c:1930-1938, `pluto_constraints_copy` lib/constraints.c:585-601, `isl_set_from_pluto_constraints` lib/constraints_isl.c:133-147, `isl_set_to_pluto_constraints` lib/constraints_isl.c:176-187, `isl_basic_map_from_pluto_constraints` lib/constraints_isl.c:192-236, `isl_basic_set_to_pluto_constraints` lib/constraints_isl.c:242-290, `isl_basic_map_to_pluto_constraints` lib/constraints_isl.c:293-301, `isl_basic_map_to_pluto_constraints_func_arg` lib/constraints_isl.c:304-351, `pluto_constraints_union_isl` lib/constraints_isl.c:405-416, `pluto_constraints_intersection_isl` lib/constraints_isl.c:465-484, `pluto_constraints_intersect_isl` lib/constraints_isl.c:487-495, `pluto_constraints_project_out_isl_single` lib/constraints_isl.c:53-74, `isl_basic_set_from_pluto_constraints` lib/constraints_isl.c:80-128, `mpz_fits_ll` lib/isl_support.c:104-119, `isl_val_get_num_ll` lib/isl_support.c:125-170, `mpz_set_sll` lib/math_support.c:690-697

### C60 pluto_transform returns a legal schedule or NULL (partial)

* Plan: plutolib.c is modelled from isl domains and dependences to isl schedules; the scheduler is pluto_schedule_prog (C52). Extraction: the program is a valid input with the given instances and dependences. Conversion back: induction over the statements; the relation of a statement is the set of times over all tile coordinates (C48, C59), which SameRuns makes unique. Composed with C52. isldepaccesswise is off. Accesses given to the library: Model/IslLibAccs.lean (`stmtFilter`, `islAccesses`), `C60_accesses`.
* Result: extraction and conversion back proved in full (C60_extract, C60_schedules, C60_null, C60_transform for any legal scheduler); composition with pluto_schedule_prog under the conditions of C52_schedule_partial and coefficients in the range of int; with --innerpar: C60_innerpar_partial
* Theorems: Props/InnerParLib.lean: `C60_innerpar_partial`; Props/IslLib.lean: `C60_schedules`, `C60_extract`, `C60_transform`, `C60_null`, `C60_transform_partial`; Props/IslLibAccs.lean: `C60_accesses`
* Code: `pluto_constraints_from_equalities` lib/constraints.c:1458-1471, `pluto_constraints_remove_row` lib/constraints.c:1522-1532, `pluto_constraints_remove_dim` lib/constraints.c:1535-1561, `pluto_constraints_add_dim` lib/constraints.c:1601-1636, `pluto_constraints_add_leading_dims` lib/constraints.c:1643-1647, `pluto_constraints_add_lb` lib/constraints.c:1649-1659, `pluto_constraints_add_ub` lib/constraints.c:1662-1672, `pluto_constraints_set_var` lib/constraints.c:1675-1685, `pluto_constraints_select_row` lib/constraints.c:1704-1715, `pluto_constraints_to_pure_inequalities_single` lib/constraints.c:1747-1783, `pluto_constraints_interchange_cols` lib/constraints.c:1825-1839, `farkas_lemma_affine` lib/constraints.c:213-280, `pluto_constraints_best_elim_candidate` lib/constraints.c:2339-2375, `j` lib/constraints.c:2349-2367, `fourier_motzkin_eliminate_smart` lib/constraints.c:2470-2563, `pluto_constraints_gaussian_eliminate` lib/constraints.c:2565-2608, `pluto_constraints_add` lib/constraints.c:285-307, `pluto_constraints_simplify` lib/constraints.c:378-474, `fourier_motzkin_eliminate` lib/constraints.c:485-581, `isl_basic_map_from_pluto_constraints` lib/constraints_isl.c:192-236, `isl_basic_set_to_pluto_constraints` lib/constraints_isl.c:242-290, `isl_basic_map_to_pluto_constraints` lib/constraints_isl.c:293-301, `isl_basic_map_to_pluto_constraints_func_arg` lib/constraints_isl.c:304-351, `dfs_vertex` lib/ddg.c:116-133, `dfs` lib/ddg.c:136-149, `dfs_for_scc` lib/ddg.c:173-212, `graph_transpose` lib/ddg.c:72-84, `dep_satisfaction_test` lib/framework.cpp:1000-1050, `pluto_dep_remove_satisfied_instances` lib/framework.cpp:1061-1112, `pluto_compute_dep_satisfaction_precise` lib/framework.cpp:1118-1171, `pluto_dep_satisfies_instance` lib/framework.cpp:1174-1221, `get_dep_direction` lib/framework.cpp:1225-1369, `pluto_add_hyperplane_from_ilp_solution` lib/framework.cpp:1416-1449, `CONSTRAINTS_SIMPLIFY_THRESHOLD` lib/framework.cpp:32, `get_permutability_constraints` lib/framework.cpp:348-485, `compute_permutability_constraints_dep` lib/framework.cpp:62-272, `get_stmt_lin_ind_constraints` lib/framework.cpp:696-870, `h` lib/framework.cpp:728-749, `k` lib/framework.cpp:816-826, `get_non_trivial_sol_constraints` lib/framework.cpp:880-934, `get_coeff_bounding_constraints` lib/framework.cpp:937-993, `mpz_fits_ll` lib/isl_support.c:104-119, `isl_val_get_num_ll` lib/isl_support.c:125-170, `isl_aff_to_pluto_func` lib/isl_support.c:53-100, `pluto_matrix_add_col` lib/math_support.c:117-138, `pluto_matrix_negate_row` lib/math_support.c:141-147, `lcm` lib/math_support.c:391-395, `gcd` lib/math_support.c:398-410, `pluto_matrix_to_row_echelon` lib/math_support.c:454-484, `pluto_matrix_get_rank` lib/math_support.c:487-504, `pluto_matrix_remove_col` lib/math_support.c:63-74, `pluto_compute_dep_directions` lib/pluto.c:1027-1041, `pluto_detect_hyperplane_types_stmtwise` lib/pluto.c:1043-1051, `pluto_dep_satisfaction_reset` lib/pluto.c:105-115, `pluto_detect_hyperplane_types` lib/pluto.c:1054-1065, `normalize_domains` lib/pluto.c:1138-1273, `pluto_compute_dep_satisfaction` lib/pluto.c:122-156, `denormalize_domains` lib/pluto.c:1277-1304, `pluto_auto_transform` lib/pluto.c:1492-1850, `get_num_unsatisfied_inter_scc_deps` lib/pluto.c:1884-1900, `ddg_update` lib/pluto.c:1908-1927, `ddg_create` lib/pluto.c:1932-1947, `get_max_orig_dim_in_scc` lib/pluto.c:1952-1964, `pluto_stmt_get_schedule` lib/pluto.c:2060-2078, `pluto_update_deps` lib/pluto.c:2081-2129, `pluto_prog_constraints_lexmin` lib/pluto.c:275-431, `ddg_sccs_direct_connected` lib/pluto.c:434-450, `cut_between_sccs` lib/pluto.c:453-496, `cut_all_sccs` lib/pluto.c:499-529, `cut_scc_dim_based` lib/pluto.c:541-589, `cut_smart` lib/pluto.c:592-624, `dep_satisfaction_update` lib/pluto.c:60-89, `cut_conservative` lib/pluto.c:628-652, `get_linear_ind_constraints` lib/pluto.c:664-733, `find_permutable_hyperplanes` lib/pluto.c:770-857, `deps_satisfaction_check` lib/pluto.c:92-103, `CST_WIDTH` lib/pluto.h:71, `DepDir` lib/pluto.h:79-85, `PlutoHypType` lib/pluto.h:87-93, `extract_stmt` lib/plutolib.c:140-193, `extract_stmts` lib/plutolib.c:196-215, `normalize_domain_schedule` lib/plutolib.c:223-257, `stmt_filter` lib/plutolib.c:266-277, `pluto_schedules_to_isl` lib/plutolib.c:281-313, `pluto_schedule_prog` lib/plutolib.c:30-102, `pluto_prog_from_isl_domains_dependences` lib/plutolib.c:318-383, `pluto_transform` lib/plutolib.c:390-422, `pluto_get_loops_under` lib/polyloop.c:117-230, `pluto_get_all_loops` lib/polyloop.c:232-236, `pluto_loop_is_parallel` lib/polyloop.c:279-314, `is_loop_dominated` lib/polyloop.c:400-420, `pluto_get_parallel_loops` lib/polyloop.c:609-630, `is_band_dominated` lib/polyloop.c:730-743, `pluto_is_depth_scalar` lib/polyloop.c:761-771, `pluto_get_permutable_band` lib/polyloop.c:775-826, `pluto_get_dominator_bands` lib/polyloop.c:883-904, `pluto_get_outermost_permutable_bands` lib/polyloop.c:943-969, `pluto_loop_is_innermost` lib/polyloop.c:971-980, `pluto_is_band_innermost` lib/polyloop.c:985-997, `are_stmts_fused_in_band` lib/post_transform.c:291-316, `fuse_per_stmt_bands` lib/post_transform.c:321-401, `make_parallel_loop_innermost` lib/post_transform.c:406-441, `pluto_intra_tile_optimize_band` lib/post_transform.c:444-520, `pluto_intra_tile_optimize` lib/post_transform.c:524-546, `pluto_stmt_add_dim` lib/program.cpp:1002-1084, `pluto_stmt_remove_dim` lib/program.cpp:1088-1145, `pluto_is_hyperplane_scalar` lib/program.cpp:1866-1875, `pluto_get_max_ind_hyps` lib/program.cpp:2127-2135, `pluto_stmt_get_num_ind_hyps` lib/program.cpp:2158-2170, `pluto_transformations_full_ranked` lib/program.cpp:2175-2184, `basic_map_extract_dep` lib/program.cpp:367-495, `isl_basic_map_extract_access_func` lib/program.cpp:505-540, `isl_pw_aff_foreach_piece` lib/program.cpp:521-524, `extract_accesses_for_pluto_stmt` lib/program.cpp:555-596, `pluto_prog_get_largest_const_in_domains` lib/program.cpp:719-729, `pluto_tile_band` lib/tile.c:109-207, `pluto_tile` lib/tile.c:214-326, `pluto_tile_scattering_dims` lib/tile.c:330-380, `first` lib/tile.c:384-470, `pluto_create_tile_schedule_band` lib/tile.c:384-470, `pluto_create_tile_schedule` lib/tile.c:473-484, `pluto_make_innermost_loop` lib/transforms.c:106-144, `pluto_sink_statement` lib/transforms.c:23-33, `pluto_stmt_loop_interchange` lib/transforms.c:60-66

### C61 Dependences computed through isl order all conflicting accesses (proved)

* Plan: compute_deps_isl is modelled call by call; isl_union_map_compute_flow is an argument with its specification (pairs of a source and a later sink of the same element without a must source in between). Exactness follows call by call; connectedness by induction on the number of writes in between.
* Result: isl's flow analysis is an argument with a specification
* Theorems: Props/Flow.lean: `C61_all`, `C61_last`, `C61_complete`, `C61_sound`
* Code: `compute_deps_isl` lib/program.cpp:623-696

### C62 pluto_schedule keeps the order of conflicting instances (partial)

* Plan: pluto_schedule is the composition of compute_deps_isl and pluto_transform. The chain of C61 is followed through the unique times of C60. A complete worked example (a sum reduction) meets all hypotheses. Fails (NULL pointer) with lastwriter and isldepcoalesce.
* Result: composition of C61 and C60; under the conditions of C60_transform_partial; violated with lastwriter and isldepcoalesce together (C62_violated_null); with --innerpar: C62_innerpar_partial
* Theorems: Props/FlowSchedule.lean: `C62_order`, `C62_schedule_partial`, `C62_violated_null`, `C62_deps_computed`; Props/InnerParLib.lean: `C62_innerpar_partial`
* Code: `pluto_constraints_from_equalities` lib/constraints.c:1458-1471, `pluto_constraints_remove_row` lib/constraints.c:1522-1532, `pluto_constraints_remove_dim` lib/constraints.c:1535-1561, `pluto_constraints_add_dim` lib/constraints.c:1601-1636, `pluto_constraints_add_leading_dims` lib/constraints.c:1643-1647, `pluto_constraints_add_lb` lib/constraints.c:1649-1659, `pluto_constraints_add_ub` lib/constraints.c:1662-1672, `pluto_constraints_set_var` lib/constraints.c:1675-1685, `pluto_constraints_select_row` lib/constraints.c:1704-1715, `pluto_constraints_to_pure_inequalities_single` lib/constraints.c:1747-1783, `pluto_constraints_interchange_cols` lib/constraints.c:1825-1839, `farkas_lemma_affine` lib/constraints.c:213-280, `pluto_constraints_best_elim_candidate` lib/constraints.c:2339-2375, `j` lib/constraints.c:2349-2367, `fourier_motzkin_eliminate_smart` lib/constraints.c:2470-2563, `pluto_constraints_gaussian_eliminate` lib/constraints.c:2565-2608, `pluto_constraints_add` lib/constraints.c:285-307, `pluto_constraints_simplify` lib/constraints.c:378-474, `fourier_motzkin_eliminate` lib/constraints.c:485-581, `isl_basic_map_from_pluto_constraints` lib/constraints_isl.c:192-236, `isl_basic_set_to_pluto_constraints` lib/constraints_isl.c:242-290, `isl_basic_map_to_pluto_constraints` lib/constraints_isl.c:293-301, `isl_basic_map_to_pluto_constraints_func_arg` lib/constraints_isl.c:304-351, `dfs_vertex` lib/ddg.c:116-133, `dfs` lib/ddg.c:136-149, `dfs_for_scc` lib/ddg.c:173-212, `graph_transpose` lib/ddg.c:72-84, `dep_satisfaction_test` lib/framework.cpp:1000-1050, `pluto_dep_remove_satisfied_instances` lib/framework.cpp:1061-1112, `pluto_compute_dep_satisfaction_precise` lib/framework.cpp:1118-1171, `pluto_dep_satisfies_instance` lib/framework.cpp:1174-1221, `get_dep_direction` lib/framework.cpp:1225-1369, `pluto_add_hyperplane_from_ilp_solution` lib/framework.cpp:1416-1449, `CONSTRAINTS_SIMPLIFY_THRESHOLD` lib/framework.cpp:32, `get_permutability_constraints` lib/framework.cpp:348-485, `compute_permutability_constraints_dep` lib/framework.cpp:62-272, `get_stmt_lin_ind_constraints` lib/framework.cpp:696-870, `h` lib/framework.cpp:728-749, `k` lib/framework.cpp:816-826, `get_non_trivial_sol_constraints` lib/framework.cpp:880-934, `get_coeff_bounding_constraints` lib/framework.cpp:937-993, `mpz_fits_ll` lib/isl_support.c:104-119, `isl_val_get_num_ll` lib/isl_support.c:125-170, `pluto_matrix_add_col` lib/math_support.c:117-138, `pluto_matrix_negate_row` lib/math_support.c:141-147, `lcm` lib/math_support.c:391-395, `gcd` lib/math_support.c:398-410, `pluto_matrix_to_row_echelon` lib/math_support.c:454-484, `pluto_matrix_get_rank` lib/math_support.c:487-504, `pluto_matrix_remove_col` lib/math_support.c:63-74, `pluto_compute_dep_directions` lib/pluto.c:1027-1041, `pluto_detect_hyperplane_types_stmtwise` lib/pluto.c:1043-1051, `pluto_dep_satisfaction_reset` lib/pluto.c:105-115, `pluto_detect_hyperplane_types` lib/pluto.c:1054-1065, `normalize_domains` lib/pluto.c:1138-1273, `pluto_compute_dep_satisfaction` lib/pluto.c:122-156, `denormalize_domains` lib/pluto.c:1277-1304, `pluto_auto_transform` lib/pluto.c:1492-1850, `get_num_unsatisfied_inter_scc_deps` lib/pluto.c:1884-1900, `ddg_update` lib/pluto.c:1908-1927, `ddg_create` lib/pluto.c:1932-1947, `get_max_orig_dim_in_scc` lib/pluto.c:1952-1964, `pluto_stmt_get_schedule` lib/pluto.c:2060-2078, `pluto_update_deps` lib/pluto.c:2081-2129, `pluto_prog_constraints_lexmin` lib/pluto.c:275-431, `ddg_sccs_direct_connected` lib/pluto.c:434-450, `cut_between_sccs` lib/pluto.c:453-496, `cut_all_sccs` lib/pluto.c:499-529, `cut_scc_dim_based` lib/pluto.c:541-589, `cut_smart` lib/pluto.c:592-624, `dep_satisfaction_update` lib/pluto.c:60-89, `cut_conservative` lib/pluto.c:628-652, `get_linear_ind_constraints` lib/pluto.c:664-733, `find_permutable_hyperplanes` lib/pluto.c:770-857, `deps_satisfaction_check` lib/pluto.c:92-103, `CST_WIDTH` lib/pluto.h:71, `DepDir` lib/pluto.h:79-85, `PlutoHypType` lib/pluto.h:87-93, `extract_stmt` lib/plutolib.c:140-193, `extract_stmts` lib/plutolib.c:196-215, `normalize_domain_schedule` lib/plutolib.c:223-257, `pluto_schedules_to_isl` lib/plutolib.c:281-313, `pluto_schedule_prog` lib/plutolib.c:30-102, `pluto_prog_from_isl_domains_dependences` lib/plutolib.c:318-383, `pluto_transform` lib/plutolib.c:390-422, `pluto_schedule` lib/plutolib.c:429-452, `pluto_get_loops_under` lib/polyloop.c:117-230, `pluto_get_all_loops` lib/polyloop.c:232-236, `pluto_loop_is_parallel` lib/polyloop.c:279-314, `is_loop_dominated` lib/polyloop.c:400-420, `pluto_get_parallel_loops` lib/polyloop.c:609-630, `is_band_dominated` lib/polyloop.c:730-743, `pluto_is_depth_scalar` lib/polyloop.c:761-771, `pluto_get_permutable_band` lib/polyloop.c:775-826, `pluto_get_dominator_bands` lib/polyloop.c:883-904, `pluto_get_outermost_permutable_bands` lib/polyloop.c:943-969, `pluto_loop_is_innermost` lib/polyloop.c:971-980, `pluto_is_band_innermost` lib/polyloop.c:985-997, `are_stmts_fused_in_band` lib/post_transform.c:291-316, `fuse_per_stmt_bands` lib/post_transform.c:321-401, `make_parallel_loop_innermost` lib/post_transform.c:406-441, `pluto_intra_tile_optimize_band` lib/post_transform.c:444-520, `pluto_intra_tile_optimize` lib/post_transform.c:524-546, `pluto_stmt_add_dim` lib/program.cpp:1002-1084, `pluto_stmt_remove_dim` lib/program.cpp:1088-1145, `pluto_is_hyperplane_scalar` lib/program.cpp:1866-1875, `pluto_get_max_ind_hyps` lib/program.cpp:2127-2135, `pluto_stmt_get_num_ind_hyps` lib/program.cpp:2158-2170, `pluto_transformations_full_ranked` lib/program.cpp:2175-2184, `basic_map_extract_dep` lib/program.cpp:367-495, `compute_deps_isl` lib/program.cpp:623-696, `pluto_prog_get_largest_const_in_domains` lib/program.cpp:719-729, `pluto_tile_band` lib/tile.c:109-207, `pluto_tile` lib/tile.c:214-326, `pluto_tile_scattering_dims` lib/tile.c:330-380, `first` lib/tile.c:384-470, `pluto_create_tile_schedule_band` lib/tile.c:384-470, `pluto_create_tile_schedule` lib/tile.c:473-484, `pluto_make_innermost_loop` lib/transforms.c:106-144, `pluto_sink_statement` lib/transforms.c:23-33, `pluto_stmt_loop_interchange` lib/transforms.c:60-66

### C63 The file written for CLooG describes the transformed program; code generated from it keeps all dependences (partial)

* Plan: The file is a list of lines of numbers and names; a reader of the CLooG input format is part of the specification, and reading back what is written gives the systems of the program. CLooG itself is specified (every instance once, in scattering order) and not modelled. Composed with C52 for the run of the whole tool after dependence analysis. Clauses are modelled as characters and read back by splitting at commas.
* Result: File, order of generated code, clauses of pluto_mark_parallel, pragmas and first point loop: proved. The composition with the whole tool has the restrictions of C52; the private clauses of pluto_get_parallel_loop_list are wrong with vector loops. With --innerpar: C63_innerpar_partial.
* Theorems: Props/Codegen.lean: `C63_file`, `C63_order`, `C63_transformed`, `C63_tool_partial`, `C63_violated_text`, `C63_private`, `C63_private_list_partial`, `C63_private_fits`, `C63_violated_private`, `C63_violated_overflow`, `C63_pragmas`, `C63_first_point`; Props/InnerParTool.lean: `C63_innerpar_partial`
* Code: `pluto_constraints_from_equalities` lib/constraints.c:1458-1471, `pluto_constraints_remove_dim` lib/constraints.c:1535-1561, `pluto_constraints_add_dim` lib/constraints.c:1601-1636, `pluto_constraints_add_lb` lib/constraints.c:1649-1659, `pluto_constraints_add_ub` lib/constraints.c:1662-1672, `pluto_constraints_set_var` lib/constraints.c:1675-1685, `pluto_constraints_to_pure_inequalities_single` lib/constraints.c:1747-1783, `pluto_constraints_interchange_cols` lib/constraints.c:1825-1839, `pluto_constraints_empty` lib/constraints.c:1896-1901, `pluto_constraints_unionize_simple` lib/constraints.c:1930-1938, `farkas_lemma_affine` lib/constraints.c:213-280, `pluto_constraints_best_elim_candidate` lib/constraints.c:2339-2375, `j` lib/constraints.c:2349-2367, `fourier_motzkin_eliminate_smart` lib/constraints.c:2470-2563, `pluto_constraints_gaussian_eliminate` lib/constraints.c:2565-2608, `pluto_constraints_add` lib/constraints.c:285-307, `pluto_constraints_simplify` lib/constraints.c:378-474, `fourier_motzkin_eliminate` lib/constraints.c:485-581, `pluto_constraints_copy` lib/constraints.c:585-601, `pluto_constraints_print_polylib_without_num` lib/constraints.c:691-707, `pluto_constraints_print_polylib` lib/constraints.c:709-718, `isl_set_from_pluto_constraints` lib/constraints_isl.c:133-147, `isl_set_to_pluto_constraints` lib/constraints_isl.c:176-187, `isl_basic_set_to_pluto_constraints` lib/constraints_isl.c:242-290, `isl_basic_map_to_pluto_constraints` lib/constraints_isl.c:293-301, `isl_basic_map_to_pluto_constraints_func_arg` lib/constraints_isl.c:304-351, `pluto_constraints_intersection_isl` lib/constraints_isl.c:465-484, `pluto_constraints_intersect_isl` lib/constraints_isl.c:487-495, `isl_basic_set_from_pluto_constraints` lib/constraints_isl.c:80-128, `dfs_vertex` lib/ddg.c:116-133, `dfs` lib/ddg.c:136-149, `dfs_for_scc` lib/ddg.c:173-212, `graph_transpose` lib/ddg.c:72-84, `dep_satisfaction_test` lib/framework.cpp:1000-1050, `pluto_dep_remove_satisfied_instances` lib/framework.cpp:1061-1112, `pluto_compute_dep_satisfaction_precise` lib/framework.cpp:1118-1171, `pluto_dep_satisfies_instance` lib/framework.cpp:1174-1221, `get_dep_direction` lib/framework.cpp:1225-1369, `pluto_add_hyperplane_from_ilp_solution` lib/framework.cpp:1416-1449, `CONSTRAINTS_SIMPLIFY_THRESHOLD` lib/framework.cpp:32, `get_permutability_constraints` lib/framework.cpp:348-485, `compute_permutability_constraints_dep` lib/framework.cpp:62-272, `get_stmt_lin_ind_constraints` lib/framework.cpp:696-870, `h` lib/framework.cpp:728-749, `k` lib/framework.cpp:816-826, `get_non_trivial_sol_constraints` lib/framework.cpp:880-934, `get_coeff_bounding_constraints` lib/framework.cpp:937-993, `mpz_fits_ll` lib/isl_support.c:104-119, `isl_val_get_num_ll` lib/isl_support.c:125-170, `pluto_matrix_add_col` lib/math_support.c:117-138, `pluto_matrix_negate_row` lib/math_support.c:141-147, `lcm` lib/math_support.c:391-395, `gcd` lib/math_support.c:398-410, `pluto_matrix_to_row_echelon` lib/math_support.c:454-484, `pluto_matrix_get_rank` lib/math_support.c:487-504, `pluto_matrix_remove_col` lib/math_support.c:63-74, `mpz_set_sll` lib/math_support.c:690-697, `pluto_compute_dep_directions` lib/pluto.c:1027-1041, `pluto_detect_hyperplane_types_stmtwise` lib/pluto.c:1043-1051, `pluto_dep_satisfaction_reset` lib/pluto.c:105-115, `pluto_detect_hyperplane_types` lib/pluto.c:1054-1065, `normalize_domains` lib/pluto.c:1138-1273, `pluto_compute_dep_satisfaction` lib/pluto.c:122-156, `denormalize_domains` lib/pluto.c:1277-1304, `pluto_auto_transform` lib/pluto.c:1492-1850, `get_num_unsatisfied_inter_scc_deps` lib/pluto.c:1884-1900, `ddg_update` lib/pluto.c:1908-1927, `ddg_create` lib/pluto.c:1932-1947, `get_max_orig_dim_in_scc` lib/pluto.c:1952-1964, `pluto_stmt_get_schedule` lib/pluto.c:2060-2078, `pluto_update_deps` lib/pluto.c:2081-2129, `pluto_prog_constraints_lexmin` lib/pluto.c:275-431, `ddg_sccs_direct_connected` lib/pluto.c:434-450, `cut_between_sccs` lib/pluto.c:453-496, `cut_all_sccs` lib/pluto.c:499-529, `cut_scc_dim_based` lib/pluto.c:541-589, `cut_smart` lib/pluto.c:592-624, `dep_satisfaction_update` lib/pluto.c:60-89, `cut_conservative` lib/pluto.c:628-652, `get_linear_ind_constraints` lib/pluto.c:664-733, `find_permutable_hyperplanes` lib/pluto.c:770-857, `deps_satisfaction_check` lib/pluto.c:92-103, `CST_WIDTH` lib/pluto.h:71, `DepDir` lib/pluto.h:79-85, `PlutoHypType` lib/pluto.h:87-93, `pluto_schedule_prog` lib/plutolib.c:30-102, `pluto_get_loops_under` lib/polyloop.c:117-230, `pluto_get_all_loops` lib/polyloop.c:232-236, `pluto_loop_is_parallel` lib/polyloop.c:279-314, `is_loop_dominated` lib/polyloop.c:400-420, `pluto_get_parallel_loops` lib/polyloop.c:609-630, `is_band_dominated` lib/polyloop.c:730-743, `pluto_is_depth_scalar` lib/polyloop.c:761-771, `pluto_get_permutable_band` lib/polyloop.c:775-826, `pluto_get_dominator_bands` lib/polyloop.c:883-904, `pluto_get_outermost_permutable_bands` lib/polyloop.c:943-969, `pluto_loop_is_innermost` lib/polyloop.c:971-980, `pluto_is_band_innermost` lib/polyloop.c:985-997, `are_stmts_fused_in_band` lib/post_transform.c:291-316, `fuse_per_stmt_bands` lib/post_transform.c:321-401, `make_parallel_loop_innermost` lib/post_transform.c:406-441, `pluto_intra_tile_optimize_band` lib/post_transform.c:444-520, `pluto_intra_tile_optimize` lib/post_transform.c:524-546, `pluto_stmt_add_dim` lib/program.cpp:1002-1084, `pluto_stmt_remove_dim` lib/program.cpp:1088-1145, `pluto_is_hyperplane_scalar` lib/program.cpp:1866-1875, `pluto_get_max_ind_hyps` lib/program.cpp:2127-2135, `pluto_stmt_get_num_ind_hyps` lib/program.cpp:2158-2170, `pluto_transformations_full_ranked` lib/program.cpp:2175-2184, `pluto_prog_get_largest_const_in_domains` lib/program.cpp:719-729, `pluto_tile_band` lib/tile.c:109-207, `pluto_tile` lib/tile.c:214-326, `pluto_tile_scattering_dims` lib/tile.c:330-380, `first` lib/tile.c:384-470, `pluto_create_tile_schedule_band` lib/tile.c:384-470, `pluto_create_tile_schedule` lib/tile.c:473-484, `pluto_make_innermost_loop` lib/transforms.c:106-144, `pluto_sink_statement` lib/transforms.c:23-33, `pluto_stmt_loop_interchange` lib/transforms.c:60-66, `pluto_mark_parallel` tool/ast_transform.c:23-127, `get_first_point_loop` tool/pluto_codegen_if.c:32-59, `pluto_omp_parallelize` tool/pluto_codegen_if.c:336-409, `pluto_get_parallel_loop_list` tool/pluto_codegen_if.c:414-464, `pluto_gen_cloog_file` tool/pluto_codegen_if.c:62-125

### C64 The program made from a scop has its instances and orders its conflicting accesses (partial)

* Plan: The scop is what pet returns: for every statement domain and schedule (one basic map each), access relations per array, and what it kills. Names of accesses are modelled as characters and parsed as the code does. Completeness and exactness of the dependences come from C61 through the names; removal of dead code is characterised exactly. Where it disagrees with the claim (strides, dead code, access numbers) there are violation theorems.
* Result: Proved for domains without existentially quantified variables, modulo the specification of isl's flow analysis; accesses are right when every access map is one basic map. Violated for strided loops, dead code and access numbers (C64_violated_*).
* Theorems: Props/Pet.lean: `C64_names`, `C64_dead`, `C64_program`, `C64_complete`, `C64_sound`; Props/PetExamples.lean: `C64_violated_stride`, `C64_violated_dead`, `C64_violated_access`, `C64_context`
* Code: `isl_basic_set_to_pluto_constraints` lib/constraints_isl.c:242-290, `isl_basic_map_to_pluto_constraints` lib/constraints_isl.c:293-301, `isl_basic_map_to_pluto_constraints_func_arg` lib/constraints_isl.c:304-351, `isl_map_to_pluto_func` lib/constraints_isl.c:422-449, `mpz_fits_ll` lib/isl_support.c:104-119, `isl_val_get_num_ll` lib/isl_support.c:125-170, `PlutoDepType` lib/pluto.h:218-225, `DepDir` lib/pluto.h:79-85, `PlutoHypType` lib/pluto.h:87-93, `basic_map_extract_dep` lib/program.cpp:367-495, `extract_accesses_for_pluto_stmt` lib/program.cpp:555-596, `compute_deps_isl` lib/program.cpp:623-696, `mark_trivial_dead_code` tool/pet_to_pluto.cpp:173-222, `k` tool/pet_to_pluto.cpp:173-222, `pet_to_pluto_stmts` tool/pet_to_pluto.cpp:225-368, `set_tuple_name` tool/pet_to_pluto.cpp:58-74, `pet_to_pluto_prog` tool/pet_to_pluto.cpp:611-720, `compute_deps_pet` tool/pet_to_pluto.cpp:79-169

### C65 The transformed program computes what the source program computes (partial)

* Plan: An instance is any function on memories with a set of locations it may read and a set it may write. Executing a list of instances is a fold. Lists of the same instances that keep conflicting ones in order have the same effect (exchange argument by induction). Composed with C64, C52 and C63 for the tool, and with C62 for the library. Parallel loops: any order that differs from the time order only between different iterations of loops that carry no dependence; atomicity is that of a statement instance.
* Result: Proved for the tool (pet and OpenScop paths, sequential and with parallel loops) and for pluto_schedule under the conditions of C52/C62 (no diamond tiling, EAGER mode, uniform levels), C63, C64 and C68; C65_order is the general exchange theorem. C65_innerpar_partial: pluto_schedule with --innerpar. C65_tool_innerpar_partial, C65_tool_osl_innerpar_partial: the tool with --innerpar, if only loops that carry no dependence are run in parallel.
* Theorems: Props/InnerParLib.lean: `C65_innerpar_partial`; Props/InnerParTool.lean: `C65_tool_innerpar_partial`, `C65_tool_osl_innerpar_partial`; Props/LibRun.lean: `C65_maps`, `C65_schedule_partial`; Props/OslMore.lean: `C65_osl`, `C65_tool_osl_partial`; Props/ParallelRun.lean: `C65_parallel`, `C65_tool_partial`; Props/Semantics.lean: `C65_order`, `C65_needed`, `C65_pet`
* Code: `pluto_constraints_from_equalities` lib/constraints.c:1458-1471, `pluto_constraints_remove_row` lib/constraints.c:1522-1532, `pluto_constraints_remove_dim` lib/constraints.c:1535-1561, `pluto_constraints_add_dim` lib/constraints.c:1601-1636, `pluto_constraints_add_leading_dims` lib/constraints.c:1643-1647, `pluto_constraints_add_lb` lib/constraints.c:1649-1659, `pluto_constraints_add_ub` lib/constraints.c:1662-1672, `pluto_constraints_set_var` lib/constraints.c:1675-1685, `pluto_constraints_select_row` lib/constraints.c:1704-1715, `pluto_constraints_to_pure_inequalities_single` lib/constraints.c:1747-1783, `pluto_constraints_interchange_cols` lib/constraints.c:1825-1839, `pluto_constraints_empty` lib/constraints.c:1896-1901, `pluto_constraints_unionize_simple` lib/constraints.c:1930-1938, `farkas_lemma_affine` lib/constraints.c:213-280, `pluto_constraints_best_elim_candidate` lib/constraints.c:2339-2375, `j` lib/constraints.c:2349-2367, `fourier_motzkin_eliminate_smart` lib/constraints.c:2470-2563, `pluto_constraints_gaussian_eliminate` lib/constraints.c:2565-2608, `pluto_constraints_add` lib/constraints.c:285-307, `pluto_constraints_simplify` lib/constraints.c:378-474, `fourier_motzkin_eliminate` lib/constraints.c:485-581, `pluto_constraints_copy` lib/constraints.c:585-601, `pluto_constraints_print_polylib_without_num` lib/constraints.c:691-707, `pluto_constraints_print_polylib` lib/constraints.c:709-718, `isl_set_from_pluto_constraints` lib/constraints_isl.c:133-147, `isl_set_to_pluto_constraints` lib/constraints_isl.c:176-187, `isl_basic_map_from_pluto_constraints` lib/constraints_isl.c:192-236, `isl_basic_set_to_pluto_constraints` lib/constraints_isl.c:242-290, `isl_basic_map_to_pluto_constraints` lib/constraints_isl.c:293-301, `isl_basic_map_to_pluto_constraints_func_arg` lib/constraints_isl.c:304-351, `isl_map_to_pluto_func` lib/constraints_isl.c:422-449, `pluto_constraints_intersection_isl` lib/constraints_isl.c:465-484, `pluto_constraints_intersect_isl` lib/constraints_isl.c:487-495, `isl_basic_set_from_pluto_constraints` lib/constraints_isl.c:80-128, `dfs_vertex` lib/ddg.c:116-133, `dfs` lib/ddg.c:136-149, `dfs_for_scc` lib/ddg.c:173-212, `graph_transpose` lib/ddg.c:72-84, `dep_satisfaction_test` lib/framework.cpp:1000-1050, `pluto_dep_remove_satisfied_instances` lib/framework.cpp:1061-1112, `pluto_compute_dep_satisfaction_precise` lib/framework.cpp:1118-1171, `pluto_dep_satisfies_instance` lib/framework.cpp:1174-1221, `get_dep_direction` lib/framework.cpp:1225-1369, `pluto_add_hyperplane_from_ilp_solution` lib/framework.cpp:1416-1449, `CONSTRAINTS_SIMPLIFY_THRESHOLD` lib/framework.cpp:32, `get_permutability_constraints` lib/framework.cpp:348-485, `compute_permutability_constraints_dep` lib/framework.cpp:62-272, `get_stmt_lin_ind_constraints` lib/framework.cpp:696-870, `h` lib/framework.cpp:728-749, `k` lib/framework.cpp:816-826, `get_non_trivial_sol_constraints` lib/framework.cpp:880-934, `get_coeff_bounding_constraints` lib/framework.cpp:937-993, `mpz_fits_ll` lib/isl_support.c:104-119, `isl_val_get_num_ll` lib/isl_support.c:125-170, `pluto_matrix_add_col` lib/math_support.c:117-138, `pluto_matrix_negate_row` lib/math_support.c:141-147, `lcm` lib/math_support.c:391-395, `gcd` lib/math_support.c:398-410, `pluto_matrix_to_row_echelon` lib/math_support.c:454-484, `pluto_matrix_get_rank` lib/math_support.c:487-504, `pluto_matrix_remove_col` lib/math_support.c:63-74, `mpz_set_sll` lib/math_support.c:690-697, `pluto_compute_dep_directions` lib/pluto.c:1027-1041, `pluto_detect_hyperplane_types_stmtwise` lib/pluto.c:1043-1051, `pluto_dep_satisfaction_reset` lib/pluto.c:105-115, `pluto_detect_hyperplane_types` lib/pluto.c:1054-1065, `normalize_domains` lib/pluto.c:1138-1273, `pluto_compute_dep_satisfaction` lib/pluto.c:122-156, `denormalize_domains` lib/pluto.c:1277-1304, `pluto_auto_transform` lib/pluto.c:1492-1850, `get_num_unsatisfied_inter_scc_deps` lib/pluto.c:1884-1900, `ddg_update` lib/pluto.c:1908-1927, `ddg_create` lib/pluto.c:1932-1947, `get_max_orig_dim_in_scc` lib/pluto.c:1952-1964, `pluto_stmt_get_schedule` lib/pluto.c:2060-2078, `pluto_update_deps` lib/pluto.c:2081-2129, `pluto_prog_constraints_lexmin` lib/pluto.c:275-431, `ddg_sccs_direct_connected` lib/pluto.c:434-450, `cut_between_sccs` lib/pluto.c:453-496, `cut_all_sccs` lib/pluto.c:499-529, `cut_scc_dim_based` lib/pluto.c:541-589, `cut_smart` lib/pluto.c:592-624, `dep_satisfaction_update` lib/pluto.c:60-89, `cut_conservative` lib/pluto.c:628-652, `get_linear_ind_constraints` lib/pluto.c:664-733, `find_permutable_hyperplanes` lib/pluto.c:770-857, `deps_satisfaction_check` lib/pluto.c:92-103, `PlutoDepType` lib/pluto.h:218-225, `CST_WIDTH` lib/pluto.h:71, `DepDir` lib/pluto.h:79-85, `PlutoHypType` lib/pluto.h:87-93, `extract_stmt` lib/plutolib.c:140-193, `extract_stmts` lib/plutolib.c:196-215, `normalize_domain_schedule` lib/plutolib.c:223-257, `pluto_schedules_to_isl` lib/plutolib.c:281-313, `pluto_schedule_prog` lib/plutolib.c:30-102, `pluto_prog_from_isl_domains_dependences` lib/plutolib.c:318-383, `pluto_transform` lib/plutolib.c:390-422, `pluto_schedule` lib/plutolib.c:429-452, `pluto_get_loops_under` lib/polyloop.c:117-230, `pluto_get_all_loops` lib/polyloop.c:232-236, `pluto_loop_is_parallel` lib/polyloop.c:279-314, `is_loop_dominated` lib/polyloop.c:400-420, `pluto_get_parallel_loops` lib/polyloop.c:609-630, `is_band_dominated` lib/polyloop.c:730-743, `pluto_is_depth_scalar` lib/polyloop.c:761-771, `pluto_get_permutable_band` lib/polyloop.c:775-826, `pluto_get_dominator_bands` lib/polyloop.c:883-904, `pluto_get_outermost_permutable_bands` lib/polyloop.c:943-969, `pluto_loop_is_innermost` lib/polyloop.c:971-980, `pluto_is_band_innermost` lib/polyloop.c:985-997, `are_stmts_fused_in_band` lib/post_transform.c:291-316, `fuse_per_stmt_bands` lib/post_transform.c:321-401, `make_parallel_loop_innermost` lib/post_transform.c:406-441, `pluto_intra_tile_optimize_band` lib/post_transform.c:444-520, `pluto_intra_tile_optimize` lib/post_transform.c:524-546, `pluto_stmt_add_dim` lib/program.cpp:1002-1084, `pluto_stmt_remove_dim` lib/program.cpp:1088-1145, `pluto_is_hyperplane_scalar` lib/program.cpp:1866-1875, `pluto_get_max_ind_hyps` lib/program.cpp:2127-2135, `pluto_stmt_get_num_ind_hyps` lib/program.cpp:2158-2170, `pluto_transformations_full_ranked` lib/program.cpp:2175-2184, `basic_map_extract_dep` lib/program.cpp:367-495, `extract_accesses_for_pluto_stmt` lib/program.cpp:555-596, `compute_deps_isl` lib/program.cpp:623-696, `pluto_prog_get_largest_const_in_domains` lib/program.cpp:719-729, `pluto_tile_band` lib/tile.c:109-207, `pluto_tile` lib/tile.c:214-326, `pluto_tile_scattering_dims` lib/tile.c:330-380, `first` lib/tile.c:384-470, `pluto_create_tile_schedule_band` lib/tile.c:384-470, `pluto_create_tile_schedule` lib/tile.c:473-484, `pluto_make_innermost_loop` lib/transforms.c:106-144, `pluto_sink_statement` lib/transforms.c:23-33, `pluto_stmt_loop_interchange` lib/transforms.c:60-66, `osl_access_list_to_isl_union_map` tool/osl_pluto.c:1038-1082, `osl_relation_to_isl_set` tool/osl_pluto.c:1101-1142, `compute_deps_osl` tool/osl_pluto.c:1187-1472, `osl_access_list_filter_write` tool/osl_pluto.c:129-159, `osl_scop_to_pluto_prog` tool/osl_pluto.c:1620-1743, `osl_access_list_filter_read` tool/osl_pluto.c:164-193, `osl_relation_get_row_id_for_nth_dimension` tool/osl_pluto.c:476-506, `osl_scattering_to_pluto_trans` tool/osl_pluto.c:511-538, `osl_access_relation_to_pluto_matrix` tool/osl_pluto.c:545-581, `osl_relation_to_pluto_constraints` tool/osl_pluto.c:721-745, `osl_to_pluto_stmts` tool/osl_pluto.c:748-902, `extract_equalities_osl` tool/osl_pluto.c:907-928, `osl_scattering_to_isl_map` tool/osl_pluto.c:933-952, `extract_equalities_osl_access` tool/osl_pluto.c:957-987, `osl_basic_access_to_isl_union_map` tool/osl_pluto.c:993-1025, `mark_trivial_dead_code` tool/pet_to_pluto.cpp:173-222, `pet_to_pluto_stmts` tool/pet_to_pluto.cpp:225-368, `set_tuple_name` tool/pet_to_pluto.cpp:58-74, `pet_to_pluto_prog` tool/pet_to_pluto.cpp:611-720, `compute_deps_pet` tool/pet_to_pluto.cpp:79-169, `pluto_gen_cloog_file` tool/pluto_codegen_if.c:62-125

### C66 Integer coefficients from GLPK are a point of the constraints (partial)

* Plan: GLPK is an argument: an LP solver that returns rational points (not too close to zero), an ILP solver, a solver for the scaling problems. The scaling problem is modelled as the list of its columns and rows. A rational point is written with a common denominator, so that the lemmas about the columns (C28) carry over; factors are followed block by block through reversal and padding. Legality of the scaled coefficients follows from Farkas over the rationals (C06) and equal factors inside a component (C16).
* Result: Proved: with --lp the coefficients are those of a rational point of the constraints times a factor (>= 1) of the component id of the statement, and scaling never fails (C66_scaled_partial); dependences inside components that are not interrupted are kept (C66_legal_partial); without --lp and --dfp the result minimises the weighted objective (C66_ilp). Does not hold: interrupted components (C66_violated_components), the bound (C66_violated_bound), --dfp --ilp (C66_violated_dfp_ilp), lexicographic order (C66_violated_lexmin). Doubles are modelled as rationals.
* Theorems: Props/LpScale.lean: `C66_scaled_partial`, `C66_legal_partial`, `C66_ilp`, `C66_violated_dfp_ilp`, `C66_violated_components`, `C66_violated_bound`, `C66_violated_lexmin`
* Code: `get_scaling_lp_glpk` lib/constraints.c:1269-1317, `max_scale_factor` lib/constraints.c:1328-1415, `pluto_prog_constraints_lexmin_glpk` lib/constraints.c:1328-1415, `pluto_constraints_remove_dim` lib/constraints.c:1535-1561, `pluto_constraints_to_pure_inequalities_single` lib/constraints.c:1747-1783, `pluto_constraints_interchange_cols` lib/constraints.c:1825-1839, `farkas_lemma_affine` lib/constraints.c:213-280, `pluto_constraints_best_elim_candidate` lib/constraints.c:2339-2375, `j` lib/constraints.c:2349-2367, `fourier_motzkin_eliminate_smart` lib/constraints.c:2470-2563, `pluto_constraints_gaussian_eliminate` lib/constraints.c:2565-2608, `pluto_constraints_add` lib/constraints.c:285-307, `pluto_constraints_simplify` lib/constraints.c:378-474, `dfs_vertex` lib/ddg.c:116-133, `get_undirected_graph` lib/ddg.c:88-100, `populate_scaling_csr_matrices_for_pluto_program` lib/framework.cpp:1374-1413, `CONSTRAINTS_SIMPLIFY_THRESHOLD` lib/framework.cpp:32, `get_permutability_constraints` lib/framework.cpp:348-485, `compute_permutability_constraints_dep` lib/framework.cpp:62-272, `lcm` lib/math_support.c:391-395, `gcd` lib/math_support.c:398-410, `ddg_create` lib/pluto.c:1932-1947, `ddg_compute_cc` lib/pluto.c:1983-2015, `construct_cplex_objective` lib/pluto.c:243-267, `pluto_prog_constraints_lexmin` lib/pluto.c:275-431, `CST_WIDTH` lib/pluto.h:71

### C67 Transformed schedules are one-to-one; the library's remappings recover the iteration from its time (partial)

* Plan: A program is one-to-one if equal time stamps of instances of one statement imply equal iterations. Loop exit of `pluto_auto_transform` means every statement has full rank, which gives one-to-one; each post-transformation step is shown to keep a sharper form of it (equality of the transformed rows on the whole domain of the statement). `pluto_get_remapping` (C22's inverse per statement) is defined iff one-to-one. The library functions are composed with C60. Part violated: the list of parallel loops is never stored. With `--dfp`, C56 gives a row per loop, so runs without skew are one-to-one too (`C67_dfp_partial`). The rescheduling of diamond bands is in C79. Not covered: dfp runs that introduce a skew.
* Result: one-to-one and remapping proved for the auto-transformation and the passes after it, with diamond rescheduling in C79_one_to_one_partial, and for --dfp runs without skew (C67_dfp_partial, C67_dfp_post_partial); the parallel loop list is shown wrong; --dfp runs that introduce a skew are not covered. With --innerpar: C67_innerpar_partial.
* Theorems: Props/DfpOneToOne.lean: `C67_dfp_partial`, `C67_dfp_post_partial`; Props/InnerParTool.lean: `C67_innerpar_partial`; Props/OneToOne.lean: `C67_auto`, `C67_post`, `C67_schedule`, `C67_remap_defined`, `C67_remap_inverse`, `C67_library`, `C67_library_partial`, `C67_violated_loops`
* Code: `pluto_constraints_from_equalities` lib/constraints.c:1458-1471, `pluto_constraints_remove_row` lib/constraints.c:1522-1532, `pluto_constraints_remove_dim` lib/constraints.c:1535-1561, `pluto_constraints_add_dim` lib/constraints.c:1601-1636, `pluto_constraints_add_leading_dims` lib/constraints.c:1643-1647, `pluto_constraints_add_lb` lib/constraints.c:1649-1659, `pluto_constraints_add_ub` lib/constraints.c:1662-1672, `pluto_constraints_set_var` lib/constraints.c:1675-1685, `pluto_constraints_select_row` lib/constraints.c:1704-1715, `pluto_constraints_to_pure_inequalities_single` lib/constraints.c:1747-1783, `pluto_constraints_interchange_cols` lib/constraints.c:1825-1839, `farkas_lemma_affine` lib/constraints.c:213-280, `pluto_constraints_best_elim_candidate` lib/constraints.c:2339-2375, `j` lib/constraints.c:2349-2367, `fourier_motzkin_eliminate_smart` lib/constraints.c:2470-2563, `pluto_constraints_gaussian_eliminate` lib/constraints.c:2565-2608, `pluto_constraints_add` lib/constraints.c:285-307, `pluto_constraints_simplify` lib/constraints.c:378-474, `fourier_motzkin_eliminate` lib/constraints.c:485-581, `isl_basic_map_from_pluto_constraints` lib/constraints_isl.c:192-236, `isl_basic_set_to_pluto_constraints` lib/constraints_isl.c:242-290, `isl_basic_map_to_pluto_constraints` lib/constraints_isl.c:293-301, `isl_basic_map_to_pluto_constraints_func_arg` lib/constraints_isl.c:304-351, `dfs_vertex` lib/ddg.c:116-133, `dfs` lib/ddg.c:136-149, `dfs_for_scc` lib/ddg.c:173-212, `is_adjacent` lib/ddg.c:216-221, `compute_scc_vertices` lib/ddg.c:223-240, `graph_transpose` lib/ddg.c:72-84, `get_undirected_graph` lib/ddg.c:88-100, `is_ilp_solution_parallel` lib/framework-dfp.c:118-126, `is_valid_colour` lib/framework-dfp.c:1260-1277, `is_discarded` lib/framework-dfp.c:1282-1288, `get_next_min_vertex` lib/framework-dfp.c:1295-1320, `colour_scc` lib/framework-dfp.c:1448-1586, `scc_has_must_distribute_edges` lib/framework-dfp.c:1590-1620, `pluto_add_scalar_hyperplanes_between_sccs` lib/framework-dfp.c:2470-2490, `colour_fcg_scc_based` lib/framework-dfp.c:2493-2735, `k` lib/framework-dfp.c:2576-2690, `find_permutable_dimensions_scc_based` lib/framework-dfp.c:2752-2856, `add_coeff_constraints_from_fcg_colouring` lib/framework-dfp.c:2916-2947, `scale_shift_permutations` lib/framework-dfp.c:2952-3034, `get_negative_components` lib/framework-dfp.c:3038-3062, `dims_to_be_skewed` lib/framework-dfp.c:3126-3152, `get_dep_satisfaction_dims` lib/framework-dfp.c:3155-3177, `get_skewing_constraints` lib/framework-dfp.c:3181-3227, `get_outermost_sat_level` lib/framework-dfp.c:3232-3242, `swap_trans_for_cc` lib/framework-dfp.c:3246-3258, `introduce_skew` lib/framework-dfp.c:3262-3447, `update_fcg_between_sccs` lib/framework-dfp.c:903-964, `dep_satisfaction_test` lib/framework.cpp:1000-1050, `pluto_dep_remove_satisfied_instances` lib/framework.cpp:1061-1112, `pluto_compute_dep_satisfaction_precise` lib/framework.cpp:1118-1171, `pluto_dep_satisfies_instance` lib/framework.cpp:1174-1221, `get_dep_direction` lib/framework.cpp:1225-1369, `pluto_add_hyperplane_from_ilp_solution` lib/framework.cpp:1416-1449, `get_face_with_concurrent_start` lib/framework.cpp:1467-1557, `CONSTRAINTS_SIMPLIFY_THRESHOLD` lib/framework.cpp:32, `get_cc_permutability_constraints` lib/framework.cpp:320-345, `get_permutability_constraints` lib/framework.cpp:348-485, `get_feautrier_schedule_constraints_dep` lib/framework.cpp:489-610, `get_feautrier_schedule_constraints` lib/framework.cpp:613-671, `compute_permutability_constraints_dep` lib/framework.cpp:62-272, `get_stmt_lin_ind_constraints` lib/framework.cpp:696-870, `h` lib/framework.cpp:728-749, `get_non_trivial_sol_constraints` lib/framework.cpp:880-934, `get_coeff_bounding_constraints` lib/framework.cpp:937-993, `mpz_fits_ll` lib/isl_support.c:104-119, `isl_val_get_num_ll` lib/isl_support.c:125-170, `pluto_matrix_add_col` lib/math_support.c:117-138, `pluto_matrix_negate_row` lib/math_support.c:141-147, `pluto_matrix_interchange_cols` lib/math_support.c:206-214, `pluto_matrix_move_col` lib/math_support.c:217-229, `lcm` lib/math_support.c:391-395, `gcd` lib/math_support.c:398-410, `pluto_matrix_to_row_echelon` lib/math_support.c:454-484, `pluto_matrix_get_rank` lib/math_support.c:487-504, `pluto_matrix_remove_col` lib/math_support.c:63-74, `pluto_vector_is_parallel` lib/math_support.c:644-673, `pluto_vector_is_normal` lib/math_support.c:675-687, `pluto_compute_dep_directions` lib/pluto.c:1027-1041, `pluto_detect_hyperplane_types_stmtwise` lib/pluto.c:1043-1051, `pluto_dep_satisfaction_reset` lib/pluto.c:105-115, `pluto_detect_hyperplane_types` lib/pluto.c:1054-1065, `normalize_domains` lib/pluto.c:1138-1273, `pluto_compute_dep_satisfaction` lib/pluto.c:122-156, `denormalize_domains` lib/pluto.c:1277-1304, `find_cone_complement_hyperplane` lib/pluto.c:1314-1437, `lambda_cst` lib/pluto.c:1328-1380, `con_start_cst` lib/pluto.c:1382-1398, `is_concurrent_start_face` lib/pluto.c:1443-1451, `find_hyperplane_to_be_evicted` lib/pluto.c:1458-1466, `pluto_auto_transform` lib/pluto.c:1492-1850, `get_num_unsatisfied_inter_scc_deps` lib/pluto.c:1884-1900, `ddg_update` lib/pluto.c:1908-1927, `ddg_create` lib/pluto.c:1932-1947, `get_max_orig_dim_in_scc` lib/pluto.c:1952-1964, `ddg_compute_cc` lib/pluto.c:1983-2015, `pluto_stmt_get_schedule` lib/pluto.c:2060-2078, `pluto_update_deps` lib/pluto.c:2081-2129, `get_coeff_bounding_constraints_for_cone_complement` lib/pluto.c:210-241, `pluto_diamond_tile` lib/pluto.c:2152-2297, `pluto_prog_constraints_lexmin` lib/pluto.c:275-431, `ddg_sccs_direct_connected` lib/pluto.c:434-450, `cut_between_sccs` lib/pluto.c:453-496, `cut_all_sccs` lib/pluto.c:499-529, `cut_scc_dim_based` lib/pluto.c:541-589, `cut_smart` lib/pluto.c:592-624, `dep_satisfaction_update` lib/pluto.c:60-89, `cut_conservative` lib/pluto.c:628-652, `get_linear_ind_constraints` lib/pluto.c:664-733, `find_permutable_hyperplanes` lib/pluto.c:770-857, `deps_satisfaction_check` lib/pluto.c:92-103, `CST_WIDTH` lib/pluto.h:71, `DepDir` lib/pluto.h:79-85, `PlutoHypType` lib/pluto.h:87-93, `extract_stmt` lib/plutolib.c:140-193, `extract_stmts` lib/plutolib.c:196-215, `normalize_domain_schedule` lib/plutolib.c:223-257, `pluto_schedules_to_isl` lib/plutolib.c:281-313, `pluto_schedule_prog` lib/plutolib.c:30-102, `pluto_prog_from_isl_domains_dependences` lib/plutolib.c:318-383, `pluto_transform` lib/plutolib.c:390-422, `pluto_get_remapping` lib/plutolib.c:456-471, `pluto_schedule_and_get_remapping` lib/plutolib.c:473-496, `pluto_parallel_schedule_with_remapping` lib/plutolib.c:500-532, `pluto_schedule_str` lib/plutolib.c:543-597, `pluto_get_loops_under` lib/polyloop.c:117-230, `pluto_get_all_loops` lib/polyloop.c:232-236, `pluto_loop_has_satisfied_dep_with_component` lib/polyloop.c:242-277, `pluto_loop_is_parallel` lib/polyloop.c:279-314, `pluto_loop_is_parallel_for_stmt` lib/polyloop.c:321-353, `is_loop_dominated` lib/polyloop.c:400-420, `pluto_get_parallel_loops` lib/polyloop.c:609-630, `is_band_dominated` lib/polyloop.c:730-743, `pluto_is_depth_scalar` lib/polyloop.c:761-771, `pluto_get_permutable_band` lib/polyloop.c:775-826, `pluto_get_dominator_bands` lib/polyloop.c:883-904, `pluto_get_loops_immediately_inner` lib/polyloop.c:89-110, `pluto_get_outermost_permutable_bands` lib/polyloop.c:943-969, `pluto_loop_is_innermost` lib/polyloop.c:971-980, `pluto_is_band_innermost` lib/polyloop.c:985-997, `are_stmts_fused_in_band` lib/post_transform.c:291-316, `fuse_per_stmt_bands` lib/post_transform.c:321-401, `make_parallel_loop_innermost` lib/post_transform.c:406-441, `pluto_intra_tile_optimize_band` lib/post_transform.c:444-520, `pluto_intra_tile_optimize` lib/post_transform.c:524-546, `pluto_stmt_add_dim` lib/program.cpp:1002-1084, `pluto_stmt_remove_dim` lib/program.cpp:1088-1145, `pluto_is_hyperplane_scalar` lib/program.cpp:1866-1875, `pluto_stmt_get_remapping` lib/program.cpp:1883-1981, `i` lib/program.cpp:1937-1947, `pluto_get_max_ind_hyps` lib/program.cpp:2127-2135, `pluto_stmt_get_num_ind_hyps` lib/program.cpp:2158-2170, `pluto_transformations_full_ranked` lib/program.cpp:2175-2184, `basic_map_extract_dep` lib/program.cpp:367-495, `pluto_prog_get_largest_const_in_domains` lib/program.cpp:719-729, `pluto_tile_band` lib/tile.c:109-207, `pluto_tile` lib/tile.c:214-326, `pluto_tile_scattering_dims` lib/tile.c:330-380, `first` lib/tile.c:384-470, `pluto_create_tile_schedule_band` lib/tile.c:384-470, `pluto_create_tile_schedule` lib/tile.c:473-484, `pluto_make_innermost_loop` lib/transforms.c:106-144, `pluto_sink_statement` lib/transforms.c:23-33, `pluto_stmt_loop_interchange` lib/transforms.c:60-66

### C68 The OpenScop front end gives the program, its schedule and its dependences (partial)

* Plan: OpenScop relations are matrices with a separate meaning (`OslRel.Has`); instances, accesses and order of a scop are defined on them. Functions in the usual form are shown to be found row by row in any order, which gives schedule, accesses and the maps given to isl; isl's flow analysis is the oracle of C61, with one name per access or per statement. Completeness is by chains (last writers), as in C61 and C64. `C65_tool_osl_partial` composes this with the rest of the tool. Violated: candl's dependences (a `switch` without `break`), domains that are unions, constants that do not fit `int`, writing back after index-set splitting. Not covered: texts and names, `transdeps`.
* Result: Proved for scops as clan makes them (one relation per domain, functions as scattering and accesses, entries that fit int): C68_program, C68_complete, C68_sound, C68_populate. The full property is violated for candl's dependences, unions, wide constants and after index-set splitting (theorems C68_violated_*).
* Theorems: Props/Osl.lean: `C68_scattering`, `C68_access`, `C68_program`, `C68_complete`, `C68_sound`; Props/OslExamples.lean: `C68_violated_width`; Props/OslMore.lean: `C68_violated_candl`, `C68_violated_union`, `C68_populate`, `C68_violated_populate`
* Code: `isl_basic_map_to_pluto_constraints` lib/constraints_isl.c:293-301, `isl_basic_map_to_pluto_constraints_func_arg` lib/constraints_isl.c:304-351, `mpz_fits_ll` lib/isl_support.c:104-119, `isl_val_get_num_ll` lib/isl_support.c:125-170, `PlutoDepType` lib/pluto.h:218-225, `DepDir` lib/pluto.h:79-85, `PlutoHypType` lib/pluto.h:87-93, `basic_map_extract_dep` lib/program.cpp:367-495, `compute_deps_isl` lib/program.cpp:623-696, `osl_access_list_to_isl_union_map` tool/osl_pluto.c:1038-1082, `osl_relation_to_isl_set` tool/osl_pluto.c:1101-1142, `compute_deps_osl` tool/osl_pluto.c:1187-1472, `osl_access_list_filter_write` tool/osl_pluto.c:129-159, `deps_read` tool/osl_pluto.c:1475-1615, `osl_scop_to_pluto_prog` tool/osl_pluto.c:1620-1743, `osl_access_list_filter_read` tool/osl_pluto.c:164-193, `pluto_constraints_to_osl_domain` tool/osl_pluto.c:446-470, `osl_relation_get_row_id_for_nth_dimension` tool/osl_pluto.c:476-506, `pluto_trans_to_osl_scattering` tool/osl_pluto.c:48-85, `osl_scattering_to_pluto_trans` tool/osl_pluto.c:511-538, `osl_access_relation_to_pluto_matrix` tool/osl_pluto.c:545-581, `pluto_populate_scop` tool/osl_pluto.c:587-716, `osl_relation_to_pluto_constraints` tool/osl_pluto.c:721-745, `osl_to_pluto_stmts` tool/osl_pluto.c:748-902, `extract_equalities_osl` tool/osl_pluto.c:907-928, `osl_scattering_to_isl_map` tool/osl_pluto.c:933-952, `extract_equalities_osl_access` tool/osl_pluto.c:957-987, `osl_basic_access_to_isl_union_map` tool/osl_pluto.c:993-1025, `set_tuple_name` tool/pet_to_pluto.cpp:58-74, `compute_deps_pet` tool/pet_to_pluto.cpp:79-169

### C69 The reuse cost model describes the memory that loops touch (partial)

* Plan: Accesses are arrays with an access matrix; `Access.elem` gives the element, `Prog.Along` two iterations that differ in one level only, `Prog.Touched` the elements touched by a jammed loop. `pluto_get_new_access_func` (C23) links the transformed access with the element. `C69_best_member` discharges the hypothesis on the choice of the loop in C50, C52, C60, C65. Violated: preference for vectorizable loops (scores), strides when divisors are not 1, equality of accesses without divisors, and maxima of different inner loops combined in the register estimate.
* Result: Proved: invariance, soundness of spatial reuse and of vectorizability, the choice is a loop of greatest score, unique accesses listed once. Partial: spatial reuse exact for divisors 1; preference for vectorizable loops with fewer than four accesses; register bound when inner loops have equal counts. Violated otherwise. C69_profitable_exact, C69_profitable_reuse: when unroll-jam counts as profitable.
* Theorems: Props/Reuse.lean: `C69_invariant`, `C69_spatial`, `C69_spatial_exact_partial`, `C69_vectorizable`, `C69_best`, `C69_best_exists`, `C69_best_member`, `C69_prefers_vectorizable_partial`, `C69_unique`, `C69_registers_partial`, `C69_profitable_partial`; Props/ReuseExamples.lean: `C69_violated_best`, `C69_violated_stride`, `C69_violated_unique`, `C69_violated_registers`; Props/ReuseMax.lean: `C69_profitable_exact`, `C69_profitable_reuse`
* Code: `pluto_matrix_add_col` lib/math_support.c:117-138, `pluto_matrix_negate_row` lib/math_support.c:141-147, `pluto_matrix_interchange_cols` lib/math_support.c:206-214, `pluto_matrix_move_col` lib/math_support.c:217-229, `lcm` lib/math_support.c:391-395, `gcd` lib/math_support.c:398-410, `pluto_matrix_product` lib/math_support.c:433-451, `PlutoHypType` lib/pluto.h:87-93, `pluto_get_loops_under` lib/polyloop.c:117-230, `pluto_get_all_loops` lib/polyloop.c:232-236, `NUM_TOTAL_REGISTERS` lib/polyloop.c:27, `pluto_loop_is_parallel` lib/polyloop.c:279-314, `get_num_accesses` lib/polyloop.c:438-445, `is_invariant` lib/polyloop.c:449-462, `get_num_invariant_accesses` lib/polyloop.c:464-477, `get_max_dim` lib/polyloop.c:480-488, `get_max_num_innermost_invariant_accesses` lib/polyloop.c:490-516, `get_max_num_innermost_accesses` lib/polyloop.c:519-547, `is_unroll_jam_profitable` lib/polyloop.c:553-573, `pluto_loop_is_innermost` lib/polyloop.c:971-980, `pluto_loop_is_vectorizable` lib/post_transform.c:101-118, `get_best_vectorizable_loop` lib/post_transform.c:232-262, `SHORT_STRIDE` lib/post_transform.c:30, `has_spatial_reuse` lib/post_transform.c:32-61, `get_num_spatial_accesses` lib/post_transform.c:63-76, `pluto_is_hyperplane_scalar` lib/program.cpp:1866-1875, `pluto_stmt_get_remapping` lib/program.cpp:1883-1981, `i` lib/program.cpp:1937-1947, `pluto_get_new_access_func` lib/program.cpp:1991-2027, `pluto_create_new_access` lib/program.cpp:2368-2375, `insert_access_if_unique` lib/program.cpp:2398-2407, `get_unique_accesses_in_stmts` lib/program.cpp:2412-2441, `get_num_unique_accesses_in_stmts` lib/program.cpp:2461-2471, `is_access_invariant` lib/program.cpp:2477-2483, `get_num_invariant_accesses_in_stmts` lib/program.cpp:2487-2502

### C70 Tiles have the sizes given in tile.sizes, the default sizes, or the selected sizes (partial)

* Plan: The file is a list of numbers and other text, with `fscanf` and `feof` as in the C standard. The loops of `read_tile_sizes` are shown by induction to put number after number; since bands have no common statements, the levels of a band are still those of the program before tiling. C18 gives the meaning of the sizes, C50 legality. `C70_any_sizes_partial` needs nothing about the sizes: `pluto_tile_band` asserts that they are at least 1. In the selection model the reuse polynomial, its root and the floating-point products are arguments. Violated: comments, too few numbers, `--ft`/`--lt`, bands without a parallel loop in the selection, the least reuse.
* Result: Proved: default sizes without a file; any file with positive numbers gives legal tilings; legality for any sizes from any source. Partial: sizes and ratios in order for files of numbers only with enough numbers; default ratios if two or more are missing; selected sizes complete and multiples of the unroll factor unless rounding wraps. Violated: comments, too few numbers, --ft/--lt, selection without a parallel loop, least reuse. The reuse polynomial: C85. Not modelled: floating point. C70_find_used, C70_wavefront, C70_vector_dim: what tile size detection finds. With --innerpar: C70_innerpar_partial, C70_tile_innerpar_partial.
* Theorems: Props/InnerParTool.lean: `C70_innerpar_partial`, `C70_tile_innerpar_partial`; Props/TileFind.lean: `C70_any_sizes_partial`, `C70_find_partial`, `C70_violated_find`, `C70_violated_least`; Props/TileFind2.lean: `C70_wavefront`, `C70_vector_dim`, `C70_find_used`, `C70_par_loop`; Props/TileSizes.lean: `C70_default`, `C70_any_file`, `C70_first_level_partial`, `C70_second_level_partial`, `C70_ratios_partial`, `C70_tile_partial`; Props/TileSizesExamples.lean: `C70_violated_comment`, `C70_violated_text`, `C70_violated_short`, `C70_violated_ratios`, `C70_violated_force`
* Code: `pluto_constraints_add_dim` lib/constraints.c:1601-1636, `pluto_constraints_add` lib/constraints.c:285-307, `dep_satisfaction_test` lib/framework.cpp:1000-1050, `get_dep_direction` lib/framework.cpp:1225-1369, `pluto_matrix_add_col` lib/math_support.c:117-138, `pluto_matrix_negate_row` lib/math_support.c:141-147, `pluto_matrix_interchange_cols` lib/math_support.c:206-214, `pluto_matrix_move_col` lib/math_support.c:217-229, `lcm` lib/math_support.c:391-395, `gcd` lib/math_support.c:398-410, `pluto_matrix_product` lib/math_support.c:433-451, `pluto_compute_dep_directions` lib/pluto.c:1027-1041, `pluto_detect_hyperplane_types_stmtwise` lib/pluto.c:1043-1051, `pluto_dep_satisfaction_reset` lib/pluto.c:105-115, `pluto_detect_hyperplane_types` lib/pluto.c:1054-1065, `pluto_compute_dep_satisfaction` lib/pluto.c:122-156, `pluto_update_deps` lib/pluto.c:2081-2129, `dep_satisfaction_update` lib/pluto.c:60-89, `DepDir` lib/pluto.h:79-85, `PlutoHypType` lib/pluto.h:87-93, `pluto_get_loops_under` lib/polyloop.c:117-230, `pluto_get_all_loops` lib/polyloop.c:232-236, `pluto_loop_is_parallel` lib/polyloop.c:279-314, `pluto_loop_is_parallel_for_stmt` lib/polyloop.c:321-353, `is_loop_dominated` lib/polyloop.c:400-420, `get_num_accesses` lib/polyloop.c:438-445, `is_invariant` lib/polyloop.c:449-462, `get_num_invariant_accesses` lib/polyloop.c:464-477, `pluto_get_parallel_loops` lib/polyloop.c:609-630, `is_band_dominated` lib/polyloop.c:730-743, `pluto_is_depth_scalar` lib/polyloop.c:761-771, `pluto_get_permutable_band` lib/polyloop.c:775-826, `pluto_get_dominator_bands` lib/polyloop.c:883-904, `pluto_get_outermost_permutable_bands` lib/polyloop.c:943-969, `pluto_loop_is_innermost` lib/polyloop.c:971-980, `pluto_is_band_innermost` lib/polyloop.c:985-997, `pluto_loop_is_vectorizable` lib/post_transform.c:101-118, `get_best_vectorizable_loop` lib/post_transform.c:232-262, `are_stmts_fused_in_band` lib/post_transform.c:291-316, `SHORT_STRIDE` lib/post_transform.c:30, `has_spatial_reuse` lib/post_transform.c:32-61, `fuse_per_stmt_bands` lib/post_transform.c:321-401, `make_parallel_loop_innermost` lib/post_transform.c:406-441, `pluto_intra_tile_optimize_band` lib/post_transform.c:444-520, `get_num_spatial_accesses` lib/post_transform.c:63-76, `pluto_stmt_add_dim` lib/program.cpp:1002-1084, `pluto_is_hyperplane_scalar` lib/program.cpp:1866-1875, `pluto_stmt_get_remapping` lib/program.cpp:1883-1981, `i` lib/program.cpp:1937-1947, `pluto_get_new_access_func` lib/program.cpp:1991-2027, `pluto_create_new_access` lib/program.cpp:2368-2375, `is_access_invariant` lib/program.cpp:2477-2483, `pluto_tile_band` lib/tile.c:109-207, `pluto_tile` lib/tile.c:214-326, `read_tile_sizes` lib/tile.c:26-80, `pluto_tile_scattering_dims` lib/tile.c:330-380, `first` lib/tile.c:384-470, `pluto_create_tile_schedule_band` lib/tile.c:384-470, `pluto_create_tile_schedule` lib/tile.c:473-484, `round_tile_sizes_wrt_unroll_jam_factor` lib/tile_size_selection_model.cpp:133-140, `infer_tile_sizes` lib/tile_size_selection_model.cpp:144-196, `TileSizeSelectionModel` lib/tile_size_selection_model.cpp:36-60, `get_vectorizable_dimensions` lib/tile_size_selection_model.cpp:412-466, `pluto_band_has_wavefront_parallelism` lib/tile_size_selection_model.cpp:524-549, `find_tile_sizes` lib/tile_size_selection_model.cpp:553-644, `approximate_to_nearest_multiple` lib/tile_size_selection_model.cpp:93-105, `pluto_make_innermost_loop` lib/transforms.c:106-144, `pluto_stmt_loop_interchange` lib/transforms.c:60-66

### C71 One bounding function per connected component (--per-cc-obj) (partial)

* Plan: A solution is read per component (`ccPart`: the bounding function of the component, then the coefficients); exchanging blocks of columns is shown to be reading another part, so that C07 and C08 apply. The main loop of `pluto_auto_transform` is written once more for any search (with the search of C10 it is `autoTransform`), and legality and restoration are proved for every search that keeps the invariant. The allocation of `prog->globcst` is part of the state. Violated: the sum constraints take neighbouring columns instead of the columns of the components (right only without parameters); `globcst` keeps the columns of the first call although the number of components grows; diamond tiling adds systems with different numbers of columns.
* Result: Exactness of the system, bounds per component, legality and restoration for all programs that do not hit the faults shown: C71_violated_sum (wrong columns with parameters), C71_violated_growth (rows longer than allocated after a cut), C71_violated_diamond (assertion fails).
* Theorems: Props/PerCc.lean: `C71_system`, `C71_bounds`, `C71_same_hyperplanes`, `C71_legal_partial`, `C71_failure_restores`, `C71_sum_partial`, `C71_sum_rows`, `C71_violated_sum`, `C71_violated_sum_lost`, `C71_columns_partial`; Props/PerCcExamples.lean: `C71_violated_growth`, `C71_growth_infeasible`, `C71_violated_diamond`
* Code: `pluto_constraints_resize_single` lib/constraints.c:127-170, `pluto_constraints_remove_dim` lib/constraints.c:1535-1561, `pluto_constraints_add_dim` lib/constraints.c:1601-1636, `pluto_constraints_add_leading_dims` lib/constraints.c:1643-1647, `pluto_constraints_add_lb` lib/constraints.c:1649-1659, `pluto_constraints_add_ub` lib/constraints.c:1662-1672, `pluto_constraints_set_var` lib/constraints.c:1675-1685, `pluto_constraints_to_pure_inequalities_single` lib/constraints.c:1747-1783, `pluto_constraints_interchange_cols` lib/constraints.c:1825-1839, `farkas_lemma_affine` lib/constraints.c:213-280, `pluto_constraints_best_elim_candidate` lib/constraints.c:2339-2375, `j` lib/constraints.c:2349-2367, `fourier_motzkin_eliminate_smart` lib/constraints.c:2470-2563, `pluto_constraints_gaussian_eliminate` lib/constraints.c:2565-2608, `pluto_constraints_add` lib/constraints.c:285-307, `pluto_constraints_simplify` lib/constraints.c:378-474, `fourier_motzkin_eliminate` lib/constraints.c:485-581, `dfs_vertex` lib/ddg.c:116-133, `dfs` lib/ddg.c:136-149, `dfs_for_scc` lib/ddg.c:173-212, `graph_transpose` lib/ddg.c:72-84, `get_undirected_graph` lib/ddg.c:88-100, `dep_satisfaction_test` lib/framework.cpp:1000-1050, `pluto_dep_remove_satisfied_instances` lib/framework.cpp:1061-1112, `pluto_compute_dep_satisfaction_precise` lib/framework.cpp:1118-1171, `pluto_dep_satisfies_instance` lib/framework.cpp:1174-1221, `pluto_add_hyperplane_from_ilp_solution` lib/framework.cpp:1416-1449, `get_face_with_concurrent_start_for_stmts` lib/framework.cpp:1467-1481, `CONSTRAINTS_SIMPLIFY_THRESHOLD` lib/framework.cpp:32, `get_permutability_constraints` lib/framework.cpp:348-485, `get_feautrier_schedule_constraints_dep` lib/framework.cpp:489-610, `get_feautrier_schedule_constraints` lib/framework.cpp:613-671, `compute_permutability_constraints_dep` lib/framework.cpp:62-272, `get_stmt_lin_ind_constraints` lib/framework.cpp:696-870, `h` lib/framework.cpp:728-749, `k` lib/framework.cpp:816-826, `get_non_trivial_sol_constraints` lib/framework.cpp:880-934, `get_coeff_bounding_constraints` lib/framework.cpp:937-993, `lcm` lib/math_support.c:391-395, `gcd` lib/math_support.c:398-410, `pluto_matrix_to_row_echelon` lib/math_support.c:454-484, `pluto_matrix_get_rank` lib/math_support.c:487-504, `pluto_matrix_remove_col` lib/math_support.c:63-74, `normalize_domains` lib/pluto.c:1138-1273, `denormalize_domains` lib/pluto.c:1277-1304, `pluto_auto_transform` lib/pluto.c:1694-1827, `get_num_unsatisfied_inter_scc_deps` lib/pluto.c:1884-1900, `ddg_update` lib/pluto.c:1908-1927, `ddg_create` lib/pluto.c:1932-1947, `get_max_orig_dim_in_scc` lib/pluto.c:1952-1964, `ddg_compute_cc` lib/pluto.c:1983-2015, `pluto_prog_constraints_lexmin` lib/pluto.c:275-431, `ddg_sccs_direct_connected` lib/pluto.c:434-450, `cut_between_sccs` lib/pluto.c:453-496, `cut_all_sccs` lib/pluto.c:499-529, `cut_scc_dim_based` lib/pluto.c:541-589, `cut_smart` lib/pluto.c:592-624, `dep_satisfaction_update` lib/pluto.c:60-89, `cut_conservative` lib/pluto.c:628-652, `get_linear_ind_constraints` lib/pluto.c:664-733, `get_per_cc_obj_sum_constraints` lib/pluto.c:740-759, `find_permutable_hyperplanes` lib/pluto.c:770-857, `deps_satisfaction_check` lib/pluto.c:92-103, `CST_WIDTH` lib/pluto.h:71, `DepDir` lib/pluto.h:79-85, `PlutoHypType` lib/pluto.h:87-93, `pluto_stmt_add_dim` lib/program.cpp:1002-1084, `pluto_stmt_remove_dim` lib/program.cpp:1088-1145, `pluto_get_max_ind_hyps` lib/program.cpp:2127-2135, `pluto_stmt_get_num_ind_hyps` lib/program.cpp:2158-2170, `pluto_transformations_full_ranked` lib/program.cpp:2175-2184, `pluto_prog_get_largest_const_in_domains` lib/program.cpp:719-729, `pluto_sink_statement` lib/transforms.c:23-33

### C72 A custom fusion structure (.fst, .precut) is respected and the result is legal (partial)

* Plan: What a file says is written down independently of the reader (`fstText`, `precutText`, `fileTime`); the reader is proved to give those rows on every such text. The invariant of the main loop (C10) is proved for the padded program with the rows of the file if they put no dependent pair in the wrong order (a pair of the padded program, cut to the original loops, is a pair of the input), and then kept by the main loop; that the rows stay is a fact kept by every step (`Moves`).
* Result: C72_fst_partial, C72_precut_partial: for files that fit the program and put no dependent pair in the wrong order, success means legal and the rows of the file come first (without diamond tiling). C72_failure_restores: any .fst, fitting .precut. C72_too_many, C72_no_files. Violated: order not checked (C72_violated_order, _unlisted, _check), parameters dropped (_params), loops called scalar (_type), unequal numbers of rows (_rows). C72_fst_accepted, C72_types_partial: which files are accepted and which types rows get.
* Theorems: Props/Precut.lean: `C72_no_files`, `C72_too_many`, `C72_fst_partial`, `C72_precut_partial`, `C72_failure_restores`; Props/PrecutExamples.lean: `C72_violated_order`, `C72_violated_unlisted`, `C72_violated_check`, `C72_violated_params`, `C72_violated_type`, `C72_violated_rows`; Props/PrecutTypes.lean: `C72_types_partial`, `C72_fst_accepted`
* Code: `pluto_constraints_remove_dim` lib/constraints.c:1535-1561, `pluto_constraints_add_dim` lib/constraints.c:1601-1636, `pluto_constraints_add_lb` lib/constraints.c:1649-1659, `pluto_constraints_add_ub` lib/constraints.c:1662-1672, `pluto_constraints_set_var` lib/constraints.c:1675-1685, `pluto_constraints_to_pure_inequalities_single` lib/constraints.c:1747-1783, `pluto_constraints_interchange_cols` lib/constraints.c:1825-1839, `farkas_lemma_affine` lib/constraints.c:213-280, `pluto_constraints_best_elim_candidate` lib/constraints.c:2339-2375, `j` lib/constraints.c:2349-2367, `fourier_motzkin_eliminate_smart` lib/constraints.c:2470-2563, `pluto_constraints_gaussian_eliminate` lib/constraints.c:2565-2608, `pluto_constraints_add` lib/constraints.c:285-307, `pluto_constraints_simplify` lib/constraints.c:378-474, `fourier_motzkin_eliminate` lib/constraints.c:485-581, `dfs_vertex` lib/ddg.c:116-133, `dfs` lib/ddg.c:136-149, `dfs_for_scc` lib/ddg.c:173-212, `graph_transpose` lib/ddg.c:72-84, `dep_satisfaction_test` lib/framework.cpp:1000-1050, `pluto_dep_remove_satisfied_instances` lib/framework.cpp:1061-1112, `pluto_compute_dep_satisfaction_precise` lib/framework.cpp:1118-1171, `pluto_dep_satisfies_instance` lib/framework.cpp:1174-1221, `pluto_add_hyperplane_from_ilp_solution` lib/framework.cpp:1416-1449, `CONSTRAINTS_SIMPLIFY_THRESHOLD` lib/framework.cpp:32, `get_permutability_constraints` lib/framework.cpp:348-485, `compute_permutability_constraints_dep` lib/framework.cpp:62-272, `get_stmt_lin_ind_constraints` lib/framework.cpp:696-870, `h` lib/framework.cpp:728-749, `k` lib/framework.cpp:816-826, `get_non_trivial_sol_constraints` lib/framework.cpp:880-934, `get_coeff_bounding_constraints` lib/framework.cpp:937-993, `lcm` lib/math_support.c:391-395, `gcd` lib/math_support.c:398-410, `pluto_matrix_to_row_echelon` lib/math_support.c:454-484, `pluto_matrix_get_rank` lib/math_support.c:487-504, `pluto_matrix_remove_col` lib/math_support.c:63-74, `normalize_domains` lib/pluto.c:1138-1273, `denormalize_domains` lib/pluto.c:1277-1304, `pluto_auto_transform` lib/pluto.c:1492-1850, `get_num_unsatisfied_inter_scc_deps` lib/pluto.c:1884-1900, `ddg_update` lib/pluto.c:1908-1927, `ddg_create` lib/pluto.c:1932-1947, `get_max_orig_dim_in_scc` lib/pluto.c:1952-1964, `pluto_prog_constraints_lexmin` lib/pluto.c:275-431, `ddg_sccs_direct_connected` lib/pluto.c:434-450, `cut_between_sccs` lib/pluto.c:453-496, `cut_all_sccs` lib/pluto.c:499-529, `cut_scc_dim_based` lib/pluto.c:541-589, `cut_smart` lib/pluto.c:592-624, `dep_satisfaction_update` lib/pluto.c:60-89, `cut_conservative` lib/pluto.c:628-652, `get_linear_ind_constraints` lib/pluto.c:664-733, `find_permutable_hyperplanes` lib/pluto.c:770-857, `get_loop_type` lib/pluto.c:863-871, `precut` lib/pluto.c:874-1025, `deps_satisfaction_check` lib/pluto.c:92-103, `i` lib/pluto.c:924-932, `CST_WIDTH` lib/pluto.h:71, `DepDir` lib/pluto.h:79-85, `PlutoHypType` lib/pluto.h:87-93, `pluto_stmt_add_dim` lib/program.cpp:1002-1084, `pluto_stmt_remove_dim` lib/program.cpp:1088-1145, `pluto_get_max_ind_hyps` lib/program.cpp:2127-2135, `pluto_stmt_get_num_ind_hyps` lib/program.cpp:2158-2170, `pluto_transformations_full_ranked` lib/program.cpp:2175-2184, `pluto_prog_get_largest_const_in_domains` lib/program.cpp:719-729, `pluto_sink_statement` lib/transforms.c:23-33

### C73 Edits of a whole program keep its meaning (partial)

* Plan: The edits are proved to act on every row as the insertion of a zero column, the exchange of two rows, the insertion of a constant row (C27, C45); times, domains, subscripts, dependences and contexts are then compared point by point for every value of the new parameter. Legality of interchange: induction over the first different component; of separation: an equivalence.
* Result: Adding a parameter and separating statements proved in full (C73_param, C73_param_legal, C73_separate, C73_separate_legal as an equivalence, C73_separate_one); interchange: exact effect on all times proved, legality under permutability of the levels in between. Missing: the code leaves the recorded types of the statements unchanged on interchange (C73_violated_types) and does not extend bounding_poly for a new parameter (C73_violated_param).
* Theorems: Props/ProgEdit.lean: `C73_param`, `C73_param_legal`, `C73_interchange`, `C73_interchange_legal_partial`, `C73_separate`, `C73_separate_legal`, `C73_separate_one`; Props/ProgEditExamples.lean: `C73_violated_param`, `C73_violated_types`
* Code: `pluto_constraints_add_dim` lib/constraints.c:1601-1636, `pluto_matrix_add_col` lib/math_support.c:117-138, `params` lib/pluto.h:329-422, `DepDir` lib/pluto.h:79-85, `PlutoHypType` lib/pluto.h:87-93, `pluto_stmt_add_dim` lib/program.cpp:1002-1084, `pluto_stmt_add_hyperplane` lib/program.cpp:1147-1163, `pluto_prog_add_hyperplane` lib/program.cpp:1165-1182, `pluto_separate_stmts` lib/program.cpp:2039-2041, `pluto_separate_stmt` lib/program.cpp:2049-2061, `pluto_prog_add_param` lib/program.cpp:964-969, `pluto_stmt_loop_interchange` lib/transforms.c:60-66, `pluto_interchange` lib/transforms.c:68-79

### C74 Matrices extracted from isl maps are the maps (partial)

* Plan: isl's answers (single-valued dimensions, pieces of a piecewise affine expression) are an oracle with a point-wise specification; affine expressions have rational coefficients and integer divisions with their value as meaning. The matrix is proved to be the map if every dimension is one integral affine expression; each way in which this fails has a witness. The initial schedule of C64 is thereby proved to be the order of the scop.
* Result: The matrix is the map if every dimension is a single affine expression with integer coefficients (C74_access_partial, C74_stmt_partial); otherwise it is the last piece (C74_last_piece_partial). Hence the initial schedule is the order of the scop and is legal (C74_times_partial, C74_initial_legal_partial). Missing: what the code gets wrong, C74_violated_rational, _floor, _pieces, _order, _empty. C74_divs, C74_unused_divs, C74_violated_mixed_div: the effect of integer divisions.
* Theorems: Props/IslAff.lean: `C74_last_piece_partial`, `C74_access_partial`, `C74_stmt_partial`, `C74_times_partial`, `C74_initial_legal_partial`; Props/IslAffDivs.lean: `C74_divs`, `C74_unused_divs`, `C74_violated_mixed_div`; Props/IslAffExamples.lean: `C74_violated_rational`, `C74_violated_floor`, `C74_violated_pieces`, `C74_violated_order`, `C74_violated_empty`
* Code: `isl_basic_set_to_pluto_constraints` lib/constraints_isl.c:242-290, `isl_basic_map_to_pluto_constraints` lib/constraints_isl.c:293-301, `isl_basic_map_to_pluto_constraints_func_arg` lib/constraints_isl.c:304-351, `isl_map_to_pluto_func` lib/constraints_isl.c:422-449, `mpz_fits_ll` lib/isl_support.c:104-119, `isl_val_get_num_ll` lib/isl_support.c:125-170, `isl_aff_to_pluto_func` lib/isl_support.c:53-100, `PlutoDepType` lib/pluto.h:218-225, `DepDir` lib/pluto.h:79-85, `PlutoHypType` lib/pluto.h:87-93, `basic_map_extract_dep` lib/program.cpp:367-495, `isl_basic_map_extract_access_func` lib/program.cpp:505-540, `isl_pw_aff_foreach_piece` lib/program.cpp:521-524, `extract_accesses_for_pluto_stmt` lib/program.cpp:555-596, `compute_deps_isl` lib/program.cpp:623-696, `mark_trivial_dead_code` tool/pet_to_pluto.cpp:173-222, `k` tool/pet_to_pluto.cpp:173-222, `pet_to_pluto_stmts` tool/pet_to_pluto.cpp:225-368, `set_tuple_name` tool/pet_to_pluto.cpp:58-74, `pet_to_pluto_prog` tool/pet_to_pluto.cpp:611-720, `compute_deps_pet` tool/pet_to_pluto.cpp:79-169

### C75 The clustered search (--dfp --clusterscc, typed and hybrid fusion) returns and its schedules are legal (partial)

* Plan: The search is modelled function by function; the fusion conflict graphs, the stencil test and the solver are arbitrary (the last subject to `LexScales`). Invariants of C56 are carried through colouring, cuts and rebuilds: order up to ties of cyclic, unsatisfied dependences, and shape. If all statements have the same number of loops and no dependence is empty, colours are tracked per statement (new components are parts of old ones, so rebuilding keeps them) and every loop is proved to get a row of its own. Two programs show what fails otherwise: a loop that is coloured twice because `dim` is compared with `max_dim`, and a loop for which the search never returns. What a rebuild in the middle of a level carries over: `C75_rebuild_partial`.
* Result: Order up to ties of cyclic unsatisfied dependences, shape, legality if all dependences are marked satisfied or no statement depends on itself; for equal numbers of loops every loop gets its own row and schedules are one-to-one. Missing: runs with a skew. The code loses a loop (C75_violated), leaves cycles unordered (C75_violated_cycle) and may not return (C75_violated_termination).
* Theorems: Props/DfpCluster.lean: `C75_order_partial`, `C75_quiet`, `C75_shape`, `C75_marked_partial`, `C75_acyclic_partial`, `C75_violated`; Props/DfpClusterLoops.lean: `C75_loops_partial`, `C75_injective_partial`, `C75_self_partial`, `C75_legal_partial`, `C75_violated_cycle`; Props/DfpClusterStop.lean: `C75_violated_termination`; Props/DfpRebuild.lean: `C75_rebuild_partial`
* Code: `pluto_constraints_remove_dim` lib/constraints.c:1535-1561, `pluto_constraints_add_dim` lib/constraints.c:1601-1636, `pluto_constraints_add_lb` lib/constraints.c:1649-1659, `pluto_constraints_add_ub` lib/constraints.c:1662-1672, `pluto_constraints_set_var` lib/constraints.c:1675-1685, `pluto_constraints_to_pure_inequalities_single` lib/constraints.c:1747-1783, `pluto_constraints_interchange_cols` lib/constraints.c:1825-1839, `farkas_lemma_affine` lib/constraints.c:213-280, `pluto_constraints_best_elim_candidate` lib/constraints.c:2339-2375, `j` lib/constraints.c:2349-2367, `fourier_motzkin_eliminate_smart` lib/constraints.c:2470-2563, `pluto_constraints_gaussian_eliminate` lib/constraints.c:2565-2608, `pluto_constraints_add` lib/constraints.c:285-307, `pluto_constraints_simplify` lib/constraints.c:378-474, `fourier_motzkin_eliminate` lib/constraints.c:485-581, `compute_transitive_closure` lib/ddg.c:103-113, `dfs_vertex` lib/ddg.c:116-133, `dfs` lib/ddg.c:136-149, `dfs_for_scc` lib/ddg.c:173-212, `is_adjacent` lib/ddg.c:216-221, `compute_scc_vertices` lib/ddg.c:223-240, `graph_transpose` lib/ddg.c:72-84, `get_undirected_graph` lib/ddg.c:88-100, `add_must_distribute_edges` lib/framework-dfp.c:1016-1072, `is_lp_solution_parallel` lib/framework-dfp.c:106-114, `build_fusion_conflict_graph` lib/framework-dfp.c:1080-1226, `is_ilp_solution_parallel` lib/framework-dfp.c:118-126, `is_valid_colour` lib/framework-dfp.c:1260-1277, `is_discarded` lib/framework-dfp.c:1282-1288, `get_min_succ_scc` lib/framework-dfp.c:1368-1376, `get_max_pred_scc` lib/framework-dfp.c:1380-1387, `is_convex_scc` lib/framework-dfp.c:1390-1398, `cut_around_scc` lib/framework-dfp.c:1402-1442, `scc_has_must_distribute_edges` lib/framework-dfp.c:1590-1620, `get_convex_successors` lib/framework-dfp.c:1623-1644, `get_convex_parallel_successors` lib/framework-dfp.c:1648-1673, `is_colour_par_preventing` lib/framework-dfp.c:1677-1685, `get_common_parallel_dims` lib/framework-dfp.c:1690-1735, `get_colouring_dim` lib/framework-dfp.c:1741-1755, `colour_convex_successors` lib/framework-dfp.c:1759-1789, `colour_scc_cluster_greedy` lib/framework-dfp.c:1797-1896, `cut_from_predecessor` lib/framework-dfp.c:1899-1906, `get_min_convex_successor` lib/framework-dfp.c:1910-1925, `get_colourable_dims` lib/framework-dfp.c:1961-1983, `get_common_dims` lib/framework-dfp.c:1988-2023, `get_convex_preds_from_convex_successors` lib/framework-dfp.c:2028-2047, `get_next_min_vertex_scc_cluster` lib/framework-dfp.c:2050-2193, `colour_scc_cluster` lib/framework-dfp.c:2196-2298, `get_vertex_colour_from_scc_colour` lib/framework-dfp.c:2302-2320, `get_scc_colours_from_vertex_colours` lib/framework-dfp.c:2353-2390, `rebuild_scc_cluster_fcg` lib/framework-dfp.c:2395-2465, `pluto_add_scalar_hyperplanes_between_sccs` lib/framework-dfp.c:2470-2490, `colour_fcg_scc_based` lib/framework-dfp.c:2493-2735, `find_permutable_dimensions_scc_based` lib/framework-dfp.c:2752-2856, `add_coeff_constraints_from_scc_clustered_fcg_colouring` lib/framework-dfp.c:2865-2912, `scale_shift_permutations` lib/framework-dfp.c:2952-3034, `get_negative_components` lib/framework-dfp.c:3038-3062, `dims_to_be_skewed` lib/framework-dfp.c:3126-3152, `get_dep_satisfaction_dims` lib/framework-dfp.c:3155-3177, `get_skewing_constraints` lib/framework-dfp.c:3181-3227, `get_outermost_sat_level` lib/framework-dfp.c:3232-3242, `swap_trans_for_cc` lib/framework-dfp.c:3246-3258, `introduce_skew` lib/framework-dfp.c:3262-3447, `get_inter_scc_dep_constraints` lib/framework-dfp.c:372-411, `fcg_scc_cluster_add_inter_scc_edges` lib/framework-dfp.c:416-592, `check_parallel` lib/framework-dfp.c:447-455, `compute_intra_scc_dep_cst` lib/framework-dfp.c:637-673, `fcg_scc_cluster_add_permute_preventing_edges` lib/framework-dfp.c:751-845, `update_scc_cluster_fcg_between_sccs` lib/framework-dfp.c:851-898, `update_fcg_between_sccs` lib/framework-dfp.c:903-964, `are_sccs_fused` lib/framework-dfp.c:987-1012, `dep_satisfaction_test` lib/framework.cpp:1000-1050, `pluto_dep_remove_satisfied_instances` lib/framework.cpp:1061-1112, `pluto_compute_dep_satisfaction_precise` lib/framework.cpp:1118-1171, `pluto_dep_satisfies_instance` lib/framework.cpp:1174-1221, `get_dep_direction` lib/framework.cpp:1225-1369, `pluto_add_hyperplane_from_ilp_solution` lib/framework.cpp:1416-1449, `CONSTRAINTS_SIMPLIFY_THRESHOLD` lib/framework.cpp:32, `get_cc_permutability_constraints` lib/framework.cpp:320-345, `get_permutability_constraints` lib/framework.cpp:348-485, `compute_permutability_constraints_dep` lib/framework.cpp:62-272, `get_coeff_bounding_constraints` lib/framework.cpp:937-993, `lcm` lib/math_support.c:391-395, `gcd` lib/math_support.c:398-410, `pluto_matrix_to_row_echelon` lib/math_support.c:454-484, `pluto_matrix_get_rank` lib/math_support.c:487-504, `pluto_matrix_remove_col` lib/math_support.c:63-74, `pluto_compute_dep_directions` lib/pluto.c:1027-1041, `pluto_dep_satisfaction_reset` lib/pluto.c:105-115, `normalize_domains` lib/pluto.c:1138-1273, `denormalize_domains` lib/pluto.c:1277-1304, `pluto_auto_transform` lib/pluto.c:1492-1850, `ddg_update` lib/pluto.c:1908-1927, `ddg_create` lib/pluto.c:1932-1947, `get_max_orig_dim_in_scc` lib/pluto.c:1952-1964, `ddg_compute_cc` lib/pluto.c:1983-2015, `construct_cplex_objective` lib/pluto.c:243-267, `pluto_prog_constraints_lexmin` lib/pluto.c:275-431, `ddg_sccs_direct_connected` lib/pluto.c:434-450, `cut_between_sccs` lib/pluto.c:453-496, `cut_all_sccs` lib/pluto.c:499-529, `cut_scc_dim_based` lib/pluto.c:541-589, `cut_smart` lib/pluto.c:592-624, `dep_satisfaction_update` lib/pluto.c:60-89, `deps_satisfaction_check` lib/pluto.c:92-103, `CST_WIDTH` lib/pluto.h:71, `DepDir` lib/pluto.h:79-85, `PlutoHypType` lib/pluto.h:87-93, `pluto_stmt_add_dim` lib/program.cpp:1002-1084, `pluto_stmt_remove_dim` lib/program.cpp:1088-1145, `pluto_stmt_get_num_ind_hyps` lib/program.cpp:2158-2170, `pluto_transformations_full_ranked` lib/program.cpp:2175-2184, `pluto_prog_get_largest_const_in_domains` lib/program.cpp:719-729, `pluto_sink_statement` lib/transforms.c:23-33

### C76 The conflict graph of the clustered search says exactly which loops can be fused (partial)

* Plan: The systems of linear inequalities that the code builds for a loop, and for a pair of loops, are proved to have a non-negative rational solution iff there is a level with these loops (`lev_sys`: Farkas multipliers are eliminated by C07/C08; padding columns are handled by showing that solutions may be changed there). `LpSolver` is all that is assumed about the solver; an optimum is assumed only in `C76_violated_nodepbound`. Edges are then read off the list of entries (vertices of different components are shown distinct). Parallelism: a solution with zero bounding function forces distance 0. Three programs show where the graph is wrong.
* Result: Vertices, edges within a component, self edges (exact), edges between dependent components (exact unless a statement number equals a column number, hclash), edges between unrelated components, soundness of the parallelism information without --nodepbound. C76_oracle makes C75 apply. Missing: that a parallelism preventing edge is only there if fusion loses parallelism; the code violates this (C76_violated_check), and exactness in one case (C76_violated_padding), and the parallelism test with --nodepbound (C76_violated_nodepbound).
* Theorems: Props/FcgCluster.lean: `C76_oracle`, `C76_self`, `C76_conflict_partial`, `C76_same`, `C76_unrelated`, `C76_distribute`, `C76_parallel_partial`, `C76_par_self_partial`, `C76_par_partial`; Props/FcgClusterBad.lean: `C76_violated_check`, `C76_violated_nodepbound`, `C76_violated_padding`
* Code: `pluto_constraints_remove_dim` lib/constraints.c:1535-1561, `pluto_constraints_add_lb` lib/constraints.c:1649-1659, `pluto_constraints_add_ub` lib/constraints.c:1662-1672, `pluto_constraints_to_pure_inequalities_single` lib/constraints.c:1747-1783, `farkas_lemma_affine` lib/constraints.c:213-280, `pluto_constraints_best_elim_candidate` lib/constraints.c:2339-2375, `j` lib/constraints.c:2349-2367, `fourier_motzkin_eliminate_smart` lib/constraints.c:2470-2563, `pluto_constraints_gaussian_eliminate` lib/constraints.c:2565-2608, `pluto_constraints_add` lib/constraints.c:285-307, `pluto_constraints_simplify` lib/constraints.c:378-474, `compute_transitive_closure` lib/ddg.c:103-113, `compute_scc_vertices` lib/ddg.c:223-240, `add_must_distribute_edges` lib/framework-dfp.c:1016-1072, `is_lp_solution_parallel` lib/framework-dfp.c:106-114, `build_fusion_conflict_graph` lib/framework-dfp.c:1080-1226, `get_inter_scc_dep_constraints` lib/framework-dfp.c:372-411, `fcg_scc_cluster_add_inter_scc_edges` lib/framework-dfp.c:416-592, `check_parallel` lib/framework-dfp.c:447-455, `compute_intra_scc_dep_cst` lib/framework-dfp.c:637-673, `fcg_scc_cluster_add_permute_preventing_edges` lib/framework-dfp.c:751-845, `are_sccs_fused` lib/framework-dfp.c:987-1012, `compute_permutability_constraints_dep` lib/framework.cpp:62-272, `get_coeff_bounding_constraints` lib/framework.cpp:937-993, `lcm` lib/math_support.c:391-395, `gcd` lib/math_support.c:398-410, `pluto_auto_transform` lib/pluto.c:1492-1850, `ddg_create` lib/pluto.c:1932-1947, `get_max_orig_dim_in_scc` lib/pluto.c:1952-1964, `construct_cplex_objective` lib/pluto.c:243-267, `ddg_sccs_direct_connected` lib/pluto.c:434-450, `CST_WIDTH` lib/pluto.h:71, `DepDir` lib/pluto.h:79-85, `PlutoHypType` lib/pluto.h:87-93, `pluto_prog_get_largest_const_in_domains` lib/program.cpp:719-729

### C77 Typed fusion recognizes exactly the stencils (partial)

* Plan: The lower bounds on dependence distances are a second application of the Farkas lemma (`lower_form`), and together with the bounding constraints they are satisfied exactly by the functions whose distances are at most w in either direction (`stencil_sound`, `stencil_complete`). Since u is 0 and nothing is negative, the first entry of the lexicographic minimum that can differ is w (`lexLe_bound`), so the answer depends on whether the least w is 0 (`C77_stencil`). `ShortPlane` and `StartFaces` in Spec/Stencil.lean say what is recognized without the systems. The solver is `pluto_constraints_lexmin` without sign restriction, `SignedLexmin` (exists: `exists_signedLexmin`). Face: C09 and C28 (`C77_faces`). For `clTransform` (C75), `sten` may be this function. Nests with given distances (`exNest`) show all answers, for any exact solvers. `C77_violated_face` computes the lexicographic minimum for three loops and shows that a face along another axis is missed.
* Result: C77_faces: the face is one. C77_stencil: exact once a face is found, for exact solvers. C77_no_face, C77_defined: an answer for every component without --nodepbound, false without dependences. Missing: dependences on either side are not checked (C77_violated_sides); null pointer with --nodepbound (C77_violated_nodepbound); a face along another axis than the lexicographic minimum is not found (C77_violated_face).
* Theorems: Props/Stencil.lean: `C77_faces`, `C77_stencil`, `C77_no_face`; Props/StencilDef.lean: `C77_defined`, `C77_violated_nodepbound`; Props/StencilExamples.lean: `C77_violated_sides`; Props/StencilFace.lean: `C77_violated_face`
* Code: `pluto_constraints_remove_dim` lib/constraints.c:1535-1561, `pluto_constraints_add_lb` lib/constraints.c:1649-1659, `pluto_constraints_add_ub` lib/constraints.c:1662-1672, `pluto_constraints_to_pure_inequalities_single` lib/constraints.c:1747-1783, `pluto_constraints_interchange_cols` lib/constraints.c:1825-1839, `farkas_lemma_affine` lib/constraints.c:213-280, `pluto_constraints_best_elim_candidate` lib/constraints.c:2339-2375, `j` lib/constraints.c:2349-2367, `fourier_motzkin_eliminate_smart` lib/constraints.c:2470-2563, `pluto_constraints_gaussian_eliminate` lib/constraints.c:2565-2608, `pluto_constraints_add` lib/constraints.c:285-307, `pluto_constraints_simplify` lib/constraints.c:378-474, `pluto_add_hyperplane_from_ilp_solution` lib/framework.cpp:1416-1449, `get_face_with_concurrent_start` lib/framework.cpp:1467-1557, `get_dep_distance_bounding_constraints_for_scc` lib/framework.cpp:1561-1590, `compute_dep_dist_lb_constraints_for_stencil_check` lib/framework.cpp:1596-1687, `get_dep_dist_lower_bound_constraints_for_scc` lib/framework.cpp:1693-1720, `is_scc_stencil` lib/framework.cpp:1740-1797, `coeff_bound_cst` lib/framework.cpp:1750-1767, `orthocst` lib/framework.cpp:1772-1793, `get_feautrier_schedule_constraints_dep` lib/framework.cpp:489-610, `get_feautrier_schedule_constraints` lib/framework.cpp:613-671, `get_coeff_bounding_constraints` lib/framework.cpp:937-993, `lcm` lib/math_support.c:391-395, `gcd` lib/math_support.c:398-410, `pluto_prog_constraints_lexmin` lib/pluto.c:275-431, `CST_WIDTH` lib/pluto.h:71, `DepDir` lib/pluto.h:79-85, `PlutoHypType` lib/pluto.h:87-93, `pluto_prog_get_largest_const_in_domains` lib/program.cpp:719-729

### C78 Printed bounds, extents and bounding boxes contain all points (partial)

* Plan: The text is modelled as a syntax tree with the meaning C gives it (`Spec/Extent`: the lower bound is printed behind a minus sign without parentheses, so only its first term is subtracted). `C78_bounds`: every point is between the bounds (projection is an oracle that keeps the projected points). `C78_bounds_exact` is the equivalence without other variables. Counting is by induction on the number of dimensions of the block (`block_count`). Partial: the text of extents is wrong for lower bounds with several terms, equalities with a negative coefficient fail an assertion, and empty parts of a union count as negative.
* Result: bounds proved, exact without other variables; extents and boxes under conditions on lower bounds; three violations shown
* Theorems: Props/Extent.lean: `C78_bounds`, `C78_bounds_exact`, `C78_extent_value_partial`, `C78_extent_partial`, `C78_extent_const_partial`; Props/ExtentBox.lean: `C78_box_partial`; Props/ExtentExamples.lean: `C78_violated_difference`, `C78_violated_equality`, `C78_violated_union`
* Code: `pluto_constraints_remove_dim` lib/constraints.c:1535-1561, `pluto_constraints_to_pure_inequalities_single` lib/constraints.c:1747-1783, `pluto_constraints_project_out_single` lib/constraints.c:1786-1814, `pluto_constraints_simplify` lib/constraints.c:378-474, `fourier_motzkin_eliminate` lib/constraints.c:485-581, `lcm` lib/math_support.c:391-395, `gcd` lib/math_support.c:398-410, `get_const_bound_difference` lib/program.cpp:1496-1581, `get_expr` lib/program.cpp:1588-1663, `get_func_of_expr` lib/program.cpp:1669-1700, `get_parametric_bounding_box` lib/program.cpp:1717-1740, `get_parametric_extent_const` lib/program.cpp:1748-1759, `get_lb_ub_expr` lib/program.cpp:1765-1814, `get_parametric_extent` lib/program.cpp:1821-1841

### C79 Tiling with diamond tiling keeps schedules legal (partial)

* Plan: `plutoTileDiamond` is the whole of `pluto_tile` with the call of `reschedule` (C42). `C79_rows`: the tiled rows with the evicted hyperplanes put back are, level by level, those of the schedules before eviction behind the tile loops. `C79_tile_partial`: with legal schedules `p`, and legal and permutable ones before eviction (`putBack p ev`), the result is legal and runs the same instances; pairs are ordered by the tile loops if in different tiles and else by the old schedules. `C79_violated`: the search does not guarantee the second hypothesis. `C79_parallel_partial`: loops found parallel after it are. `C79_one_to_one_partial`: different instances of a statement keep different times. `C52_post_diamond_partial` continues with the passes after it.
* Result: legality, exact instances, parallel loops and one-to-one times proved for the whole of pluto_tile if the schedules before eviction are legal and permutable, too; false otherwise (C79_violated), and the search does not guarantee it. C79_innerpar_partial: legality with --innerpar. Missing: bands with scalar levels.
* Theorems: Props/DiamondTile.lean: `C79_tile_partial`, `C79_parallel_partial`, `C79_one_to_one_partial`, `C79_rows`, `C79_violated`; Props/InnerParDiamond.lean: `C79_innerpar_partial`
* Code: `pluto_constraints_remove_dim` lib/constraints.c:1535-1561, `pluto_constraints_add_dim` lib/constraints.c:1601-1636, `pluto_constraints_add_lb` lib/constraints.c:1649-1659, `pluto_constraints_add_ub` lib/constraints.c:1662-1672, `pluto_constraints_set_var` lib/constraints.c:1675-1685, `pluto_constraints_to_pure_inequalities_single` lib/constraints.c:1747-1783, `pluto_constraints_interchange_cols` lib/constraints.c:1825-1839, `farkas_lemma_affine` lib/constraints.c:213-280, `pluto_constraints_best_elim_candidate` lib/constraints.c:2339-2375, `j` lib/constraints.c:2349-2367, `fourier_motzkin_eliminate_smart` lib/constraints.c:2470-2563, `pluto_constraints_gaussian_eliminate` lib/constraints.c:2565-2608, `pluto_constraints_add` lib/constraints.c:285-307, `pluto_constraints_simplify` lib/constraints.c:378-474, `fourier_motzkin_eliminate` lib/constraints.c:485-581, `dfs_vertex` lib/ddg.c:116-133, `dfs` lib/ddg.c:136-149, `dfs_for_scc` lib/ddg.c:173-212, `graph_transpose` lib/ddg.c:72-84, `dep_satisfaction_test` lib/framework.cpp:1000-1050, `pluto_dep_remove_satisfied_instances` lib/framework.cpp:1061-1112, `pluto_compute_dep_satisfaction_precise` lib/framework.cpp:1118-1171, `pluto_dep_satisfies_instance` lib/framework.cpp:1174-1221, `get_dep_direction` lib/framework.cpp:1225-1369, `pluto_add_hyperplane_from_ilp_solution` lib/framework.cpp:1416-1449, `get_face_with_concurrent_start` lib/framework.cpp:1467-1557, `CONSTRAINTS_SIMPLIFY_THRESHOLD` lib/framework.cpp:32, `get_permutability_constraints` lib/framework.cpp:348-485, `get_feautrier_schedule_constraints_dep` lib/framework.cpp:489-610, `get_feautrier_schedule_constraints` lib/framework.cpp:613-671, `compute_permutability_constraints_dep` lib/framework.cpp:62-272, `get_stmt_lin_ind_constraints` lib/framework.cpp:696-870, `h` lib/framework.cpp:728-749, `k` lib/framework.cpp:816-826, `get_non_trivial_sol_constraints` lib/framework.cpp:880-934, `get_coeff_bounding_constraints` lib/framework.cpp:937-993, `lcm` lib/math_support.c:391-395, `gcd` lib/math_support.c:398-410, `pluto_matrix_to_row_echelon` lib/math_support.c:454-484, `pluto_matrix_get_rank` lib/math_support.c:487-504, `pluto_matrix_remove_col` lib/math_support.c:63-74, `pluto_vector_is_parallel` lib/math_support.c:644-673, `pluto_vector_is_normal` lib/math_support.c:675-687, `pluto_compute_dep_directions` lib/pluto.c:1027-1041, `pluto_detect_hyperplane_types_stmtwise` lib/pluto.c:1043-1051, `pluto_dep_satisfaction_reset` lib/pluto.c:105-115, `pluto_detect_hyperplane_types` lib/pluto.c:1054-1065, `normalize_domains` lib/pluto.c:1138-1273, `pluto_compute_dep_satisfaction` lib/pluto.c:122-156, `denormalize_domains` lib/pluto.c:1277-1304, `find_cone_complement_hyperplane` lib/pluto.c:1314-1437, `lambda_cst` lib/pluto.c:1328-1380, `i` lib/pluto.c:1359-1377, `con_start_cst` lib/pluto.c:1382-1398, `is_concurrent_start_face` lib/pluto.c:1443-1451, `find_hyperplane_to_be_evicted` lib/pluto.c:1458-1466, `pluto_auto_transform` lib/pluto.c:1743-1747, `get_num_unsatisfied_inter_scc_deps` lib/pluto.c:1884-1900, `ddg_update` lib/pluto.c:1908-1927, `ddg_create` lib/pluto.c:1932-1947, `get_max_orig_dim_in_scc` lib/pluto.c:1952-1964, `pluto_update_deps` lib/pluto.c:2081-2129, `get_coeff_bounding_constraints_for_cone_complement` lib/pluto.c:210-241, `pluto_diamond_tile` lib/pluto.c:2152-2297, `pluto_prog_constraints_lexmin` lib/pluto.c:275-431, `ddg_sccs_direct_connected` lib/pluto.c:434-450, `cut_between_sccs` lib/pluto.c:453-496, `cut_all_sccs` lib/pluto.c:499-529, `cut_scc_dim_based` lib/pluto.c:541-589, `cut_smart` lib/pluto.c:592-624, `dep_satisfaction_update` lib/pluto.c:60-89, `cut_conservative` lib/pluto.c:628-652, `get_linear_ind_constraints` lib/pluto.c:664-733, `find_permutable_hyperplanes` lib/pluto.c:770-857, `deps_satisfaction_check` lib/pluto.c:92-103, `CST_WIDTH` lib/pluto.h:71, `DepDir` lib/pluto.h:79-85, `PlutoHypType` lib/pluto.h:87-93, `pluto_get_loops_under` lib/polyloop.c:117-230, `pluto_get_all_loops` lib/polyloop.c:232-236, `pluto_loop_has_satisfied_dep_with_component` lib/polyloop.c:242-277, `pluto_loop_is_parallel` lib/polyloop.c:279-314, `pluto_loop_is_parallel_for_stmt` lib/polyloop.c:321-353, `is_loop_dominated` lib/polyloop.c:400-420, `pluto_get_parallel_loops` lib/polyloop.c:609-630, `is_band_dominated` lib/polyloop.c:730-743, `pluto_is_depth_scalar` lib/polyloop.c:761-771, `pluto_get_permutable_band` lib/polyloop.c:775-826, `pluto_get_dominator_bands` lib/polyloop.c:883-904, `pluto_get_loops_immediately_inner` lib/polyloop.c:89-110, `pluto_get_outermost_permutable_bands` lib/polyloop.c:943-969, `pluto_loop_is_innermost` lib/polyloop.c:971-980, `pluto_is_band_innermost` lib/polyloop.c:985-997, `are_stmts_fused_in_band` lib/post_transform.c:291-316, `fuse_per_stmt_bands` lib/post_transform.c:321-401, `make_parallel_loop_innermost` lib/post_transform.c:406-441, `pluto_intra_tile_optimize_band` lib/post_transform.c:444-520, `pluto_stmt_add_dim` lib/program.cpp:1002-1084, `pluto_stmt_remove_dim` lib/program.cpp:1088-1145, `pluto_is_hyperplane_scalar` lib/program.cpp:1866-1875, `pluto_get_max_ind_hyps` lib/program.cpp:2127-2135, `pluto_stmt_get_num_ind_hyps` lib/program.cpp:2158-2170, `pluto_transformations_full_ranked` lib/program.cpp:2175-2184, `pluto_prog_get_largest_const_in_domains` lib/program.cpp:719-729, `pluto_tile_band` lib/tile.c:109-207, `pluto_tile` lib/tile.c:287-299, `pluto_tile_scattering_dims` lib/tile.c:330-380, `first` lib/tile.c:384-470, `pluto_create_tile_schedule_band` lib/tile.c:384-470, `pluto_create_tile_schedule` lib/tile.c:473-484, `pluto_diamond_tile_reschedule` lib/tile.c:85-105, `pluto_make_innermost_loop` lib/transforms.c:106-144, `pluto_sink_statement` lib/transforms.c:23-33, `pluto_stmt_loop_interchange` lib/transforms.c:60-66

### C80 --lpcolor: hyperplanes and marks of strongly connected components (partial)

* Plan: `markSystem` is the system built by `mark_parallel_sccs` for a component, `markParallelSccs` its loop, with the state of all marks; `lp` is an argument (`LpSolver`: any solution, `FcgLpOptimal` where the objective matters; `lpOptimal_exists` by Fourier-Motzkin). `SccHyp`, `ParallelHyp`, `MarkOK` (Spec/LpColour.lean) say what a hyperplane for a component and a correct mark are. `C80_feasible_partial`: solutions of the system are hyperplanes. `C80_marks_partial`: all marks are correct if no component needs the precise test; `C80_step_partial`: with it, that of the current component is; `C80_reset_partial`, `C80_violated_reset`: those of the others are lost. `C80_colour_sound`; `C80_colour_complete_partial` up to loops with coefficient 0, `C80_violated_colour`. Not claimed: that a component with a parallel hyperplane is marked so (the objective is a weighted sum).
* Result: soundness of the systems, marks and colouring proved. Missing: dependences whose padding columns clash (C76_violated_padding); the marks after a precise satisfaction test and the completeness of colouring are false in the code (C80_violated_reset, C80_violated_colour).
* Theorems: Props/LpColour.lean: `C80_feasible_partial`, `C80_marks_partial`, `C80_step_partial`, `C80_reset_partial`, `C80_colour_sound`, `C80_colour_complete_partial`, `C80_violated_colour`, `C80_violated_reset`
* Code: `pluto_constraints_remove_dim` lib/constraints.c:1535-1561, `pluto_constraints_add_lb` lib/constraints.c:1649-1659, `pluto_constraints_add_ub` lib/constraints.c:1662-1672, `pluto_constraints_to_pure_inequalities_single` lib/constraints.c:1747-1783, `farkas_lemma_affine` lib/constraints.c:213-280, `pluto_constraints_best_elim_candidate` lib/constraints.c:2339-2375, `j` lib/constraints.c:2349-2367, `fourier_motzkin_eliminate_smart` lib/constraints.c:2470-2563, `pluto_constraints_gaussian_eliminate` lib/constraints.c:2565-2608, `pluto_constraints_add` lib/constraints.c:285-307, `pluto_constraints_simplify` lib/constraints.c:378-474, `dfs_vertex` lib/ddg.c:116-133, `dfs` lib/ddg.c:136-149, `dfs_for_scc` lib/ddg.c:173-212, `is_adjacent` lib/ddg.c:216-221, `compute_scc_vertices` lib/ddg.c:223-240, `graph_transpose` lib/ddg.c:72-84, `is_lp_solution_parallel` lib/framework-dfp.c:106-114, `is_valid_colour` lib/framework-dfp.c:1260-1277, `is_discarded` lib/framework-dfp.c:1282-1288, `get_next_min_vertex` lib/framework-dfp.c:1295-1320, `mark_parallel_sccs` lib/framework-dfp.c:130-191, `colour_scc` lib/framework-dfp.c:1448-1586, `dfp_get_scc_ortho_constraints` lib/framework-dfp.c:53-90, `pluto_dep_remove_satisfied_instances` lib/framework.cpp:1061-1112, `pluto_compute_dep_satisfaction_precise` lib/framework.cpp:1118-1171, `pluto_dep_satisfies_instance` lib/framework.cpp:1174-1221, `get_scc_permutability_constraints` lib/framework.cpp:283-318, `compute_permutability_constraints_dep` lib/framework.cpp:62-272, `get_coeff_bounding_constraints` lib/framework.cpp:937-993, `lcm` lib/math_support.c:391-395, `gcd` lib/math_support.c:398-410, `pluto_auto_transform` lib/pluto.c:1492-1850, `ddg_update` lib/pluto.c:1908-1927, `construct_cplex_objective` lib/pluto.c:243-267, `CST_WIDTH` lib/pluto.h:71, `DepDir` lib/pluto.h:79-85, `PlutoHypType` lib/pluto.h:87-93, `pluto_prog_get_largest_const_in_domains` lib/program.cpp:719-729

### C81 Printed transformations and tile space loops (partial)

* Plan: `printAff`, `sprintAff` print into lists of characters (the second into a buffer of the size the code allocates; writing past it gives `none`); `readPlain`, `readText` (Spec/Print.lean) are a reader for such texts that knows nothing of the model. `C81_print`, `C81_print_injective`: the text means the row and determines it; `C81_sprint_partial`, `C81_violated_sprint`: names and constants are cut. `C81_supernode`: recognised tile dimensions are tile dimensions (`IsTileDim`); `C81_recognised_partial`: the converse for plain tile rows. `C81_hyperplane_partial`, `C81_violated_hyperplane`, `C81_bee_partial`, `C81_violated_bee`. `C81_tileloop_partial`, and four ways in which `is_tile_space_loop` goes wrong (`C81_violated_tileloop`, `_level2`, `_shift`, `_range`); `getUnrollJamLoops` is `pluto_get_unroll_jam_loops` with all tests, connected to C54 by `C81_unroll_jam`, `C81_unroll_jam_legal_partial`.
* Result: Printed affine functions mean their rows (proved); printing into a buffer, tile functions, --bee and the tile loop test go wrong in the cases shown by the C81_violated theorems, and are proved outside them.
* Theorems: Props/Print.lean: `C81_print`, `C81_print_total`, `C81_print_injective`, `C81_sprint_partial`, `C81_violated_sprint`, `C81_supernode`, `C81_recognised_partial`, `C81_hyperplane_partial`, `C81_violated_hyperplane`, `C81_bee_partial`, `C81_violated_bee`; Props/TileLoop.lean: `C81_tileloop_partial`, `C81_unroll_jam`, `C81_unroll_jam_legal_partial`, `C81_violated_tileloop`, `C81_violated_level2`, `C81_violated_shift`, `C81_violated_range`
* Code: `pluto_constraints_add_dim` lib/constraints.c:1601-1636, `pluto_constraints_add` lib/constraints.c:285-307, `dep_satisfaction_test` lib/framework.cpp:1000-1050, `get_dep_direction` lib/framework.cpp:1225-1369, `pluto_matrix_add_col` lib/math_support.c:117-138, `pluto_matrix_negate_row` lib/math_support.c:141-147, `pluto_matrix_interchange_cols` lib/math_support.c:206-214, `pluto_matrix_move_col` lib/math_support.c:217-229, `lcm` lib/math_support.c:391-395, `gcd` lib/math_support.c:398-410, `pluto_matrix_product` lib/math_support.c:433-451, `pluto_affine_function_print` lib/math_support.c:547-563, `pluto_affine_function_sprint` lib/math_support.c:604-622, `pluto_compute_dep_directions` lib/pluto.c:1027-1041, `pluto_detect_hyperplane_types_stmtwise` lib/pluto.c:1043-1051, `pluto_dep_satisfaction_reset` lib/pluto.c:105-115, `pluto_detect_hyperplane_types` lib/pluto.c:1054-1065, `pluto_compute_dep_satisfaction` lib/pluto.c:122-156, `pluto_update_deps` lib/pluto.c:2081-2129, `dep_satisfaction_update` lib/pluto.c:60-89, `DepDir` lib/pluto.h:79-85, `PlutoHypType` lib/pluto.h:87-93, `pluto_get_innermost_permutable_bands` lib/polyloop.c:1019-1047, `pluto_get_loops_under` lib/polyloop.c:117-230, `pluto_get_all_loops` lib/polyloop.c:232-236, `NUM_TOTAL_REGISTERS` lib/polyloop.c:27, `pluto_loop_is_parallel` lib/polyloop.c:279-314, `is_loop_dominated` lib/polyloop.c:400-420, `get_max_dim` lib/polyloop.c:480-488, `get_max_num_innermost_invariant_accesses` lib/polyloop.c:490-516, `get_max_num_innermost_accesses` lib/polyloop.c:519-547, `is_unroll_jam_profitable` lib/polyloop.c:553-573, `pluto_get_unroll_jam_loops` lib/polyloop.c:576-606, `pluto_get_parallel_loops` lib/polyloop.c:609-630, `is_band_dominated` lib/polyloop.c:730-743, `pluto_is_depth_scalar` lib/polyloop.c:761-771, `pluto_get_permutable_band` lib/polyloop.c:775-826, `pluto_get_dominator_bands` lib/polyloop.c:883-904, `pluto_get_outermost_permutable_bands` lib/polyloop.c:943-969, `pluto_loop_is_innermost` lib/polyloop.c:971-980, `pluto_is_band_innermost` lib/polyloop.c:985-997, `are_stmts_fused_in_band` lib/post_transform.c:291-316, `fuse_per_stmt_bands` lib/post_transform.c:321-401, `make_parallel_loop_innermost` lib/post_transform.c:406-441, `pluto_intra_tile_optimize_band` lib/post_transform.c:444-520, `pluto_stmt_add_dim` lib/program.cpp:1002-1084, `pluto_check_supernode` lib/program.cpp:175-219, `pluto_is_hyperplane_scalar` lib/program.cpp:1866-1875, `pluto_stmt_get_remapping` lib/program.cpp:1883-1981, `i` lib/program.cpp:1937-1947, `pluto_get_new_access_func` lib/program.cpp:1991-2027, `is_tile_space_loop` lib/program.cpp:222-231, `is_skewed` lib/program.cpp:233-244, `pluto_create_new_access` lib/program.cpp:2368-2375, `insert_access_if_unique` lib/program.cpp:2398-2407, `get_unique_accesses_in_stmts` lib/program.cpp:2412-2441, `get_num_unique_accesses_in_stmts` lib/program.cpp:2461-2471, `is_access_invariant` lib/program.cpp:2477-2483, `get_num_invariant_accesses_in_stmts` lib/program.cpp:2487-2502, `pluto_stmt_print_hyperplane` lib/program.cpp:249-304, `pluto_tile_band` lib/tile.c:109-207, `pluto_tile` lib/tile.c:214-326, `pluto_tile_scattering_dims` lib/tile.c:330-380, `first` lib/tile.c:384-470, `pluto_create_tile_schedule_band` lib/tile.c:384-470, `pluto_create_tile_schedule` lib/tile.c:473-484, `pluto_make_innermost_loop` lib/transforms.c:106-144, `pluto_stmt_loop_interchange` lib/transforms.c:60-66

### C82 Printed constraint systems and the PIP solver (partial)

* Plan: `prettyPrint`, `compactPrint`, `cplexPrint` print into lists of characters; `systemHolds`, `unionHolds` (Spec/PrintCst.lean) read such texts (lines, relations, sums of terms) without knowing the model. `C82_pretty_partial`, `C82_compact_partial`, `C82_cplex_partial`: for names that fit the buffers of five characters and differ, the text holds for a point exactly when the point is in the system. `C82_violated_names`, `C82_violated_many`, `C82_violated_cplex`, `C82_violated_columns`: longer names, 256 columns and more, false rows without coefficients. PIP is an oracle on its own matrix format (`PipOracle`; `exists_pipOracle`): `C82_pip_matrix`, `C82_pip_lexmin`, `C82_pip_signed`, `C82_lexmin` (the `LexminOracle` that the other theorems assume).
* Result: PIP part proved in full. Texts: proved for different names of at most five characters, fewer than 256 columns and (cplex) no false row without coefficients; the code violates the claim otherwise (C82_violated_names, _many, _cplex, _columns).
* Theorems: Props/Pip.lean: `C82_pip_matrix`, `C82_pip_lexmin`, `C82_pip_signed`, `C82_lexmin`; Props/PrintCst.lean: `C82_pretty_partial`, `C82_compact_partial`, `C82_cplex_partial`, `C82_violated_names`, `C82_violated_many`, `C82_violated_cplex`, `C82_violated_columns`
* Code: `pluto_constraints_to_pip_matrix` lib/constraints.c:1002-1017, `pluto_constraints_lexmin_pip` lib/constraints.c:1021-1083, `pluto_constraints_lexmin` lib/constraints.c:1087-1092, `pip_matrix_populate` lib/constraints.c:1688-1702, `pluto_constraints_compact_print_single` lib/constraints.c:844-880, `pluto_constraints_pretty_print` lib/constraints.c:928-941, `pluto_constraints_cplex_print` lib/constraints.c:964-996

### C83 Hyperplane coefficients from Gurobi (partial)

* Plan: `lexminGurobi`, `progLexminGurobi`, `fcgLexminGurobi`; Gurobi is the same kind of oracle as GLPK (`LpPoints`, `IlpOptimal`, `MipPoints`, `LpSolver`). The proofs compare with the model for GLPK (C66): the coefficients agree (`gurobi_lp_eq`). `C83_scaled_partial`, `C83_legal_partial`, `C83_ilp_partial` (also with --dfp, where GLPK crashes), `C83_fcg_partial` hold for systems without false rows that have no coefficients (`NoFalseRow`); `C83_violated_rows`, `C83_violated_fcg`: such rows are dropped and an infeasible system is reported as solved. `C83_never_parallel`, `C83_violated_parallel`, `C83_violated_bound`: with --lp the bound coefficients are replaced by the scaling factor.
* Result: Coefficients: proved for systems without false rows that lack coefficients and (dependences) consecutive components; bound coefficients with --lp are wrong. The code violates the rest (C83_violated_rows, _fcg, _parallel, _bound).
* Theorems: Props/Gurobi.lean: `C83_scaled_partial`, `C83_legal_partial`, `C83_ilp_partial`, `C83_fcg_partial`, `C83_violated_rows`, `C83_violated_fcg`, `C83_never_parallel`, `C83_violated_parallel`, `C83_violated_bound`
* Code: `get_scaling_lp_glpk` lib/constraints.c:1269-1317, `max_scale_factor` lib/constraints.c:1328-1415, `pluto_prog_constraints_lexmin_glpk` lib/constraints.c:1328-1415, `pluto_constraints_remove_dim` lib/constraints.c:1535-1561, `pluto_constraints_to_pure_inequalities_single` lib/constraints.c:1747-1783, `pluto_constraints_interchange_cols` lib/constraints.c:1825-1839, `farkas_lemma_affine` lib/constraints.c:213-280, `pluto_constraints_best_elim_candidate` lib/constraints.c:2339-2375, `j` lib/constraints.c:2349-2367, `fourier_motzkin_eliminate_smart` lib/constraints.c:2470-2563, `pluto_constraints_gaussian_eliminate` lib/constraints.c:2565-2608, `pluto_constraints_add` lib/constraints.c:285-307, `pluto_constraints_simplify` lib/constraints.c:378-474, `dfs_vertex` lib/ddg.c:116-133, `get_undirected_graph` lib/ddg.c:88-100, `is_ilp_solution_parallel` lib/framework-dfp.c:118-126, `populate_scaling_csr_matrices_for_pluto_program` lib/framework.cpp:1374-1413, `CONSTRAINTS_SIMPLIFY_THRESHOLD` lib/framework.cpp:32, `get_permutability_constraints` lib/framework.cpp:348-485, `compute_permutability_constraints_dep` lib/framework.cpp:62-272, `get_scaling_lp_gurobi` lib/gurobi-plugin.c:225-270, `get_max_scale_factor` lib/gurobi-plugin.c:276-285, `pluto_prog_constraints_lexmin_gurobi` lib/gurobi-plugin.c:290-384, `pluto_fcg_constraints_lexmin_gurobi` lib/gurobi-plugin.c:389-433, `set_gurobi_constraints_from_pluto_constraints` lib/gurobi-plugin.c:54-87, `lcm` lib/math_support.c:391-395, `gcd` lib/math_support.c:398-410, `ddg_create` lib/pluto.c:1932-1947, `ddg_compute_cc` lib/pluto.c:1983-2015, `construct_cplex_objective` lib/pluto.c:243-267, `pluto_prog_constraints_lexmin` lib/pluto.c:275-431, `CST_WIDTH` lib/pluto.h:71

### C84 Command line options (partial)

* Plan: `cmdline` (the option table as a fold over flags, then the checks of `main`), `solverUsed` (the dispatch in `pluto_prog_constraints_lexmin`), `outFile`, `cloogFile`. `C84_asked`: every option is what the flags ask for (`AsAsked`, the last of contradicting flags). `C84_options_partial`: accepted options satisfy `OptsConsistent` for every build and flag list. `C84_solver_partial`: the solver called is `wantedSolver`, if GLPK is built in, or Gurobi is asked for, or no LP solver is needed. `C84_violated_solver`, `C84_violated_cluster`, `C84_violated_lastwriter`, `C84_violated_refused`, `C84_violated_ilp` for the rest. `C84_cloog_file`, `C84_out_file`, `C84_out_name`: file names.
* Result: proved for all builds and flag lists: accepted options fit together, and the solver asked for is called unless Gurobi is the only LP solver built in and is not asked for; five disagreements proved
* Theorems: Props/Cmdline.lean: `C84_options_partial`, `C84_solver_partial`, `C84_violated_solver`, `C84_violated_cluster`, `C84_violated_lastwriter`, `C84_violated_refused`, `C84_violated_ilp`, `C84_cloog_file`, `C84_out_file`, `C84_out_name`; Props/CmdlineFlags.lean: `C84_asked`
* Code: `pluto_prog_constraints_lexmin` lib/pluto.c:341-395, `pluto_options_alloc` lib/program.cpp:834-940, `pluto_options` tool/main.cpp:196-275

### C85 Tile volume (partial)

* Plan: `independentRows`, `footprint`, `volumePoly`, `solvePoly` (doubles as exact numbers; reuse counts are natural numbers, see C69). `C85_footprint_partial`: for subscripts that are one loop each, all different, coefficient and degree are the number of elements of `tileElems`. `C85_volume`: the polynomial is the sum of the footprints less the cache. `C85_root_partial`, `C85_fits_partial`: up to degree 2 the root is the largest number for which all elements fit. `C85_high_partial`: above, only the leading term fits. `C85_violated_rows`, `C85_violated_parallel`, `C85_violated_negative`, `C85_violated_twice`, `C85_violated_empty`, `C85_violated_zero`, `C85_violated_assert`, `C85_violated_high` for the rest. `reuseRoot` is an instance of the `root` of C70. For a band: `C85_band_partial`.
* Result: proved for subscripts of one loop each and up to degree 2: the polynomial counts the elements a tile touches, and its root gives the largest tiles that fit; eight disagreements proved
* Theorems: Props/Footprint.lean: `C85_footprint_partial`, `C85_volume`, `C85_root_partial`, `C85_high_partial`, `C85_fits_partial`, `C85_rows_partial`, `C85_violated_rows`, `C85_violated_parallel`, `C85_violated_negative`, `C85_violated_twice`, `C85_violated_empty`, `C85_violated_zero`, `C85_violated_assert`, `C85_violated_high`; Props/FootprintBand.lean: `C85_band_partial`
* Code: `pluto_matrix_add_col` lib/math_support.c:117-138, `pluto_matrix_negate_row` lib/math_support.c:141-147, `pluto_matrix_interchange_cols` lib/math_support.c:206-214, `pluto_matrix_move_col` lib/math_support.c:217-229, `lcm` lib/math_support.c:391-395, `gcd` lib/math_support.c:398-410, `pluto_matrix_product` lib/math_support.c:433-451, `pluto_matrix_to_row_echelon` lib/math_support.c:454-484, `pluto_matrix_get_rank` lib/math_support.c:487-504, `PlutoHypType` lib/pluto.h:87-93, `pluto_get_loops_under` lib/polyloop.c:117-230, `pluto_is_hyperplane_scalar` lib/program.cpp:1866-1875, `pluto_stmt_get_remapping` lib/program.cpp:1883-1981, `i` lib/program.cpp:1937-1947, `pluto_get_new_access_func` lib/program.cpp:1991-2027, `pluto_create_new_access` lib/program.cpp:2368-2375, `insert_access_if_unique` lib/program.cpp:2398-2407, `get_unique_accesses_in_stmts` lib/program.cpp:2412-2441, `solve_reuse_expression` lib/tile_size_selection_model.cpp:113-130, `get_linearly_independent_rows_in_mat` lib/tile_size_selection_model.cpp:217-232, `compute_tile_footprint_coefficient_for_access` lib/tile_size_selection_model.cpp:267-301, `construct_expression_for_tile_volume` lib/tile_size_selection_model.cpp:335-407, `solve_quadratic_equation` lib/tile_size_selection_model.cpp:77-89

### C86 Fusion options (partial)

* Plan: `autoTransform`, `autoTransformFiles`, `noFuseCut`, `initCut` (C10, C72). Specification: `Prog.Mutual`, `Prog.NestDepth`, `Prog.SplitBy` in Verif/Spec/Fusion.lean, in terms of dependences and timestamps only. `C86_nofuse_partial`: constants at the outermost level, equal exactly for mutually dependent statements, in dependence order. `C86_nofuse_fst_partial`, `C86_nofuse_precut_partial`: separation at the level after those of a `.fst` or `.precut` file. `C86_smart_partial`: constants that differ for nests of different depth, if some dependence goes between two such nests; `C86_violated_smart_independent` if none does. The components come from C14, their first row stays because the main loop only appends rows (`keepsRows_moves`). Without diamond tiling.
* Result: --nofuse (with and without .fst or .precut files) and --smartfuse with a dependence between nests of different depth, without diamond tiling; the code fuses independent nests of different depth (C86_violated_smart_independent)
* Theorems: Props/Fusion.lean: `C86_nofuse_partial`, `C86_smart_partial`, `C86_violated_smart_independent`; Props/FusionFiles.lean: `C86_nofuse_fst_partial`, `C86_nofuse_precut_partial`
* Code: `pluto_constraints_remove_dim` lib/constraints.c:1535-1561, `pluto_constraints_add_dim` lib/constraints.c:1601-1636, `pluto_constraints_add_lb` lib/constraints.c:1649-1659, `pluto_constraints_add_ub` lib/constraints.c:1662-1672, `pluto_constraints_set_var` lib/constraints.c:1675-1685, `pluto_constraints_to_pure_inequalities_single` lib/constraints.c:1747-1783, `pluto_constraints_interchange_cols` lib/constraints.c:1825-1839, `farkas_lemma_affine` lib/constraints.c:213-280, `pluto_constraints_best_elim_candidate` lib/constraints.c:2339-2375, `j` lib/constraints.c:2349-2367, `fourier_motzkin_eliminate_smart` lib/constraints.c:2470-2563, `pluto_constraints_gaussian_eliminate` lib/constraints.c:2565-2608, `pluto_constraints_add` lib/constraints.c:285-307, `pluto_constraints_simplify` lib/constraints.c:378-474, `fourier_motzkin_eliminate` lib/constraints.c:485-581, `dfs_vertex` lib/ddg.c:116-133, `dfs` lib/ddg.c:136-149, `dfs_for_scc` lib/ddg.c:173-212, `graph_transpose` lib/ddg.c:72-84, `dep_satisfaction_test` lib/framework.cpp:1000-1050, `pluto_dep_remove_satisfied_instances` lib/framework.cpp:1061-1112, `pluto_compute_dep_satisfaction_precise` lib/framework.cpp:1118-1171, `pluto_dep_satisfies_instance` lib/framework.cpp:1174-1221, `pluto_add_hyperplane_from_ilp_solution` lib/framework.cpp:1416-1449, `CONSTRAINTS_SIMPLIFY_THRESHOLD` lib/framework.cpp:32, `get_permutability_constraints` lib/framework.cpp:348-485, `compute_permutability_constraints_dep` lib/framework.cpp:62-272, `get_stmt_lin_ind_constraints` lib/framework.cpp:696-870, `h` lib/framework.cpp:728-749, `k` lib/framework.cpp:816-826, `get_non_trivial_sol_constraints` lib/framework.cpp:880-934, `get_coeff_bounding_constraints` lib/framework.cpp:937-993, `lcm` lib/math_support.c:391-395, `gcd` lib/math_support.c:398-410, `pluto_matrix_to_row_echelon` lib/math_support.c:454-484, `pluto_matrix_get_rank` lib/math_support.c:487-504, `pluto_matrix_remove_col` lib/math_support.c:63-74, `normalize_domains` lib/pluto.c:1138-1273, `denormalize_domains` lib/pluto.c:1277-1304, `pluto_auto_transform` lib/pluto.c:1492-1850, `get_num_unsatisfied_inter_scc_deps` lib/pluto.c:1884-1900, `ddg_update` lib/pluto.c:1908-1927, `ddg_create` lib/pluto.c:1932-1947, `get_max_orig_dim_in_scc` lib/pluto.c:1952-1964, `pluto_prog_constraints_lexmin` lib/pluto.c:275-431, `ddg_sccs_direct_connected` lib/pluto.c:434-450, `cut_between_sccs` lib/pluto.c:453-496, `cut_all_sccs` lib/pluto.c:499-529, `cut_scc_dim_based` lib/pluto.c:541-589, `cut_smart` lib/pluto.c:592-624, `dep_satisfaction_update` lib/pluto.c:60-89, `cut_conservative` lib/pluto.c:628-652, `get_linear_ind_constraints` lib/pluto.c:664-733, `find_permutable_hyperplanes` lib/pluto.c:770-857, `get_loop_type` lib/pluto.c:863-871, `precut` lib/pluto.c:874-1025, `deps_satisfaction_check` lib/pluto.c:92-103, `i` lib/pluto.c:924-932, `CST_WIDTH` lib/pluto.h:71, `DepDir` lib/pluto.h:79-85, `PlutoHypType` lib/pluto.h:87-93, `pluto_stmt_add_dim` lib/program.cpp:1002-1084, `pluto_stmt_remove_dim` lib/program.cpp:1088-1145, `pluto_get_max_ind_hyps` lib/program.cpp:2127-2135, `pluto_stmt_get_num_ind_hyps` lib/program.cpp:2158-2170, `pluto_transformations_full_ranked` lib/program.cpp:2175-2184, `pluto_prog_get_largest_const_in_domains` lib/program.cpp:719-729, `pluto_sink_statement` lib/transforms.c:23-33

### C87 The automatic transformation ends (partial)

* Plan: `autoLoop`, `autoStep` (C10) with any bound on the number of iterations. Specification: `ComesTo`, `EmptyHanded`, `Prog.loopsAndDeps` in Verif/Spec/Terminate.lean. `C87_terminates_partial`: with `loopsAndDeps + 2` iterations the bound is never reached, unless the loop comes to a state in LAZY mode where all dependences are satisfied, some statement lacks a loop, and no hyperplane is found. Measure (Lemmas/Terminate*.lean): missing rank of all statements plus unsatisfied dependences; a hyperplane found lowers the rank missing (C37), a cut satisfies a dependence between different components (`fuseCut_lt`), and the mode changes once. `C87_violated`: with `coeff_bound` 0 the loop does not end, for every solver. Dependences without instances are excluded (they are satisfied by no row). Without diamond tiling.
* Result: ends within loops + dependences + 2 iterations unless the search comes back empty-handed in LAZY mode with all dependences satisfied; C87_violated: that happens with coeff_bound 0
* Theorems: Props/Terminate.lean: `C87_terminates_partial`, `C87_violated`
* Code: `pluto_constraints_remove_dim` lib/constraints.c:1535-1561, `pluto_constraints_add_dim` lib/constraints.c:1601-1636, `pluto_constraints_add_lb` lib/constraints.c:1649-1659, `pluto_constraints_add_ub` lib/constraints.c:1662-1672, `pluto_constraints_set_var` lib/constraints.c:1675-1685, `pluto_constraints_to_pure_inequalities_single` lib/constraints.c:1747-1783, `pluto_constraints_interchange_cols` lib/constraints.c:1825-1839, `farkas_lemma_affine` lib/constraints.c:213-280, `pluto_constraints_best_elim_candidate` lib/constraints.c:2339-2375, `j` lib/constraints.c:2349-2367, `fourier_motzkin_eliminate_smart` lib/constraints.c:2470-2563, `pluto_constraints_gaussian_eliminate` lib/constraints.c:2565-2608, `pluto_constraints_add` lib/constraints.c:285-307, `pluto_constraints_simplify` lib/constraints.c:378-474, `fourier_motzkin_eliminate` lib/constraints.c:485-581, `dfs_vertex` lib/ddg.c:116-133, `dfs` lib/ddg.c:136-149, `dfs_for_scc` lib/ddg.c:173-212, `graph_transpose` lib/ddg.c:72-84, `dep_satisfaction_test` lib/framework.cpp:1000-1050, `pluto_dep_remove_satisfied_instances` lib/framework.cpp:1061-1112, `pluto_compute_dep_satisfaction_precise` lib/framework.cpp:1118-1171, `pluto_dep_satisfies_instance` lib/framework.cpp:1174-1221, `pluto_add_hyperplane_from_ilp_solution` lib/framework.cpp:1416-1449, `CONSTRAINTS_SIMPLIFY_THRESHOLD` lib/framework.cpp:32, `get_permutability_constraints` lib/framework.cpp:348-485, `compute_permutability_constraints_dep` lib/framework.cpp:62-272, `get_stmt_lin_ind_constraints` lib/framework.cpp:696-870, `h` lib/framework.cpp:728-749, `k` lib/framework.cpp:816-826, `get_non_trivial_sol_constraints` lib/framework.cpp:880-934, `get_coeff_bounding_constraints` lib/framework.cpp:937-993, `lcm` lib/math_support.c:391-395, `gcd` lib/math_support.c:398-410, `pluto_matrix_to_row_echelon` lib/math_support.c:454-484, `pluto_matrix_get_rank` lib/math_support.c:487-504, `pluto_matrix_remove_col` lib/math_support.c:63-74, `normalize_domains` lib/pluto.c:1138-1273, `denormalize_domains` lib/pluto.c:1277-1304, `pluto_auto_transform` lib/pluto.c:1492-1850, `get_num_unsatisfied_inter_scc_deps` lib/pluto.c:1884-1900, `ddg_update` lib/pluto.c:1908-1927, `ddg_create` lib/pluto.c:1932-1947, `get_max_orig_dim_in_scc` lib/pluto.c:1952-1964, `pluto_prog_constraints_lexmin` lib/pluto.c:275-431, `ddg_sccs_direct_connected` lib/pluto.c:434-450, `cut_between_sccs` lib/pluto.c:453-496, `cut_all_sccs` lib/pluto.c:499-529, `cut_scc_dim_based` lib/pluto.c:541-589, `cut_smart` lib/pluto.c:592-624, `dep_satisfaction_update` lib/pluto.c:60-89, `cut_conservative` lib/pluto.c:628-652, `get_linear_ind_constraints` lib/pluto.c:664-733, `find_permutable_hyperplanes` lib/pluto.c:770-857, `deps_satisfaction_check` lib/pluto.c:92-103, `CST_WIDTH` lib/pluto.h:71, `DepDir` lib/pluto.h:79-85, `PlutoHypType` lib/pluto.h:87-93, `pluto_stmt_add_dim` lib/program.cpp:1002-1084, `pluto_stmt_remove_dim` lib/program.cpp:1088-1145, `pluto_get_max_ind_hyps` lib/program.cpp:2127-2135, `pluto_stmt_get_num_ind_hyps` lib/program.cpp:2158-2170, `pluto_transformations_full_ranked` lib/program.cpp:2175-2184, `pluto_prog_get_largest_const_in_domains` lib/program.cpp:719-729, `pluto_sink_statement` lib/transforms.c:23-33

### C88 Set operations through PolyLib (proved)

* Plan: `toPolylib`, `ofPolylib` (conversion row by row, list by list), the operations, `polyCopyList` (`pluto_constraints_copy` on lists), `areEqual`, `isEmptyIsl` in Model/Polylib.lean. PolyLib is an argument with its contract on integer points (`PolyLib.OK`, Verif/Spec/Polylib.lean), met by `exPolyLib` (`exPolyLib_ok`). `C88_union`, `C88_intersection`, `C88_difference` (result and in-place version), `C88_is_empty_isl`, `C88_are_equal`. Not modelled: the limit of 50 rays, names, `pluto_matrix_inverse` (no caller). `pluto_constraints_image` is the argument `proj` of C30.
* Result: for every PolyLib that meets its contract on integer points
* Theorems: Props/Polylib.lean: `C88_union`, `C88_intersection`, `C88_difference`, `C88_is_empty_isl`, `C88_are_equal`
* Code: `pluto_constraints_unionize` lib/constraints.c:1873-1879, `pluto_constraints_is_empty` lib/constraints.c:1903-1927, `pluto_constraints_copy` lib/constraints.c:585-601, `pluto_constraints_to_matrix` lib/constraints.c:721-733, `pluto_constraints_union` tool/constraints_polylib.c:110-122, `pluto_constraints_difference` tool/constraints_polylib.c:124-138, `pluto_constraints_intersection` tool/constraints_polylib.c:140-153, `pluto_constraints_intersect` tool/constraints_polylib.c:156-164, `polylib_matrix_to_pluto_constraints` tool/constraints_polylib.c:168-184, `pluto_constraints_subtract` tool/constraints_polylib.c:208-215, `pluto_constraints_are_equal` tool/constraints_polylib.c:217-229, `pluto_constraints_to_polylib` tool/constraints_polylib.c:52-71, `polylib_to_pluto_constraints` tool/constraints_polylib.c:73-84

### C89 Names stay with their variables (partial)

* Plan: Model/Names.lean: the array `names` as a list of slots (never written, null, address) and the strings in memory; freeing, reading or writing anything outside the array or freed is `none`. `Named` (Verif/Spec/Names.lean) says that the slots carry a list of names, each in its own string, and that the memory holds nothing else but `rest`. `C89_add`, `C89_remove_partial`, `C89_set_names`, `C89_set_range`, `C89_set_range_unnamed`, `C89_copy_partial`, `C89_unnamed`, `C89_library_partial`; Model/NamesDep.lean: the names of a dependence, those of the target iterators primed (`C89_dep_names`). The full claim fails: `C89_violated_remove` (a variable without a name behind the one removed), `C89_violated_copy` (destination with fewer columns than the source and room for it), `C89_violated_library` (statement without loops). Not modelled: the loop over `next` and `malloc` failing; `realloc` to size 0 returns null as in glibc.
* Result: Adding a variable, setting names and ranges of names are proved in full; removing, copying and the library under the conditions stated, since the code violates the claim otherwise (C89_violated_remove, C89_violated_copy, C89_violated_library).
* Theorems: Props/Names.lean: `C89_add`, `C89_remove_partial`, `C89_set_names`; Props/NamesCopy.lean: `C89_set_range`, `C89_set_range_unnamed`, `C89_copy_partial`, `C89_unnamed`, `C89_library_partial`, `C89_violated_library`, `C89_violated_copy`; Props/NamesDep.lean: `C89_dep_names`; Props/NamesEx.lean: `C89_violated_remove`

## Where the code and the property disagree

Proved (each has a theorem with a concrete witness, plus `_partial` theorems for what holds):

| code | disagreement | theorem |
|---|---|---|
| `pluto_matrix_get_rank` | elimination stops early when there are more columns than rows; rank too large | `C25_violated` |
| `compute_transitive_closure` | loop order is wrong, longer paths are missed | `C17_violated` |
| `ddg_compute_cc` | the id of an already visited vertex is overwritten | `C16_violated` |
| `pluto_constraints_negate_constraint` | complement only when the constant is 0 | `C29_violated` |
| `pluto_constraints_get_const_lb/ub` | non-unit coefficients, equalities, INT_MIN | `C30_violated_eq`, `C30_violated_coeff`, `C30_violated_int_min` |
| `get_const_bound_difference` | not the extent in general | `C31_violated` |
| `pluto_matrix_interchange_cols` | `int` temporary truncates 64-bit entries | `C45_interchange_cols_int_violated` |
| `gcd`/`lcm` | product overflows | `C01_gcd64_overflow_witness`, `C01_lcm64` |
| print/read of constraint systems | counts written for a union do not read back | `C26_violated_union`, `C26_violated_sequence` |
| `pluto_stripmine` | keeps only iterations whose schedule value is a multiple of the factor | `C44_violated` |
| `pluto_update_deps_after_iss` | all dependences freed but still referenced when none has a pair | `C24_violated` |
| `pluto_remove_stmt` | dependences of the removed statement stay | `C40_violated` |
| `pluto_stmt_remove_dim` | bounding polyhedra keep their columns | `C32_violated` |
| `isl_val_get_num_ll` | saturation has the wrong sign | `C36_violated` |
| `pluto_constraints_add_to_each` | resize of a full list element | `C46_violated_add_to_each` |
| `extract_basic_set` and `isl_set_to_pluto_constraints` | loses pieces of a union | `C46_violated_extract` |
| tile size rounding | wraps around at the top of the range | `C43_violated` |
| tiling of a union domain | tile rows filled only in the first piece | `C48_violated` |
| `pluto_get_loops_under`/outermost loops | a loop is shared across a level that mixes scalar and loop rows | `C34_violated` |
| `pluto_tile` | bands with mixed scalar and loop rows are tiled illegally | `C19_violated` |
| permutable bands | a dependence satisfied by several levels together is ignored | `C35_violated`, `C35_violated_tiling` |
| wavefront | adds tile dimensions across a scalar level of the band | `C20_violated` |
| wavefront with `--innerpar` | satvec bits cleared though the dependence is carried | `C20_violated_innerpar`, `C51_violated_innerpar` |
| diamond tiling | rows of fused scalar statements are not replaced; success with an illegal schedule | `C10_violated` |
| `pluto_mark_parallel` | off by one: if the loops of a parallel band are gone from the AST, the (sequential) loop right below it is marked parallel | `C53_violated` |
| `pluto_get_parallel_band` | a dependence satisfied by several levels together is ignored | `C53_violated_band` |
| `pluto_get_unroll_jam_loops` | counts a tiled level in programs that are not tiled: loops below the permutable band are jammed into | `C54_violated` |
| `update_fcg_between_sccs` with `--nofuse` | the vertices of one statement are used for both ends: edges between distributed statements stay, edges inside a statement go | `C55_update_violated` |
| `pluto_auto_transform` with `--dfp` | returns normally with dependent instances of statements that depend on each other left unordered | `C56_violated` |
| `introduce_skew` | solves for a new row with the permutability constraints of one connected component and sets the row for all statements: shifts in other components are lost, which can reverse their dependences | `C57_violated` |
| `scale_shift_permutations` | loops that are pairwise free of conflicts need not give a level together (shifts around a cycle of three statements): Pluto with `--dfp` stops with a failed assertion on a legal program | `C58_violated` |
| `isl_basic_map_from_pluto_constraints` | `isl_mat_set_element_si` takes an `int`: entries beyond 32 bits are cut off | `C59_violated_from_map` |
| `pluto_constraints_project_out_isl_single` | quantified variables of the projection are dropped: the result may have more points | `C59_violated_project` |
| `pluto_schedule` / `compute_deps_isl` | with `lastwriter` and `isldepcoalesce` NULL pointers are dereferenced | `C62_violated_null` |
| `pluto_get_parallel_loop_list`, tool/pluto_codegen_if.c:414-464 | With vector loops, the private clause starts with `lbv, ubv` and no comma follows: `lbv, ubvt2,...`, so neither `ubv` nor the first inner iterator is private (with no inner level it is `lbv, ub`); the buffer of 128 bytes overflows from 36 levels on | `C63_violated_private`, `C63_violated_overflow` |
| `pluto_gen_cloog_file`, tool/pluto_codegen_if.c:62-125 | The text of a statement is written into a comment line; a text of several lines leaves lines that are no comment, and the file cannot be read | `C63_violated_text` |
| `pet_to_pluto_stmts` via `isl_set_to_pluto_constraints` | Domains with existentially quantified variables (loops `i += 2`) lose them; the program runs instances that the source does not have | `C64_violated_stride` |
| `mark_trivial_dead_code`, tool/pet_to_pluto.cpp:173-222 | Every statement that writes a variable declared inside the scop is dropped, also if its value is read by a statement that is kept | `C64_violated_dead` |
| `basic_map_extract_dep`, lib/program.cpp:367-495 | Numbers in names count maps (one per array), the arrays of accesses count basic maps; after a stencil read the wrong access is recorded | `C64_violated_access` |
| `pluto_prog_constraints_lexmin` with GLPK and `--lp`/`--dfp` | rational coefficients are multiplied by one factor per component, with the component ids of `ddg_compute_cc`, which are wrong for interrupted components: a dependence is reversed; the whole run of `pluto_auto_transform` then marks it as satisfied | `C66_violated_components`, `C56_violated_lp` |
| `pluto_prog_constraints_lexmin_glpk` | bound coefficients are rounded before they are multiplied: the returned bound does not bound the dependences | `C66_violated_bound` |
| `pluto_prog_constraints_lexmin_glpk` with `--dfp --ilp` | the scaling step uses arrays that are only built with `--lp`: null pointer | `C66_violated_dfp_ilp` |
| `construct_cplex_objective` | the weighted sum is not the lexicographic minimum the other solvers return | `C66_violated_lexmin` |
| `deps_read` (`--candldep`) | the cases of a `switch` fall through: every dependence gets the undefined type and the next assertion fails | `C68_violated_candl` |
| `osl_relation_to_pluto_constraints` | of a domain that is a union only the first relation is kept in the program (isl gets all of them) | `C68_violated_union` |
| `osl_relation_to_isl_set` and the other conversions to isl | entries go through an `int`: with a bound of 2^32 dependences are lost | `C68_violated_width` |
| `pluto_populate_scop` | after index-set splitting statements of the scop that do not exist are used | `C68_violated_populate` |
| `get_best_vectorizable_loop` | five accesses `a_k[i+j]`: a sequential loop scores 20, the vectorizable loop 18 and loses | `C69_violated_best` |
| `has_spatial_reuse` | looks at the transformed access without its divisors: unit strides are missed when a divisor is not 1 | `C69_violated_stride` |
| `are_pluto_accesses_same` | compares access matrices without divisors: different accesses are counted as one | `C69_violated_unique` |
| `is_unroll_jam_profitable` | combines the number of accesses of one inner loop with the number of invariant accesses of another: 40 elements pass for at most 32 | `C69_violated_registers` |
| `read_tile_sizes` | the comments that README.md shows in `tile.sizes` are never skipped: no number is read, success is reported and the default sizes are used | `C70_violated_comment`, `C70_violated_text` |
| `read_tile_sizes` | with too few sizes some are overwritten instead of using the defaults; with a newline at the end there is no warning | `C70_violated_short` |
| `read_tile_sizes` | with one ratio too few and a newline at the end the defaults are not used | `C70_violated_ratios` |
| `--ft`, `--lt` | only change how many sizes are read, not the levels that are tiled; may look up levels that do not exist | `C70_violated_force` |
| `find_tile_sizes` | reads past the end of `vectorizableDims` if no loop is parallel (undefined; in practice mostly an unused bit) | `C70_violated_find` |
| `infer_tile_sizes` | the least reuse is really the greatest (`!vectorDim` where `i != vectorDim` is meant) | `C70_violated_least` |
| `get_per_cc_obj_sum_constraints` | sets column `j + i` for component `j - 1` instead of `i + j * (npar + 1)`: with parameters the first columns are not the sums of the bounding functions, and solutions are excluded | `C71_violated_sum`, `C71_violated_sum_lost` |
| `get_permutability_constraints` with `--per-cc-obj` | `prog->globcst` is allocated once; after a cut there are more components and the rows are longer than the allocated ones (rows overlap, the last one is written past the buffer) | `C71_violated_growth` |
| `get_face_with_concurrent_start_for_stmts` with `--per-cc-obj` | adds coefficient bounds with additional columns to Feautrier constraints without them: the assertion in `pluto_constraints_add` fails for every program | `C71_violated_diamond` |
| `precut` (`.fst`) | the order of the components is not checked against the dependences: the row found later satisfies the dependence and success is reported for an illegal schedule | `C72_violated_order` |
| `precut` (`.fst`) | statements that are in no component are silently put in component 0; the number that says whether to tile a component is stored in `stmt->tile`, which no code reads | `C72_violated_unlisted` |
| `precut` (`.precut`) | README: can be used to check if a transformation is valid; a row that reverses a dependence is accepted | `C72_violated_check` |
| `precut` (`.precut`) | coefficients of parameters are read and replaced by 0 | `C72_violated_params` |
| `get_loop_type` | only positive coefficients count: the row `-i` is called a scalar dimension | `C72_violated_type` |
| `precut` (`.precut`) | the number of hyperplanes is the number of rows of the last statement; other schedules may be longer | `C72_violated_rows` |
| `pluto_prog_add_param` (program.cpp:954) | `bounding_poly` of the dependences is not extended: its constants are then read as coefficients of the new parameter | `C73_violated_param` |
| `pluto_interchange` (transforms.c:68) | exchanges `hProps` of the program but not `hyp_types` of the statements | `C73_violated_types` |
| `isl_aff_to_pluto_func` (isl_support.c:53) | denominators of rational coefficients are dropped | `C74_violated_rational` |
| `isl_aff_to_pluto_func` | an integer division gives a zero row | `C74_violated_floor` |
| `isl_map_to_pluto_func`, `isl_basic_map_extract_access_func` | for a piecewise expression the row of the last piece is used everywhere | `C74_violated_pieces` |
| `isl_basic_map_extract_access_func` (program.cpp:505) | the zero row of a dimension with several values is inserted in front of the rows of earlier dimensions | `C74_violated_order` |
| `isl_basic_map_extract_access_func` | an empty relation has no pieces: NULL is dereferenced | `C74_violated_empty` |
| `get_scc_colours_from_vertex_colours` (lib/framework-dfp.c:2371-2375) | the colours of a component are taken from the first statement with `dim == max_dim`, but `dim` is the padded number of loops; a statement with fewer loops is taken, the colour of the inner loop is forgotten, it is found twice and the outer loop never: dependent instances get the same timestamp | `C75_violated` |
| `colour_fcg_scc_based` (lib/framework-dfp.c:2590-2607) | if the first component cannot be coloured, the graph is rebuilt and the search begins again; nothing has changed, so that it never returns (for `S(i)` depending on `S(i+1)`) | `C75_violated_termination` |
| `pluto_auto_transform` with `--clusterscc` | as without it (C56), statements that depend on each other can be left with the same timestamps | `C75_violated_cycle` |
| `fcg_scc_cluster_add_inter_scc_edges` (framework-dfp.c:416-592) | `check_parallel` is never reset: after the first pair of components to which it applies, also pairs of sequential or stencil components get parallelism preventing edges | `C76_violated_check` |
| `fcg_scc_cluster_add_inter_scc_edges`: `j <= stmts[..]->dim_orig` (off by one) | the coefficient of a padding dimension is required to be positive; if the number of a source statement equals the first column of the target, fusable loops are joined by an edge | `C76_violated_padding` |
| `is_lp_solution_parallel` with `--nodepbound` | the bounding function is unconstrained, so every component with a possible level is called parallel | `C76_violated_nodepbound` |
| `construct_cplex_objective` for the conflict graph | with padded statements the objective is laid out as if padding columns had been removed (they have not) | modelled in `fcgObjective`; no claim depends on it |
| `is_scc_stencil` with `--nodepbound` | the bounding constraints are a null pointer, which is used as soon as a face is found | `C77_violated_nodepbound` |
| `is_scc_stencil`, description: short dependences on either side of the face | not checked: a nest with the single distance (1,1) is called a stencil | `C77_violated_sides` |
| `get_face_with_concurrent_start_for_stmts` (stencil test and diamond tiling) | only the lexicographically smallest strictly satisfying schedule is looked at; for distances (1,0,1) and (0,1,1) it is `i + j`, so the face `k` is not found | `C77_violated_face` |
| `isl_aff_to_pluto_func` | an affine expression whose first integer division divides by more than 1 becomes a zero row whatever else it contains, even if the division is not used | `C74_violated_mixed_div` |
| `get_parametric_extent` (program.cpp) | prints `ub - lb + 1` without parentheses around `lb`: `2*N - N-3 + 1` for the range from `N-3` to `2*N` | `C78_violated_difference` |
| `get_lb_ub_expr` | an assertion fails for a variable given by an equality with negative coefficient (`-x + N = 0`), since such rows are neither lower nor upper bounds | `C78_violated_equality` |
| `get_parametric_bounding_box` | sums the boxes of the parts of a union without a maximum with 0: a part that is empty for some parameters counts as a negative number of points | `C78_violated_union` |
| lib/tile.c:287-299, lib/pluto.c:2261-2276 | the evicted hyperplane is put back in the point loops although a dependence (here at distance (0,0) between two statements) was satisfied by the replacing hyperplane only: dependent instances of one tile get the same time stamp. (Also, `fl + evicted_hyp_pos` in lib/tile.c:96 counts only loop levels, so with scalar levels inside the band the wrong row would be replaced; `EvictedFrom` excludes this.) | `C79_violated` |
| `mark_parallel_sccs` (lib/framework-dfp.c:130-191) | when the system of a component has no solution at first, `ddg_compute_scc` is called, which sets `sol` to NULL and `is_parallel` to 0 for all components (lib/pluto.c:2046-2047); those done before are not done again, so colouring them later fails `assert(sol != NULL)` | `C80_violated_reset` |
| `get_next_min_vertex` with `--lpcolor` (lib/framework-dfp.c:1295-1323) | loops with coefficient 0 in the LP solution are never tried (loop 0 is, as fallback): colouring fails though a colouring exists | `C80_violated_colour` |
| `pluto_affine_function_sprint`, lib/math_support.c:583-641 | names of variables with coefficient 1 or -1 are cut to four characters, the constant to two (100 is printed as 10, -10 as -1); the buffer of `9 * ndims + 2` bytes can be overrun | `C81_violated_sprint` |
| `pluto_stmt_print_hyperplane`, lib/program.cpp:249-304 | names are cut in tile functions (`inde/32`); `-(i/32)` and `(-i)/32`, which differ, are both printed as `-i/32` | `C81_violated_hyperplane` |
| `gen_stmt_macro`, tool/pluto_codegen_if.c:149-157 | `--bee` schedules: the number of iterators is passed where the number of iterators and parameters is needed, so with parameters the constant of every row is lost and the coefficient of the first parameter printed in its place | `C81_violated_bee` |
| `is_tile_space_loop`, lib/program.cpp:222-231 | the schedule depth is used as a position in the domain: with a scalar dimension in front tile loops are missed, and `pluto_get_unroll_jam_loops` returns them; deep loops read past the rows | `C81_violated_tileloop`, `C81_violated_range` |
| `pluto_check_supernode`, lib/program.cpp:175-219 | keeps only the last candidate rows and expects fixed constants: first-level tile dimensions are missed after two-level tiling, and tile dimensions of shifted statements always | `C81_violated_level2`, `C81_violated_shift` |
| `pluto_constraints_compact_print_single`, `pluto_constraints_pretty_print` | names of variables are cut after five characters, so that different systems are printed as the same text | `C82_violated_names` |
| the same | unnamed variables are named by a single character that comes j steps after `i`: the variables 0 and 256 have the same name | `C82_violated_many` |
| `pluto_constraints_cplex_print` | rows without coefficients are left out, also false ones (`0 = 5`): a system without points is printed as a text that always holds | `C82_violated_cplex` |
| `pluto_constraints_cplex_print` | the index of the loop over the columns is an `unsigned char`: with 256 columns or more the loop never ends | `C82_violated_columns` |
| `set_gurobi_constraints_from_pluto_constraints` | rows without coefficients are skipped as trivial, also false ones (`0 >= 1`): systems without solution are reported as solved | `C83_violated_rows`, `C83_violated_fcg` |
| `pluto_prog_constraints_lexmin_gurobi` with `--lp` | the bound coefficients are set to the scaling factor instead of being multiplied by it: no solution is ever recognised as parallel, and the bound can be too small | `C83_never_parallel`, `C83_violated_parallel`, `C83_violated_bound` |
| `main`, `pluto_prog_constraints_lexmin` built with Gurobi only | `--dfp`, `--lp`, typed or hybrid fusion, delayed cuts without `--gurobi` choose GLPK, which is not there: no solver is called and every system counts as infeasible | `C84_violated_solver` |
| `main` with `--clusterscc` | the message says the DFP framework is used, but `dfp` stays off | `C84_violated_cluster` |
| `main` with `--dfp` | `--nolastwriter` is overruled; with `--candldep` the refused combination of `--candldep` and `--lastwriter` is used | `C84_violated_lastwriter`, `C84_violated_refused` |
| `main` with `--dfp --ilp` | accepted, although no solution can be handed back in this mode with GLPK | `C84_violated_ilp`, `C66_violated_dfp_ilp` |
| `get_linearly_independent_rows_in_mat` | after the first dependent row no further rows are looked at (removing the last row in view does not move the rows behind it) | `C85_violated_rows` |
| `compute_tile_footprint_coefficient_for_access` | a first subscript along the parallel or a pipelined dimension is lost (0 * 32); loops with negative coefficients are not counted; levels with several loops are counted several times | `C85_violated_parallel`, `C85_violated_negative`, `C85_violated_twice` |
| `construct_expression_for_tile_volume` | writes element 0 of an empty vector if all accesses are scalars | `C85_violated_empty` |
| `solve_reuse_expression` | divides by a leading coefficient 0 (loops without reuse); an assertion fails if the constant part fills the cache; for degree 3 and more the tile may need several times the cache | `C85_violated_zero`, `C85_violated_assert`, `C85_violated_high` |
| `cut_scc_dim_based` | the row that separates nests of different depth is taken back when it satisfies no dependence: independent nests of different depth are fused with `--smartfuse` | `C86_violated_smart_independent` |
| `pluto_auto_transform` | in LAZY mode with all dependences satisfied and no hyperplane found, the main loop neither fails nor changes anything, and runs for ever; happens for a single loop without dependences when a caller of the library sets `coeff_bound` to 0 | `C87_violated` |
| `pluto_constraints_remove_dim` | the name behind the removed one is moved up only if it is not null; otherwise the freed string stays in the array (or a name appears twice) and is freed again later; parameters have no names after `pluto_create_stmt` | `C89_violated_remove` |
| `pluto_constraints_copy_single` | a destination with names, fewer columns than the source and enough room keeps its short array of names; entries behind it are freed and written | `C89_violated_copy` |
| `extract_stmt` (lib/plutolib.c) | for a statement without loops in a program with parameters `names` is null and is written through | `C89_violated_library` |

Observed while reading, not stated as theorems (functions outside the model, or harmless in it):
`pluto_constraints_normalize_row` has no effect on the stored row; `pluto_constraints_remove_const_ub` does not advance its index after a
deletion; `get_per_cc_obj_sum_constraints` uses column `j+i`; `isl_basic_map_from_pluto_constraints` expects (out, in) while the reverse gives (in, out);
`get_loop_type` looks only at positive coefficients; `pluto_constraints_project_out_isl` rebinds a local pointer;
`get_lb_ub_expr` mishandles negative equality coefficients; `pluto_parallel_schedule_with_remapping` never sets its outputs;
`pluto_iss_dep` reuses a loop index (harmless); `pluto_prog_add_param` leaves `bounding_poly` alone;
a comparison of a statement number with a column offset (modelled as written); feautrier code frees a system it later uses;
`get_face_with_concurrent_start` depends on loop ordering (harmless for outermost bands, see `Verif/Lemmas/LoopOrder.lean`);
`are_stmts_fused_in_band` is not symmetric; `find_tile_sizes` can read out of range;
`pluto_dep_remove_satisfied_instances` computes the wrong set (unused); precise satisfaction with no hyperplanes yet;
`cut_between_sccs`/`cut_scc_dim_based` leave RAR dependences flagged satisfied; diamond tiling may evict a hyperplane of an earlier band
(excluded by the hypothesis `DiamondSafe`); parameter context equalities become inequalities; `pluto_stmt_loop_interchange` leaves `hyp_types`
stale; `pluto_constraints_unionize_simple` returns the last element (modelled); the cone complement with one variable or `--fulldiamondtile` may
read the next statement's multipliers (excluded by a hypothesis); `dep_prop` is never set to PARALLEL; `pluto_stmt_dup` resets `hyp_types`.
Of the library interface: `isldepaccesswise` is on by default, and then domains named `S_<id>` as the interface asks for fail an assertion
in `basic_map_extract_dep`; `nploops` and `ploops` are not set by `pluto_parallel_schedule_with_remapping`; a domain that is the empty set leaves `stmt->domain` NULL;
`pluto_constraints_project_out_isl` frees its argument and assigns its local pointer only.
Of the front end: with `--rar` the pet path computes RAR dependences and drops them; the name buffer of `set_tuple_name` is too small from 1000 accesses on;
the number of levels is taken over all statements but rows are padded to the maximum over live ones; `isl_basic_map_extract_access_func` puts a zero
row at position 0 for a dimension that is not single-valued; `main` ignores the return value of `pluto_auto_transform`;
`pluto_parallel_schedule_with_remapping` frees `space` twice (`pluto_schedules_to_isl` took it);
`pluto_schedule_str` therefore always reports the single loop 0 as its list of parallel loops (`C67_violated_loops`), frees domains and dependences after they were
taken, and prints a NULL schedule on failure; `pluto_get_remapping_str` dereferences NULL on failure.

## Which code is modelled

Functions cited by a definition in `Verif/Model` count as modelled (the definition's comment says what is simplified).
Printing, option parsing, memory management, C code generation and the external libraries are outside the model.
The table lists, for each source file, the functions that are not modelled; all others are.

| file | modelled | not modelled |
|---|---|---|
| lib/constraints.c | 62 of 99: pluto_constraints_alloc pluto_constraints_resize pluto_constraints_resize_single farkas_lemma_affine pluto_constraints_add pluto_constraints_add_to_each pluto_constraints_simplify fourier_motzkin_eliminate pluto_constraints_copy pluto_constraints_copy_single pluto_constraints_dup pluto_constraints_print_polylib_without_num pluto_constraints_print_polylib pluto_constraints_to_matrix pluto_constraints_from_mixed_matrix pluto_constraints_from_matrix pluto_constraints_from_inequalities pluto_constraints_read pluto_constraints_compact_print_single pluto_constraints_pretty_print pluto_constraints_cplex_print pluto_constraints_to_pip_matrix pluto_constraints_lexmin_pip pluto_constraints_lexmin set_glpk_constraints_from_pluto_constraints get_scaling_lp_glpk pluto_prog_constraints_lexmin_glpk pluto_constraints_from_equalities pluto_constraints_remove_row pluto_constraints_remove_dim pluto_constraints_normalize_row pluto_constraints_add_dim pluto_constraints_add_leading_dims pluto_constraints_add_lb pluto_constraints_add_ub pluto_constraints_set_var pip_matrix_populate pluto_constraints_select_row pluto_constraints_negate_row pluto_constraints_negate_constraint pluto_constraints_to_pure_inequalities_single pluto_constraints_project_out_single pluto_constraints_interchange_cols pluto_constraints_unionize pluto_constraints_universe pluto_constraints_empty pluto_constraints_is_empty pluto_constraints_unionize_simple pluto_constraints_get_const_lb pluto_constraints_get_const_ub pluto_constraints_get_num_equalities pluto_constraints_extract_equalities pluto_constraints_remove_names_single pluto_constraints_set_names pluto_constraints_set_names_range pluto_constraints_best_elim_candidate pluto_hyperplane_get_non_negative_half_space pluto_hyperplane_get_negative_half_space pluto_constraints_shift_dim pluto_constraints_get_num_non_zero_coeffs fourier_motzkin_eliminate_smart pluto_constraints_gaussian_eliminate | pluto_constraints_zero pluto_constraints_free row_compar pluto_constraints_dup_single pluto_constraints_print_single pluto_constraints_print pluto_constraints_compact_print get_lp_solution_from_glpk_problem get_ilp_solution_from_glpk_problem set_glpk_problem_params find_optimal_solution_glpk pluto_constraints_solve_glpk pluto_mip_scale_solutions_glpk set_glpk_objective_from_pluto_matrix pluto_fcg_constraints_lexmin_glpk pluto_constraints_add_inequality pluto_constraints_add_equality pluto_constraints_add_constraint pluto_constraints_zero_row pluto_constraints_project_out check_redundancy pluto_constraints_num_in_list pluto_constraints_unionize_isl print_polylib_visual_sets_internal print_polylib_visual_sets_internal_new print_polylib_visual_sets_new print_polylib_visual_sets pluto_dep_list_alloc pluto_deps_list_free pluto_deps_list_dup pluto_deps_list_append pluto_constraints_list_alloc pluto_constraints_list_free pluto_constraints_list_add pluto_constraints_list_replace pluto_constraints_is_ub pluto_constraints_remove_const_ub |
| lib/constraints_isl.c | 14 of 17: pluto_constraints_project_out_isl_single isl_basic_set_from_pluto_constraints isl_set_from_pluto_constraints extract_basic_set_constraints isl_set_to_pluto_constraints isl_basic_map_from_pluto_constraints isl_basic_set_to_pluto_constraints isl_basic_map_to_pluto_constraints isl_basic_map_to_pluto_constraints_func_arg pluto_constraints_lexmin_isl pluto_constraints_union_isl isl_map_to_pluto_func pluto_constraints_intersection_isl pluto_constraints_intersect_isl | pluto_constraints_project_out_isl basic_map_count isl_map_count |
| lib/ddg.c | 8 of 14: graph_transpose get_undirected_graph compute_transitive_closure dfs_vertex dfs dfs_for_scc is_adjacent compute_scc_vertices | graph_alloc graph_print_sccs compar print_scc_vertices free_scc_vertices graph_free |
| lib/framework.cpp | 22 of 24: compute_permutability_constraints_dep get_scc_permutability_constraints get_cc_permutability_constraints get_permutability_constraints get_feautrier_schedule_constraints_dep get_feautrier_schedule_constraints get_stmt_lin_ind_constraints get_non_trivial_sol_constraints get_coeff_bounding_constraints dep_satisfaction_test pluto_dep_remove_satisfied_instances pluto_compute_dep_satisfaction_precise pluto_dep_satisfies_instance get_dep_direction populate_scaling_csr_matrices_for_pluto_program pluto_add_hyperplane_from_ilp_solution get_face_with_concurrent_start_for_stmts get_face_with_concurrent_start get_dep_distance_bounding_constraints_for_scc compute_dep_dist_lb_constraints_for_stencil_check get_dep_dist_lower_bound_constraints_for_scc is_scc_stencil | compute_pairwise_permutability is_stmt_in_stmt_list |
| lib/isl_support.c | 3 of 4: isl_aff_to_pluto_func mpz_fits_ll isl_val_get_num_ll | pluto_matrix_from_isl_mat |
| lib/iss.c | 5 of 6: pluto_find_iss is_long_bidirectional_dep pluto_update_deps_after_iss pluto_iss pluto_iss_dep | get_lin_ind_constraints |
| lib/math_support.c | 29 of 40: pluto_matrix_remove_col pluto_matrix_remove_row pluto_matrix_add_col pluto_matrix_negate_row pluto_matrix_negate pluto_matrix_add pluto_matrix_add_row pluto_matrix_interchange_rows pluto_matrix_interchange_cols pluto_matrix_move_col pluto_matrix_identity pluto_matrix_zero_row pluto_matrix_zero_col pluto_matrix_normalize_row gaussian_eliminate_var gaussian_eliminate lcm gcd min_lexical pluto_matrix_product pluto_matrix_to_row_echelon pluto_matrix_get_rank pluto_matrix_reverse_rows pluto_affine_function_print pluto_affine_function_sprint pluto_vector_is_parallel pluto_vector_is_normal mpz_set_sll are_pluto_matrices_equal | pluto_matrix_alloc pluto_matrix_free pluto_matrix_resize pluto_matrix_dup pluto_matrix_set pluto_matrix_read pluto_matrix_input pluto_matrix_print concat pluto_matrix_swap_rows mpz_set_ull |
| lib/pluto.c | 36 of 48: dep_satisfaction_update deps_satisfaction_check pluto_dep_satisfaction_reset pluto_compute_dep_satisfaction get_coeff_bounding_constraints_for_cone_complement construct_cplex_objective pluto_prog_constraints_lexmin ddg_sccs_direct_connected cut_between_sccs cut_all_sccs cut_scc_dim_based cut_smart cut_conservative get_linear_ind_constraints get_per_cc_obj_sum_constraints find_permutable_hyperplanes get_loop_type precut pluto_compute_dep_directions pluto_detect_hyperplane_types_stmtwise pluto_detect_hyperplane_types normalize_domains denormalize_domains find_cone_complement_hyperplane is_concurrent_start_face find_hyperplane_to_be_evicted pluto_auto_transform get_num_unsatisfied_inter_scc_deps ddg_create get_max_orig_dim_in_scc ddg_compute_cc ddg_compute_scc pluto_stmt_get_schedule pluto_update_deps pluto_are_stmts_fused pluto_diamond_tile | rtclock dep_is_satisfied num_inter_stmt_deps num_inter_scc_deps pluto_print_depsat_vectors pluto_print_dep_directions get_first_non_scalar_hyperplane copy_hyperplane get_num_unsatisfied_deps get_num_unsatisfied_inter_stmt_deps ddg_print get_scc_size |
| lib/plutolib.c | 14 of 16: pluto_schedule_prog extract_basic_set extract_stmt extract_stmts normalize_domain_schedule stmt_filter pluto_schedules_to_isl pluto_prog_from_isl_domains_dependences pluto_transform pluto_schedule pluto_get_remapping pluto_schedule_and_get_remapping pluto_parallel_schedule_with_remapping pluto_schedule_str | pluto_get_remapping_str pluto_schedules_strbuf_free |
| lib/polyloop.c | 29 of 44: pluto_get_loops_immediately_inner pluto_get_loops_under pluto_get_all_loops pluto_loop_has_satisfied_dep_with_component pluto_loop_is_parallel pluto_loop_is_parallel_for_stmt is_loop_dominated get_num_accesses is_invariant get_num_invariant_accesses get_max_dim get_max_num_innermost_invariant_accesses get_max_num_innermost_accesses is_unroll_jam_profitable pluto_get_unroll_jam_loops pluto_get_parallel_loops pluto_get_dom_parallel_loops pluto_get_outermost_loops is_band_dominated pluto_is_depth_scalar pluto_get_permutable_band pluto_get_parallel_band pluto_get_dominator_bands pluto_get_dom_parallel_bands pluto_get_outermost_permutable_bands pluto_loop_is_innermost pluto_is_band_innermost pluto_get_innermost_loops pluto_get_innermost_permutable_bands | pluto_loop_alloc pluto_loop_print pluto_loops_print pluto_loop_dup pluto_loop_free pluto_loops_free pluto_loops_cat pluto_satisfies_inter_stmt_dep pluto_loop_compar pluto_band_alloc pluto_band_print pluto_bands_print pluto_band_dup pluto_band_free pluto_bands_free |
| lib/post_transform.c | 11 of 15: has_spatial_reuse get_num_spatial_accesses get_dimensional_reuse pluto_loop_is_vectorizable get_best_vectorizable_loop get_per_stmt_band are_stmts_fused_in_band fuse_per_stmt_bands make_parallel_loop_innermost pluto_intra_tile_optimize_band pluto_intra_tile_optimize | getDeepestNonScalarLoop pluto_detect_mark_register_tile_loops gen_reg_tile_file get_outermost_parallel_loop |
| lib/program.cpp | 48 of 83: pluto_check_supernode is_tile_space_loop is_skewed pluto_stmt_print_hyperplane basic_map_extract_dep isl_basic_map_extract_access_func extract_accesses_for_pluto_stmt compute_deps_isl pluto_prog_get_largest_const_in_domains pluto_options_alloc pluto_prog_add_param pluto_stmt_add_dim pluto_stmt_remove_dim pluto_stmt_add_hyperplane pluto_prog_add_hyperplane pluto_create_stmt pluto_pad_stmt_transformations pluto_add_given_stmt pluto_add_stmt pluto_dep_dup pluto_stmt_alloc pluto_get_new_domain get_const_bound_difference get_expr get_func_of_expr get_parametric_bounding_box get_parametric_extent_const get_lb_ub_expr get_parametric_extent pluto_is_hyperplane_scalar pluto_is_hyperplane_loop pluto_stmt_get_remapping pluto_get_new_access_func pluto_separate_stmts pluto_separate_stmt pluto_get_max_ind_hyps pluto_stmt_get_num_ind_hyps pluto_transformations_full_ranked pluto_stmt_dup decrement_stmt_id pluto_remove_stmt pluto_create_new_access are_pluto_accesses_same insert_access_if_unique get_unique_accesses_in_stmts get_num_unique_accesses_in_stmts is_access_invariant get_num_invariant_accesses_in_stmts | pluto_add_dep pluto_dep_print pluto_deps_print pluto_access_print pluto_stmt_print pluto_stmts_print pluto_prog_print pluto_dep_free map_extract_dep isl_map_extract_access_func extract_deps_from_isl_union_map read_codegen_context_from_file pluto_prog_alloc pluto_prog_free pluto_context_alloc pluto_context_free pluto_options_free pluto_dep_alloc pluto_access_dup pluto_access_free pluto_stmt_free get_alpha pluto_prog_params_print pluto_stmt_is_member_of pluto_stmt_is_subset_of add_if_new_var pluto_get_all_waccs pluto_get_max_ind_hyps_non_scalar pluto_stmt_get_num_ind_hyps_non_scalar pluto_transformations_pretty_print pluto_transformation_print_level pluto_print_hyperplane_properties pluto_transformations_print pluto_stmt_transformation_print is_access_present |
| lib/tile.c | 7 of 8: read_tile_sizes pluto_diamond_tile_reschedule pluto_tile_band pluto_tile pluto_tile_scattering_dims pluto_create_tile_schedule_band pluto_create_tile_schedule | getInnermostTilableBand |
| lib/tile_size_selection_model.cpp | 12 of 16: solve_quadratic_equation approximate_to_nearest_multiple solve_reuse_expression round_tile_sizes_wrt_unroll_jam_factor infer_tile_sizes get_linearly_independent_rows_in_mat compute_tile_footprint_coefficient_for_access construct_expression_for_tile_volume get_vectorizable_dimensions get_dimensional_reuse pluto_band_has_wavefront_parallelism find_tile_sizes | rtclock get_distinct_accesses_in_band has_zero_dim_reuse get_tile_sizes_for_band_with_zero_dim_reuse |
| lib/transforms.c | 6 of 6: pluto_sink_statement pluto_stripmine pluto_stmt_loop_interchange pluto_interchange pluto_sink_transformation pluto_make_innermost_loop |  |
| tool/constraints_polylib.c | 11 of 13: pluto_matrix_to_polylib pluto_constraints_to_polylib polylib_to_pluto_constraints pluto_constraints_image pluto_constraints_union pluto_constraints_difference pluto_constraints_intersection pluto_constraints_intersect polylib_matrix_to_pluto_constraints pluto_constraints_subtract pluto_constraints_are_equal | polylib_matrix_to_pluto pluto_matrix_inverse |
| tool/ast_transform.c | 3 of 3: pluto_mark_parallel pluto_mark_unroll_jam pluto_mark_vector |  |
| lib/framework-dfp.c | 57 of 67: dfp_get_scc_ortho_constraints is_lp_solution_parallel is_ilp_solution_parallel mark_parallel_sccs pluto_fusion_constraints_feasibility_solve fcg_add_pairwise_edges get_inter_scc_dep_constraints fcg_scc_cluster_add_inter_scc_edges compute_intra_stmt_deps compute_intra_scc_dep_cst add_permute_preventing_edges fcg_scc_cluster_add_permute_preventing_edges update_scc_cluster_fcg_between_sccs update_fcg_between_sccs are_sccs_fused add_must_distribute_edges build_fusion_conflict_graph is_valid_colour is_discarded get_next_min_vertex get_min_succ_scc get_max_pred_scc is_convex_scc cut_around_scc colour_scc scc_has_must_distribute_edges get_convex_successors get_convex_parallel_successors is_colour_par_preventing get_common_parallel_dims get_colouring_dim colour_convex_successors colour_scc_cluster_greedy cut_from_predecessor get_min_convex_successor get_min_vertex_from_lp_sol get_colourable_dims get_common_dims get_convex_preds_from_convex_successors get_next_min_vertex_scc_cluster colour_scc_cluster get_vertex_colour_from_scc_colour get_scc_colours_from_vertex_colours rebuild_scc_cluster_fcg pluto_add_scalar_hyperplanes_between_sccs colour_fcg_scc_based find_permutable_dimensions_scc_based add_coeff_constraints_from_scc_clustered_fcg_colouring add_coeff_constraints_from_fcg_colouring scale_shift_permutations get_negative_components dims_to_be_skewed get_dep_satisfaction_dims get_skewing_constraints get_outermost_sat_level swap_trans_for_cc introduce_skew | rtclock get_dep_dist_from_pluto_sol print_parallel_sccs fcg_add_intra_scc_edges pluto_print_colours get_common_parallel_dims_for_sccs get_vertex_properties_from_scc_properties set_scc_properties_from_vertex_properties reset_scc_colouring constant_deps_in_scc |

Other files of the repository (`tool/main.cpp`, `lib/pluto_codegen*`, `lib/ast_transform`, `lib/libpluto` glue, `include/*.h` apart from
the type definitions, `inscop`, `polycc`, ...) are not modelled.

## Trusted base

* Lean's kernel. `vcheck` replays every module; no `native_decide`, no `bv_decide`, no added axioms, no `sorry`.
* The reading of the C code embodied in the definitions (cited file and lines).
* The oracle hypotheses written in the theorem statements (below), for the external libraries.
* Integers are unbounded unless the theorem name says `64`, `mpz` or the model uses `BitVec`/explicit ranges.

Oracles and their specifications (each is shown to be satisfiable by a concrete oracle or an existence proof):

| oracle | stands for | specification |
|---|---|---|
| `EmptyOracle` | isl emptiness test (`pluto_constraints_is_empty`) | says empty exactly when there is no integer point |
| `LexminOracle`, `FeasibleOracle` | PIP/GLPK/Gurobi/isl lexmin (`pluto_prog_constraints_lexmin`) | returns a (lexicographically minimal) integer solution with non-negative entries, or none exactly when there is none |
| `KernelOracle` | isl right kernel / orthogonal complement | returns a basis of the kernel |
| `ProjOracle`, `RatProjOracle` | PolyLib/isl projection and image | exact projection (integer, resp. rational) |
| `MeetOracle` | isl/PolyLib intersection | exact intersection |

Axioms per property theorem (computed with `Lean.collectAxioms`):

* {}: C84_violated_cluster C84_violated_lastwriter C84_violated_refused C84_violated_ilp
* {propext}: C26_mixed_matrix C27_add_shape C28_ncols C32_violated C40_violated C43_zero_factor C43_violated C45_interchange_cols_int_violated C55_update_violated C59_copy C62_violated_null C65_needed C68_violated_populate C81_violated_range C84_violated_solver C88_is_empty_isl
* {Quot.sound, propext}: C12_test_defined C13_direction_defined C13_directions C17_violated C19_violated C21_parallel C21_parallel_loops C26_equalities C27_remove_add_dim C27_add C27_universe C27_select_remove_row C29_half_spaces_defined C30_violated_eq C30_violated_coeff C30_violated_int_min C34_violated C38_default_bound C43_nearest_partial C43_round_partial C45_interchange_rows C45_interchange_cols C45_interchange_cols_int_partial C45_reverse_rows C45_product_none C46_remove_add_dim C46_unionize_simple C46_unionize_simple_return_partial C46_is_empty C55_blocks C57_negative C61_all C61_last C61_sound C62_deps_computed C64_dead C64_violated_dead C68_violated_candl C70_violated_comment C70_violated_short C70_violated_ratios C70_violated_force C72_types_partial C73_separate_one C73_violated_types C78_violated_equality C81_print_total C81_violated_level2 C84_options_partial C84_solver_partial C89_unnamed C89_violated_library C89_violated_copy C89_violated_remove
* {Classical.choice, Quot.sound, propext}: C01_gcd_correct C01_lcm_natAbs C01_lcm_sign C01_gcd64 C01_gcd64_overflow_witness C01_lcm64 C01_lcm64_total C02_simplify_sat C02_simplify_shape C02_simplify_list C02_simplify_union C03_fm_exact C03_fm_sound C03_fm_shape C03_fm_smart_exact C03_fm_smart_sound C03_fm_union C03_fm_sequence C04_gauss_defined C04_gauss_exact C04_gauss_sound C04_gauss_shape C04_gauss_union C05_pure_ineq C06_farkas_sound C06_farkas_complete C06_farkas_exact C06_farkas_shape C06_farkas_sound_int C07_dep_legal C07_permutability_legal C07_dep_exact C08_dep_bounded C08_permutability_bounded C09_dep_strict C09_feautrier_strict C09_dep_exact C10_legal_partial C10_diamond_partial C10_violated C10_shape C10_stepwise C10_levels C11_failure_restores C11_no_false_success C11_failure_restores_diamond C12_test_exact C12_update C12_compute C12_precise C13_direction C14_scc C14_order C15_cut_all C15_cut_useful C16_violated C16_cc_partial C16_consecutive_partial C17_closure_partial C17_transitive_partial C18_exactly_once C18_schedule C18_dependences C19_legal_partial C19_bands C19_tile_partial C20_effect C20_order_partial C20_parallel_partial C20_inner_parallel C20_forward C20_violated C20_violated_innerpar C21_info C21_rejected C22_inverse C22_defined C23_same_element C23_defined C24_split_partial C24_defined C24_violated C24_iss_dep_partial C25_rank_partial C25_lower_partial C25_violated C26_matrix C26_matrix_inv C26_matrix_meaning C26_print_read C26_violated_union C26_violated_sequence C26_glpk C27_add_dim C27_add_dim_shape C27_add_leading_dims C27_remove_dim C27_interchange_cols C27_shift_dim C27_add_lb C27_add_ub C27_set_var C27_empty C28_lexmin C29_half_spaces C29_violated C29_negate_partial C29_negate_others C29_negate_row C30_lb_partial C30_ub_partial C31_extent_partial C31_violated C32_add_remove_partial C32_add_dim C32_add_dim_deps C32_accesses C33_schedule C33_new_domain C33_iterations C34_defined C34_loops C34_share_partial C35_permute_partial C35_innermost_partial C35_parallel_innermost C35_violated C35_violated_tiling C36_set_sll C36_fits C36_get_num_exact C36_get_num_large C36_get_num_small C36_violated C36_get_num_partial C37_needs C37_eager C37_lazy C37_rows C38_bounds C38_nontrivial_eager C38_nonzero C38_nontrivial_lazy C39_append C39_row_value C39_row_zero C39_added_rows_legal C40_add_stmt C40_remove_stmt_partial C41_pad_unpad C42_cone C42_involution C42_row C44_partial C44_factor_one_partial C44_violated C45_remove_col C45_remove_row C45_add_col C45_add_row C45_add_remove_col C45_add_remove_row C45_move_col C45_product C45_identity C45_negate C45_equal C46_add_dim C46_interchange_cols C46_set_var C46_add_lb C46_add_ub C46_isl_set C46_extract_domain C46_extract_domain_partial C46_violated_extract C46_add_to_each_partial C46_violated_add_to_each C47_weight C47_absent C48_relation C48_union_partial C48_violated C49_near_midpoint C49_none C49_defined C50_innerpar_partial C50_tile_partial C50_forward C51_violated_innerpar C51_parallel_partial C51_no_wavefront_partial C52_innerpar_post_partial C52_innerpar_partial C52_innerpar_same_depth_partial C52_innerpar_diamond_partial C52_post_partial C52_schedule_partial C52_same_depth_partial C52_failure C52_reports C52_post_diamond_partial C53_dominating C53_outermost C53_innermost C53_band_partial C53_mark_partial C53_mark_any_partial C53_vector C53_violated C53_violated_band C53_vector_tiled_partial C53_vector_post_partial C54_mark_partial C54_jam_partial C54_violated C55_colour_sound C55_colour_complete C55_update_partial C56_order_partial C56_quiet C56_shape C56_loops_partial C56_injective_partial C56_self_partial C56_legal_partial C56_marked_partial C56_violated C56_lp_partial C56_lp_order_partial C56_violated_lp C57_unchanged C57_levels C57_leading C57_component_partial C57_nonneg_partial C57_violated C57_skew_dims C57_source_dims C57_next_level C57_exchange_level C57_exchange C57_parallel_row C57_set_once C57_constraints C57_set_types C57_single C58_oracle C58_self C58_conflict C58_same C58_unrelated C58_distribute C58_violated C59_to_map C59_to_map_exact C59_from_set C59_to_set C59_round_trip C59_from_map_partial C59_violated_from_map C59_union C59_intersection C59_intersect C59_project_partial C59_violated_project C60_innerpar_partial C60_schedules C60_extract C60_transform C60_null C60_transform_partial C60_accesses C61_complete C62_order C62_schedule_partial C62_innerpar_partial C63_file C63_order C63_transformed C63_tool_partial C63_violated_text C63_private C63_private_list_partial C63_private_fits C63_violated_private C63_violated_overflow C63_pragmas C63_first_point C63_innerpar_partial C64_names C64_program C64_complete C64_sound C64_violated_stride C64_violated_access C64_context C65_innerpar_partial C65_tool_innerpar_partial C65_tool_osl_innerpar_partial C65_maps C65_schedule_partial C65_osl C65_tool_osl_partial C65_parallel C65_tool_partial C65_order C65_pet C66_scaled_partial C66_legal_partial C66_ilp C66_violated_dfp_ilp C66_violated_components C66_violated_bound C66_violated_lexmin C67_dfp_partial C67_dfp_post_partial C67_innerpar_partial C67_auto C67_post C67_schedule C67_remap_defined C67_remap_inverse C67_library C67_library_partial C67_violated_loops C68_scattering C68_access C68_program C68_complete C68_sound C68_violated_width C68_violated_union C68_populate C69_invariant C69_spatial C69_spatial_exact_partial C69_vectorizable C69_best C69_best_exists C69_best_member C69_prefers_vectorizable_partial C69_unique C69_registers_partial C69_profitable_partial C69_violated_best C69_violated_stride C69_violated_unique C69_violated_registers C69_profitable_exact C69_profitable_reuse C70_innerpar_partial C70_tile_innerpar_partial C70_any_sizes_partial C70_find_partial C70_violated_find C70_violated_least C70_wavefront C70_vector_dim C70_find_used C70_par_loop C70_default C70_any_file C70_first_level_partial C70_second_level_partial C70_ratios_partial C70_tile_partial C70_violated_text C71_system C71_bounds C71_same_hyperplanes C71_legal_partial C71_failure_restores C71_sum_partial C71_sum_rows C71_violated_sum C71_violated_sum_lost C71_columns_partial C71_violated_growth C71_growth_infeasible C71_violated_diamond C72_no_files C72_too_many C72_fst_partial C72_precut_partial C72_failure_restores C72_violated_order C72_violated_unlisted C72_violated_check C72_violated_params C72_violated_type C72_violated_rows C72_fst_accepted C73_param C73_param_legal C73_interchange C73_interchange_legal_partial C73_separate C73_separate_legal C73_violated_param C74_last_piece_partial C74_access_partial C74_stmt_partial C74_times_partial C74_initial_legal_partial C74_divs C74_unused_divs C74_violated_mixed_div C74_violated_rational C74_violated_floor C74_violated_pieces C74_violated_order C74_violated_empty C75_order_partial C75_quiet C75_shape C75_marked_partial C75_acyclic_partial C75_violated C75_loops_partial C75_injective_partial C75_self_partial C75_legal_partial C75_violated_cycle C75_violated_termination C75_rebuild_partial C76_oracle C76_self C76_conflict_partial C76_same C76_unrelated C76_distribute C76_parallel_partial C76_par_self_partial C76_par_partial C76_violated_check C76_violated_nodepbound C76_violated_padding C77_faces C77_stencil C77_no_face C77_defined C77_violated_nodepbound C77_violated_sides C77_violated_face C78_bounds C78_bounds_exact C78_extent_value_partial C78_extent_partial C78_extent_const_partial C78_box_partial C78_violated_difference C78_violated_union C79_tile_partial C79_parallel_partial C79_one_to_one_partial C79_rows C79_violated C79_innerpar_partial C80_feasible_partial C80_marks_partial C80_step_partial C80_reset_partial C80_colour_sound C80_colour_complete_partial C80_violated_colour C80_violated_reset C81_print C81_print_injective C81_sprint_partial C81_violated_sprint C81_supernode C81_recognised_partial C81_hyperplane_partial C81_violated_hyperplane C81_bee_partial C81_violated_bee C81_tileloop_partial C81_unroll_jam C81_unroll_jam_legal_partial C81_violated_tileloop C81_violated_shift C82_pip_matrix C82_pip_lexmin C82_pip_signed C82_lexmin C82_pretty_partial C82_compact_partial C82_cplex_partial C82_violated_names C82_violated_many C82_violated_cplex C82_violated_columns C83_scaled_partial C83_legal_partial C83_ilp_partial C83_fcg_partial C83_violated_rows C83_violated_fcg C83_never_parallel C83_violated_parallel C83_violated_bound C84_cloog_file C84_out_file C84_out_name C84_asked C85_footprint_partial C85_volume C85_root_partial C85_high_partial C85_fits_partial C85_rows_partial C85_violated_rows C85_violated_parallel C85_violated_negative C85_violated_twice C85_violated_empty C85_violated_zero C85_violated_assert C85_violated_high C85_band_partial C86_nofuse_partial C86_smart_partial C86_violated_smart_independent C86_nofuse_fst_partial C86_nofuse_precut_partial C87_terminates_partial C87_violated C88_union C88_intersection C88_difference C88_are_equal C89_add C89_remove_partial C89_set_names C89_set_range C89_set_range_unnamed C89_copy_partial C89_library_partial C89_dep_names
