{
 "claims": [
  {
   "property": "C01",
   "status": "proved",
   "theorems": [
    "Pluto.C01_gcd_correct",
    "Pluto.C01_lcm_natAbs",
    "Pluto.C01_lcm_sign",
    "Pluto.C01_gcd64",
    "Pluto.C01_gcd64_overflow_witness",
    "Pluto.C01_lcm64",
    "Pluto.C01_lcm64_total"
   ],
   "note": "Unbounded and 64-bit checked models; overflow of the product is a distinct outcome."
  },
  {
   "property": "C02",
   "status": "proved",
   "theorems": [
    "Pluto.C02_simplify_sat",
    "Pluto.C02_simplify_shape",
    "Pluto.C02_simplify_list",
    "Pluto.C02_simplify_union"
   ],
   "note": "Any ordered ring; single systems and lists."
  },
  {
   "property": "C03",
   "status": "proved",
   "theorems": [
    "Pluto.C03_fm_exact",
    "Pluto.C03_fm_sound",
    "Pluto.C03_fm_shape",
    "Pluto.C03_fm_smart_exact",
    "Pluto.C03_fm_smart_sound",
    "Pluto.C03_fm_union",
    "Pluto.C03_fm_sequence"
   ],
   "note": "Exact over ordered fields, sound over ordered rings; unbounded integers. pluto_constraints_project_out itself calls PolyLib and is not modelled."
  },
  {
   "property": "C04",
   "status": "proved",
   "theorems": [
    "Pluto.C04_gauss_defined",
    "Pluto.C04_gauss_exact",
    "Pluto.C04_gauss_sound",
    "Pluto.C04_gauss_shape",
    "Pluto.C04_gauss_union"
   ],
   "note": "Unbounded integers (the C factors are int)."
  },
  {
   "property": "C05",
   "status": "proved",
   "theorems": [
    "Pluto.C05_pure_ineq"
   ],
   "note": ""
  },
  {
   "property": "C06",
   "status": "proved",
   "theorems": [
    "Pluto.C06_farkas_sound",
    "Pluto.C06_farkas_complete",
    "Pluto.C06_farkas_exact",
    "Pluto.C06_farkas_shape",
    "Pluto.C06_farkas_sound_int"
   ],
   "note": "Sound for every domain; exact on non-empty rational domains; integer corollary."
  },
  {
   "property": "C07",
   "status": "proved",
   "theorems": [
    "Pluto.C07_dep_legal",
    "Pluto.C07_permutability_legal",
    "Pluto.C07_dep_exact"
   ],
   "note": "Unbounded integers; sound for all integer instances, exact on non-empty rational polyhedra. --per-cc-obj: C71. skipdeps.txt is not modelled."
  },
  {
   "property": "C08",
   "status": "proved",
   "theorems": [
    "Pluto.C08_dep_bounded",
    "Pluto.C08_permutability_bounded"
   ],
   "note": "Same scope as C07."
  },
  {
   "property": "C09",
   "status": "proved",
   "theorems": [
    "Pluto.C09_dep_strict",
    "Pluto.C09_feautrier_strict",
    "Pluto.C09_dep_exact"
   ],
   "note": "The intermediate simplification that reads a freed object (framework.cpp:646) is left out of the model."
  },
  {
   "property": "C10",
   "status": "partial",
   "theorems": [
    "Pluto.C10_legal_partial",
    "Pluto.C10_diamond_partial",
    "Pluto.C10_violated",
    "Pluto.C10_shape",
    "Pluto.C10_stepwise",
    "Pluto.C10_levels"
   ],
   "note": "C10_legal_partial: without diamond tiling, all options and fusion heuristics, any feasible ILP solutions, any number of iterations. C10_violated: with diamond tiling (default) success is reported with an illegal schedule, because rows of statements fused with the band but scalar at its depth are not replaced. C10_diamond_partial: legal whenever the bands reported by diamond tiling are not entered or left by unsatisfied dependences and lie among the hyperplanes just found. Elsewhere: --dfp (C56), .fst/.precut (C72), --per-cc-obj (C71)."
  },
  {
   "property": "C11",
   "status": "proved",
   "theorems": [
    "Pluto.C11_failure_restores",
    "Pluto.C11_no_false_success",
    "Pluto.C11_failure_restores_diamond"
   ],
   "note": "With and without diamond tiling (all options except --dfp); also, without diamond tiling, an unsatisfiable dependence never yields success."
  },
  {
   "property": "C12",
   "status": "proved",
   "theorems": [
    "Pluto.C12_test_exact",
    "Pluto.C12_test_defined",
    "Pluto.C12_update",
    "Pluto.C12_compute",
    "Pluto.C12_precise"
   ],
   "note": "Emptiness of integer sets (ISL/PIP) is an oracle argument with its specification as hypothesis."
  },
  {
   "property": "C13",
   "status": "proved",
   "theorems": [
    "Pluto.C13_direction",
    "Pluto.C13_direction_defined",
    "Pluto.C13_directions"
   ],
   "note": "Same oracle as C12."
  },
  {
   "property": "C14",
   "status": "proved",
   "theorems": [
    "Pluto.C14_scc",
    "Pluto.C14_order"
   ],
   "note": "Kosaraju search of ddg.c for graphs of any size; qsort by finish number modelled by insertion sort."
  },
  {
   "property": "C15",
   "status": "proved",
   "theorems": [
    "Pluto.C15_cut_all",
    "Pluto.C15_cut_useful"
   ],
   "note": "cut_all_sccs, cut_between_sccs and cut_scc_dim_based."
  },
  {
   "property": "C16",
   "status": "partial",
   "theorems": [
    "Pluto.C16_violated",
    "Pluto.C16_cc_partial",
    "Pluto.C16_consecutive_partial"
   ],
   "note": "The code violates the property (C16_violated): the id of an already visited vertex is overwritten. Proved instead: the number of components is right, and the exact ids assigned; ids are right when components are numbered consecutively."
  },
  {
   "property": "C17",
   "status": "partial",
   "theorems": [
    "Pluto.C17_violated",
    "Pluto.C17_closure_partial",
    "Pluto.C17_transitive_partial"
   ],
   "note": "The code violates the property (C17_violated): loop order. Proved instead: every non-zero entry is a path, paths of at most two edges are found, exact on transitive graphs."
  },
  {
   "property": "C18",
   "status": "proved",
   "theorems": [
    "Pluto.C18_exactly_once",
    "Pluto.C18_schedule",
    "Pluto.C18_dependences"
   ],
   "note": "pluto_tile_band and pluto_tile_scattering_dims; tile sizes are an argument (their selection is not part of this property). Domains, schedules and dependence polyhedra."
  },
  {
   "property": "C19",
   "status": "partial",
   "theorems": [
    "Pluto.C19_legal_partial",
    "Pluto.C19_violated",
    "Pluto.C19_bands",
    "Pluto.C19_tile_partial"
   ],
   "note": "Tiling is legal for permutable, separated, unmixed bands, and the bands pluto_tile selects have these properties for every schedule that satisfies each dependence at one level (C19_tile_partial). Violated when a band mixes scalar and loop rows at one level (C19_violated)."
  },
  {
   "property": "C20",
   "status": "partial",
   "theorems": [
    "Pluto.C20_effect",
    "Pluto.C20_order_partial",
    "Pluto.C20_parallel_partial",
    "Pluto.C20_inner_parallel",
    "Pluto.C20_forward",
    "Pluto.C20_violated",
    "Pluto.C20_violated_innerpar"
   ],
   "note": "Order and same-wavefront claims proved for bands whose dependences are non-negative on the added levels; parallelism stays sound. Violated for bands with a scalar level inside (C20_violated) and with --innerpar (C20_violated_innerpar)."
  },
  {
   "property": "C21",
   "status": "proved",
   "theorems": [
    "Pluto.C21_info",
    "Pluto.C21_parallel",
    "Pluto.C21_parallel_loops",
    "Pluto.C21_rejected"
   ],
   "note": "all loops accepted by the parallelism test; the recorded satisfaction/direction data is the one C12/C13 establish (Prog.Info)"
  },
  {
   "property": "C22",
   "status": "proved",
   "theorems": [
    "Pluto.C22_inverse",
    "Pluto.C22_defined"
   ],
   "note": "Entries are unbounded integers; the C code keeps divisors in int."
  },
  {
   "property": "C23",
   "status": "proved",
   "theorems": [
    "Pluto.C23_same_element",
    "Pluto.C23_defined"
   ],
   "note": "Entries are unbounded integers; the C code keeps divisors in int."
  },
  {
   "property": "C24",
   "status": "partial",
   "theorems": [
    "Pluto.C24_split_partial",
    "Pluto.C24_defined",
    "Pluto.C24_violated",
    "Pluto.C24_iss_dep_partial"
   ],
   "note": "pluto_iss_dep as a whole, with its cuts shown to partition the space; every dependent pair in exactly one new dependence. The splitting frees all dependences and keeps pointing at them when none of them has a pair (C24_violated); defined otherwise (C24_defined)."
  },
  {
   "property": "C25",
   "status": "partial",
   "theorems": [
    "Pluto.C25_rank_partial",
    "Pluto.C25_lower_partial",
    "Pluto.C25_violated"
   ],
   "note": "Violated: get_rank counts non-zero rows after an elimination that stops too early when there are more columns than rows. Proved exact for ncols <= nrows and as upper bound always."
  },
  {
   "property": "C26",
   "status": "partial",
   "theorems": [
    "Pluto.C26_matrix",
    "Pluto.C26_matrix_inv",
    "Pluto.C26_matrix_meaning",
    "Pluto.C26_mixed_matrix",
    "Pluto.C26_equalities",
    "Pluto.C26_print_read",
    "Pluto.C26_violated_union",
    "Pluto.C26_violated_sequence",
    "Pluto.C26_glpk"
   ],
   "note": "Matrix conversions, the problem set up for GLPK and single-system print/read are proved; unions and sequences of systems do not read back (C26_violated_union, C26_violated_sequence)."
  },
  {
   "property": "C27",
   "status": "proved",
   "theorems": [
    "Pluto.C27_add_dim",
    "Pluto.C27_add_dim_shape",
    "Pluto.C27_add_leading_dims",
    "Pluto.C27_remove_add_dim",
    "Pluto.C27_remove_dim",
    "Pluto.C27_interchange_cols",
    "Pluto.C27_add",
    "Pluto.C27_add_shape",
    "Pluto.C27_shift_dim",
    "Pluto.C27_add_lb",
    "Pluto.C27_add_ub",
    "Pluto.C27_set_var",
    "Pluto.C27_universe",
    "Pluto.C27_empty",
    "Pluto.C27_select_remove_row"
   ],
   "note": "All dimension and row editing functions: add/remove dim, interchange columns, add, shift_dim, bounds, set_var, universe, empty, select/remove row."
  },
  {
   "property": "C28",
   "status": "proved",
   "theorems": [
    "Pluto.C28_lexmin",
    "Pluto.C28_ncols"
   ],
   "note": "The exact lexicographic integer solver (ISL, PIP, GLPK) is an argument with its specification as hypothesis; systems with at least one row."
  },
  {
   "property": "C29",
   "status": "partial",
   "theorems": [
    "Pluto.C29_half_spaces",
    "Pluto.C29_half_spaces_defined",
    "Pluto.C29_violated",
    "Pluto.C29_negate_partial",
    "Pluto.C29_negate_others",
    "Pluto.C29_negate_row"
   ],
   "note": "Half spaces, negate_row proved; pluto_negate_constraints is the complement only when the constant is 0 (C29_violated, C29_negate_partial)."
  },
  {
   "property": "C30",
   "status": "partial",
   "theorems": [
    "Pluto.C30_lb_partial",
    "Pluto.C30_ub_partial",
    "Pluto.C30_violated_eq",
    "Pluto.C30_violated_coeff",
    "Pluto.C30_violated_int_min"
   ],
   "note": "Bounds are right for inequality rows with unit coefficients; violated for equalities, larger coefficients and values at INT_MIN."
  },
  {
   "property": "C31",
   "status": "partial",
   "theorems": [
    "Pluto.C31_extent_partial",
    "Pluto.C31_violated"
   ],
   "note": "Extent is right for constant widths under stated shape; violated in general (C31_violated)."
  },
  {
   "property": "C32",
   "status": "partial",
   "theorems": [
    "Pluto.C32_add_remove_partial",
    "Pluto.C32_add_dim",
    "Pluto.C32_add_dim_deps",
    "Pluto.C32_accesses",
    "Pluto.C32_violated"
   ],
   "note": "Adding a dimension keeps domain, schedule, accesses and dependences; add then remove restores all of them except bounding_poly, which keeps the extra columns (C32_violated)."
  },
  {
   "property": "C33",
   "status": "proved",
   "theorems": [
    "Pluto.C33_schedule",
    "Pluto.C33_new_domain",
    "Pluto.C33_iterations"
   ],
   "note": "For domains with one polyhedron; intersection and projection by PolyLib are arguments assumed exact over the rationals (existence proved)."
  },
  {
   "property": "C34",
   "status": "partial",
   "theorems": [
    "Pluto.C34_defined",
    "Pluto.C34_loops",
    "Pluto.C34_share_partial",
    "Pluto.C34_violated"
   ],
   "note": "C34_violated: loops are shared across levels that mix scalar and loop rows; sharing proved under uniformity"
  },
  {
   "property": "C35",
   "status": "partial",
   "theorems": [
    "Pluto.C35_permute_partial",
    "Pluto.C35_innermost_partial",
    "Pluto.C35_parallel_innermost",
    "Pluto.C35_violated",
    "Pluto.C35_violated_tiling"
   ],
   "note": "violated for dependences satisfied only by several levels together (C35_violated, C35_violated_tiling); proved otherwise"
  },
  {
   "property": "C36",
   "status": "partial",
   "theorems": [
    "Pluto.C36_set_sll",
    "Pluto.C36_fits",
    "Pluto.C36_get_num_exact",
    "Pluto.C36_get_num_large",
    "Pluto.C36_get_num_small",
    "Pluto.C36_violated",
    "Pluto.C36_get_num_partial"
   ],
   "note": "Conversion exact on the range that fits; saturation has the wrong sign (C36_violated)."
  },
  {
   "property": "C37",
   "status": "proved",
   "theorems": [
    "Pluto.C37_needs",
    "Pluto.C37_eager",
    "Pluto.C37_lazy",
    "Pluto.C37_rows"
   ],
   "note": "isl_mat_right_kernel is an argument specified as a generating set of the null space; with --per-cc-obj see C71."
  },
  {
   "property": "C38",
   "status": "proved",
   "theorems": [
    "Pluto.C38_default_bound",
    "Pluto.C38_bounds",
    "Pluto.C38_nontrivial_eager",
    "Pluto.C38_nonzero",
    "Pluto.C38_nontrivial_lazy"
   ],
   "note": "Exact characterisation of the bounds; eager and lazy mode."
  },
  {
   "property": "C39",
   "status": "proved",
   "theorems": [
    "Pluto.C39_append",
    "Pluto.C39_row_value",
    "Pluto.C39_row_zero",
    "Pluto.C39_added_rows_legal"
   ],
   "note": ""
  },
  {
   "property": "C40",
   "status": "partial",
   "theorems": [
    "Pluto.C40_add_stmt",
    "Pluto.C40_remove_stmt_partial",
    "Pluto.C40_violated"
   ],
   "note": "pluto_add_stmt is proved; pluto_remove_stmt keeps dependences attached only when none involves the removed statement (C40_violated)."
  },
  {
   "property": "C41",
   "status": "proved",
   "theorems": [
    "Pluto.C41_pad_unpad"
   ],
   "note": ""
  },
  {
   "property": "C42",
   "status": "proved",
   "theorems": [
    "Pluto.C42_cone",
    "Pluto.C42_involution",
    "Pluto.C42_row"
   ],
   "note": "Rescheduling is an involution and puts the evicted hyperplane back; every band reported by diamond tiling had a sequential outermost loop, and its face is a positive combination of the new and the other tiling hyperplanes and crosses all dependences of the band strictly, with and without --fulldiamondtile, provided the statement has fewer than nvar other loops in the band (room for the multipliers; always so by default when nvar >= 2)."
  },
  {
   "property": "C43",
   "status": "partial",
   "theorems": [
    "Pluto.C43_nearest_partial",
    "Pluto.C43_round_partial",
    "Pluto.C43_zero_factor",
    "Pluto.C43_violated"
   ],
   "note": "Right for sizes without 32-bit wrap-around; violated at the top of the range (C43_violated)."
  },
  {
   "property": "C44",
   "status": "partial",
   "theorems": [
    "Pluto.C44_partial",
    "Pluto.C44_factor_one_partial",
    "Pluto.C44_violated"
   ],
   "note": "pluto_stripmine keeps only iterations whose schedule value is a multiple of the factor (C44_violated); nothing is lost for factor 1."
  },
  {
   "property": "C45",
   "status": "partial",
   "theorems": [
    "Pluto.C45_remove_col",
    "Pluto.C45_remove_row",
    "Pluto.C45_add_col",
    "Pluto.C45_add_row",
    "Pluto.C45_add_remove_col",
    "Pluto.C45_add_remove_row",
    "Pluto.C45_interchange_rows",
    "Pluto.C45_interchange_cols",
    "Pluto.C45_interchange_cols_int_partial",
    "Pluto.C45_interchange_cols_int_violated",
    "Pluto.C45_move_col",
    "Pluto.C45_reverse_rows",
    "Pluto.C45_product",
    "Pluto.C45_product_none",
    "Pluto.C45_identity",
    "Pluto.C45_negate",
    "Pluto.C45_equal"
   ],
   "note": "All edits proved; pluto_matrix_interchange_cols truncates through an int temporary (violation witness), exact when entries fit in int."
  },
  {
   "property": "C46",
   "status": "partial",
   "theorems": [
    "Pluto.C46_add_dim",
    "Pluto.C46_remove_add_dim",
    "Pluto.C46_interchange_cols",
    "Pluto.C46_set_var",
    "Pluto.C46_add_lb",
    "Pluto.C46_add_ub",
    "Pluto.C46_unionize_simple",
    "Pluto.C46_unionize_simple_return_partial",
    "Pluto.C46_isl_set",
    "Pluto.C46_extract_domain",
    "Pluto.C46_extract_domain_partial",
    "Pluto.C46_violated_extract",
    "Pluto.C46_is_empty",
    "Pluto.C46_add_to_each_partial",
    "Pluto.C46_violated_add_to_each"
   ],
   "note": "All list operations are exact except add_to_each on full allocations and extract_basic_set of a union with more than two pieces (both shown violated)."
  },
  {
   "property": "C47",
   "status": "proved",
   "theorems": [
    "Pluto.C47_weight",
    "Pluto.C47_absent"
   ],
   "note": "Weights after ddg_create and ddg_update."
  },
  {
   "property": "C48",
   "status": "partial",
   "theorems": [
    "Pluto.C48_relation",
    "Pluto.C48_union_partial",
    "Pluto.C48_violated"
   ],
   "note": "Proved for domains with one polyhedron and for unions whose pieces share their tile constraints; refuted for other unions (C48_violated)."
  },
  {
   "property": "C49",
   "status": "proved",
   "theorems": [
    "Pluto.C49_near_midpoint",
    "Pluto.C49_none",
    "Pluto.C49_defined"
   ],
   "note": "Exact lexicographic solver (PIP/isl) as an argument; Farkas elimination is modelled and proved."
  },
  {
   "property": "C50",
   "status": "partial",
   "theorems": [
    "Pluto.C50_innerpar_partial",
    "Pluto.C50_tile_partial",
    "Pluto.C50_forward"
   ],
   "note": "C50_tile_partial: without --innerpar; C50_innerpar_partial: with it (no condition on the bands; the loops then reported parallel are wrong: C51_violated_innerpar). Missing: levels mixing scalar and loop rows, dependences satisfied by several levels jointly, wavefronts over bands with scalar levels (false there). Diamond tiling: C79."
  },
  {
   "property": "C51",
   "status": "partial",
   "theorems": [
    "Pluto.C51_violated_innerpar",
    "Pluto.C51_parallel_partial",
    "Pluto.C51_no_wavefront_partial"
   ],
   "note": "With --innerpar false: C51_violated_innerpar. Without --parallel every loop, whatever its statements: C51_no_wavefront_partial. Missing: as C50_tile_partial, and, with wavefronts, loops starting at a band's first level with only some of its statements. With diamond tiling: C79_parallel_partial."
  },
  {
   "property": "C52",
   "status": "partial",
   "theorems": [
    "Pluto.C52_innerpar_post_partial",
    "Pluto.C52_innerpar_partial",
    "Pluto.C52_innerpar_same_depth_partial",
    "Pluto.C52_innerpar_diamond_partial",
    "Pluto.C52_post_partial",
    "Pluto.C52_schedule_partial",
    "Pluto.C52_same_depth_partial",
    "Pluto.C52_failure",
    "Pluto.C52_reports",
    "Pluto.C52_post_diamond_partial"
   ],
   "note": "C52_schedule_partial, C52_same_depth_partial: without diamond tiling and --innerpar, when the search stays in EAGER mode, for schedules whose levels are uniform (always so if all statements have equally many loops) and wavefronts over bands without scalar levels; C52_innerpar_partial, C52_innerpar_same_depth_partial: with --innerpar, no condition on the bands; C52_post_diamond_partial: the passes after the search with diamond tiling, if the schedules before eviction are legal; C52_failure: failure keeps the schedules. Missing: the excluded cases, partly false (C10_violated, C19_violated, C20_violated, C79_violated). C52_innerpar_diamond_partial: diamond tiling with --innerpar."
  },
  {
   "property": "C53",
   "status": "partial",
   "theorems": [
    "Pluto.C53_dominating",
    "Pluto.C53_outermost",
    "Pluto.C53_innermost",
    "Pluto.C53_band_partial",
    "Pluto.C53_mark_partial",
    "Pluto.C53_mark_any_partial",
    "Pluto.C53_vector",
    "Pluto.C53_violated",
    "Pluto.C53_violated_band",
    "Pluto.C53_vector_tiled_partial",
    "Pluto.C53_vector_post_partial"
   ],
   "note": "dominating/outermost/innermost loops and vector marking proved in full; parallel marking proved when dominating parallel loops exist in the AST; otherwise violated (off by one) After tiling, and after all of pluto_schedule_prog, without --parallel: C53_vector_tiled_partial, C53_vector_post_partial."
  },
  {
   "property": "C54",
   "status": "partial",
   "theorems": [
    "Pluto.C54_mark_partial",
    "Pluto.C54_jam_partial",
    "Pluto.C54_violated"
   ],
   "note": "proved when permutable bands reach the innermost loops; violated otherwise"
  },
  {
   "property": "C55",
   "status": "partial",
   "theorems": [
    "Pluto.C55_colour_sound",
    "Pluto.C55_colour_complete",
    "Pluto.C55_blocks",
    "Pluto.C55_update_partial",
    "Pluto.C55_update_violated"
   ],
   "note": "Colouring is proved sound and complete. The edge update is proved for all fusion modes but --nofuse, where the code violates it (C55_update_violated). --lpcolor: C80; typed fusion and --clusterscc: see C56, C75, C76, C77."
  },
  {
   "property": "C56",
   "status": "partial",
   "theorems": [
    "Pluto.C56_order_partial",
    "Pluto.C56_quiet",
    "Pluto.C56_shape",
    "Pluto.C56_loops_partial",
    "Pluto.C56_injective_partial",
    "Pluto.C56_self_partial",
    "Pluto.C56_legal_partial",
    "Pluto.C56_marked_partial",
    "Pluto.C56_violated",
    "Pluto.C56_lp_partial",
    "Pluto.C56_lp_order_partial",
    "Pluto.C56_violated_lp"
   ],
   "note": "Proved for runs in which no skew is introduced: never reversed; unordered only inside a cycle of dependences between statements and then marked unsatisfied; permutation of loops; full legality without such cycles or if all dependences are marked satisfied. C56_shape: all runs. For integer solvers, and for GLPK with --lp if dependences join neighbouring statements (C56_lp_partial). In general the code violates the property (C56_violated; C56_violated_lp: with --lp, the default, a dependence is reversed and marked satisfied)."
  },
  {
   "property": "C57",
   "status": "partial",
   "theorems": [
    "Pluto.C57_unchanged",
    "Pluto.C57_levels",
    "Pluto.C57_leading",
    "Pluto.C57_component_partial",
    "Pluto.C57_nonneg_partial",
    "Pluto.C57_violated",
    "Pluto.C57_negative",
    "Pluto.C57_skew_dims",
    "Pluto.C57_source_dims",
    "Pluto.C57_next_level",
    "Pluto.C57_exchange_level",
    "Pluto.C57_exchange",
    "Pluto.C57_parallel_row",
    "Pluto.C57_set_once",
    "Pluto.C57_constraints",
    "Pluto.C57_set_types",
    "Pluto.C57_single"
   ],
   "note": "Proved: which loops are skewed and by which (C57_negative, C57_skew_dims, C57_source_dims, C57_next_level, C57_exchange_level, C57_exchange, C57_parallel_row), each level once from the outside in (C57_set_once); unchanged if no skew is reported; only rows of loop levels change; what leading scalar levels order stays ordered; with one connected component, every level keeps the distances of an old level or has none that is negative. Missing: legality in general; the code violates it with several components (C57_violated)."
  },
  {
   "property": "C58",
   "status": "partial",
   "theorems": [
    "Pluto.C58_oracle",
    "Pluto.C58_self",
    "Pluto.C58_conflict",
    "Pluto.C58_same",
    "Pluto.C58_unrelated",
    "Pluto.C58_distribute",
    "Pluto.C58_violated"
   ],
   "note": "Proved: the exact meaning of every edge (self edges, edges between loops of directly dependent statements, of the same statement, of unrelated statements). Missing: that pairwise conflict-free loops give a level; the code violates it for more than two statements (C58_violated)."
  },
  {
   "property": "C59",
   "status": "partial",
   "theorems": [
    "Pluto.C59_to_map",
    "Pluto.C59_to_map_exact",
    "Pluto.C59_from_set",
    "Pluto.C59_to_set",
    "Pluto.C59_round_trip",
    "Pluto.C59_from_map_partial",
    "Pluto.C59_violated_from_map",
    "Pluto.C59_union",
    "Pluto.C59_intersection",
    "Pluto.C59_copy",
    "Pluto.C59_intersect",
    "Pluto.C59_project_partial",
    "Pluto.C59_violated_project"
   ],
   "note": "proved: conversions of sets both ways, relations to constraints, union, intersection, copy, intersect; relations from constraints proved for entries of 32 bits (violated beyond, C59_violated_from_map); projection through isl proved to contain the projection (violated: it may be larger, C59_violated_project)"
  },
  {
   "property": "C60",
   "status": "partial",
   "theorems": [
    "Pluto.C60_innerpar_partial",
    "Pluto.C60_schedules",
    "Pluto.C60_extract",
    "Pluto.C60_transform",
    "Pluto.C60_null",
    "Pluto.C60_transform_partial",
    "Pluto.C60_accesses"
   ],
   "note": "extraction and conversion back proved in full (C60_extract, C60_schedules, C60_null, C60_transform for any legal scheduler); composition with pluto_schedule_prog under the conditions of C52_schedule_partial and coefficients in the range of int; with --innerpar: C60_innerpar_partial"
  },
  {
   "property": "C61",
   "status": "proved",
   "theorems": [
    "Pluto.C61_all",
    "Pluto.C61_last",
    "Pluto.C61_complete",
    "Pluto.C61_sound"
   ],
   "note": "isl's flow analysis is an argument with a specification"
  },
  {
   "property": "C62",
   "status": "partial",
   "theorems": [
    "Pluto.C62_order",
    "Pluto.C62_schedule_partial",
    "Pluto.C62_violated_null",
    "Pluto.C62_deps_computed",
    "Pluto.C62_innerpar_partial"
   ],
   "note": "composition of C61 and C60; under the conditions of C60_transform_partial; violated with lastwriter and isldepcoalesce together (C62_violated_null); with --innerpar: C62_innerpar_partial"
  },
  {
   "property": "C63",
   "status": "partial",
   "theorems": [
    "Pluto.C63_file",
    "Pluto.C63_order",
    "Pluto.C63_transformed",
    "Pluto.C63_tool_partial",
    "Pluto.C63_violated_text",
    "Pluto.C63_private",
    "Pluto.C63_private_list_partial",
    "Pluto.C63_private_fits",
    "Pluto.C63_violated_private",
    "Pluto.C63_violated_overflow",
    "Pluto.C63_pragmas",
    "Pluto.C63_first_point",
    "Pluto.C63_innerpar_partial"
   ],
   "note": "File, order of generated code, clauses of pluto_mark_parallel, pragmas and first point loop: proved. The composition with the whole tool has the restrictions of C52; the private clauses of pluto_get_parallel_loop_list are wrong with vector loops. With --innerpar: C63_innerpar_partial."
  },
  {
   "property": "C64",
   "status": "partial",
   "theorems": [
    "Pluto.C64_names",
    "Pluto.C64_dead",
    "Pluto.C64_program",
    "Pluto.C64_complete",
    "Pluto.C64_sound",
    "Pluto.C64_violated_stride",
    "Pluto.C64_violated_dead",
    "Pluto.C64_violated_access",
    "Pluto.C64_context"
   ],
   "note": "Proved for domains without existentially quantified variables, modulo the specification of isl's flow analysis; accesses are right when every access map is one basic map. Violated for strided loops, dead code and access numbers (C64_violated_*)."
  },
  {
   "property": "C65",
   "status": "partial",
   "theorems": [
    "Pluto.C65_innerpar_partial",
    "Pluto.C65_tool_innerpar_partial",
    "Pluto.C65_tool_osl_innerpar_partial",
    "Pluto.C65_maps",
    "Pluto.C65_schedule_partial",
    "Pluto.C65_osl",
    "Pluto.C65_tool_osl_partial",
    "Pluto.C65_parallel",
    "Pluto.C65_tool_partial",
    "Pluto.C65_order",
    "Pluto.C65_needed",
    "Pluto.C65_pet"
   ],
   "note": "Proved for the tool (pet and OpenScop paths, sequential and with parallel loops) and for pluto_schedule under the conditions of C52/C62 (no diamond tiling, EAGER mode, uniform levels), C63, C64 and C68; C65_order is the general exchange theorem. C65_innerpar_partial: pluto_schedule with --innerpar. C65_tool_innerpar_partial, C65_tool_osl_innerpar_partial: the tool with --innerpar, if only loops that carry no dependence are run in parallel."
  },
  {
   "property": "C66",
   "status": "partial",
   "theorems": [
    "Pluto.C66_scaled_partial",
    "Pluto.C66_legal_partial",
    "Pluto.C66_ilp",
    "Pluto.C66_violated_dfp_ilp",
    "Pluto.C66_violated_components",
    "Pluto.C66_violated_bound",
    "Pluto.C66_violated_lexmin"
   ],
   "note": "Proved: with --lp the coefficients are those of a rational point of the constraints times a factor (>= 1) of the component id of the statement, and scaling never fails (C66_scaled_partial); dependences inside components that are not interrupted are kept (C66_legal_partial); without --lp and --dfp the result minimises the weighted objective (C66_ilp). Does not hold: interrupted components (C66_violated_components), the bound (C66_violated_bound), --dfp --ilp (C66_violated_dfp_ilp), lexicographic order (C66_violated_lexmin). Doubles are modelled as rationals."
  },
  {
   "property": "C67",
   "status": "partial",
   "theorems": [
    "Pluto.C67_dfp_partial",
    "Pluto.C67_dfp_post_partial",
    "Pluto.C67_innerpar_partial",
    "Pluto.C67_auto",
    "Pluto.C67_post",
    "Pluto.C67_schedule",
    "Pluto.C67_remap_defined",
    "Pluto.C67_remap_inverse",
    "Pluto.C67_library",
    "Pluto.C67_library_partial",
    "Pluto.C67_violated_loops"
   ],
   "note": "one-to-one and remapping proved for the auto-transformation and the passes after it, with diamond rescheduling in C79_one_to_one_partial, and for --dfp runs without skew (C67_dfp_partial, C67_dfp_post_partial); the parallel loop list is shown wrong; --dfp runs that introduce a skew are not covered. With --innerpar: C67_innerpar_partial."
  },
  {
   "property": "C68",
   "status": "partial",
   "theorems": [
    "Pluto.C68_scattering",
    "Pluto.C68_access",
    "Pluto.C68_program",
    "Pluto.C68_complete",
    "Pluto.C68_sound",
    "Pluto.C68_violated_width",
    "Pluto.C68_violated_candl",
    "Pluto.C68_violated_union",
    "Pluto.C68_populate",
    "Pluto.C68_violated_populate"
   ],
   "note": "Proved for scops as clan makes them (one relation per domain, functions as scattering and accesses, entries that fit int): C68_program, C68_complete, C68_sound, C68_populate. The full property is violated for candl's dependences, unions, wide constants and after index-set splitting (theorems C68_violated_*)."
  },
  {
   "property": "C69",
   "status": "partial",
   "theorems": [
    "Pluto.C69_invariant",
    "Pluto.C69_spatial",
    "Pluto.C69_spatial_exact_partial",
    "Pluto.C69_vectorizable",
    "Pluto.C69_best",
    "Pluto.C69_best_exists",
    "Pluto.C69_best_member",
    "Pluto.C69_prefers_vectorizable_partial",
    "Pluto.C69_unique",
    "Pluto.C69_registers_partial",
    "Pluto.C69_profitable_partial",
    "Pluto.C69_violated_best",
    "Pluto.C69_violated_stride",
    "Pluto.C69_violated_unique",
    "Pluto.C69_violated_registers",
    "Pluto.C69_profitable_exact",
    "Pluto.C69_profitable_reuse"
   ],
   "note": "Proved: invariance, soundness of spatial reuse and of vectorizability, the choice is a loop of greatest score, unique accesses listed once. Partial: spatial reuse exact for divisors 1; preference for vectorizable loops with fewer than four accesses; register bound when inner loops have equal counts. Violated otherwise. C69_profitable_exact, C69_profitable_reuse: when unroll-jam counts as profitable."
  },
  {
   "property": "C70",
   "status": "partial",
   "theorems": [
    "Pluto.C70_innerpar_partial",
    "Pluto.C70_tile_innerpar_partial",
    "Pluto.C70_any_sizes_partial",
    "Pluto.C70_find_partial",
    "Pluto.C70_violated_find",
    "Pluto.C70_violated_least",
    "Pluto.C70_wavefront",
    "Pluto.C70_vector_dim",
    "Pluto.C70_find_used",
    "Pluto.C70_par_loop",
    "Pluto.C70_default",
    "Pluto.C70_any_file",
    "Pluto.C70_first_level_partial",
    "Pluto.C70_second_level_partial",
    "Pluto.C70_ratios_partial",
    "Pluto.C70_tile_partial",
    "Pluto.C70_violated_comment",
    "Pluto.C70_violated_text",
    "Pluto.C70_violated_short",
    "Pluto.C70_violated_ratios",
    "Pluto.C70_violated_force"
   ],
   "note": "Proved: default sizes without a file; any file with positive numbers gives legal tilings; legality for any sizes from any source. Partial: sizes and ratios in order for files of numbers only with enough numbers; default ratios if two or more are missing; selected sizes complete and multiples of the unroll factor unless rounding wraps. Violated: comments, too few numbers, --ft/--lt, selection without a parallel loop, least reuse. The reuse polynomial: C85. Not modelled: floating point. C70_find_used, C70_wavefront, C70_vector_dim: what tile size detection finds. With --innerpar: C70_innerpar_partial, C70_tile_innerpar_partial."
  },
  {
   "property": "C71",
   "status": "partial",
   "theorems": [
    "Pluto.C71_system",
    "Pluto.C71_bounds",
    "Pluto.C71_same_hyperplanes",
    "Pluto.C71_legal_partial",
    "Pluto.C71_failure_restores",
    "Pluto.C71_sum_partial",
    "Pluto.C71_sum_rows",
    "Pluto.C71_violated_sum",
    "Pluto.C71_violated_sum_lost",
    "Pluto.C71_columns_partial",
    "Pluto.C71_violated_growth",
    "Pluto.C71_growth_infeasible",
    "Pluto.C71_violated_diamond"
   ],
   "note": "Exactness of the system, bounds per component, legality and restoration for all programs that do not hit the faults shown: C71_violated_sum (wrong columns with parameters), C71_violated_growth (rows longer than allocated after a cut), C71_violated_diamond (assertion fails)."
  },
  {
   "property": "C72",
   "status": "partial",
   "theorems": [
    "Pluto.C72_no_files",
    "Pluto.C72_too_many",
    "Pluto.C72_fst_partial",
    "Pluto.C72_precut_partial",
    "Pluto.C72_failure_restores",
    "Pluto.C72_violated_order",
    "Pluto.C72_violated_unlisted",
    "Pluto.C72_violated_check",
    "Pluto.C72_violated_params",
    "Pluto.C72_violated_type",
    "Pluto.C72_violated_rows",
    "Pluto.C72_types_partial",
    "Pluto.C72_fst_accepted"
   ],
   "note": "C72_fst_partial, C72_precut_partial: for files that fit the program and put no dependent pair in the wrong order, success means legal and the rows of the file come first (without diamond tiling). C72_failure_restores: any .fst, fitting .precut. C72_too_many, C72_no_files. Violated: order not checked (C72_violated_order, _unlisted, _check), parameters dropped (_params), loops called scalar (_type), unequal numbers of rows (_rows). C72_fst_accepted, C72_types_partial: which files are accepted and which types rows get."
  },
  {
   "property": "C73",
   "status": "partial",
   "theorems": [
    "Pluto.C73_param",
    "Pluto.C73_param_legal",
    "Pluto.C73_interchange",
    "Pluto.C73_interchange_legal_partial",
    "Pluto.C73_separate",
    "Pluto.C73_separate_legal",
    "Pluto.C73_separate_one",
    "Pluto.C73_violated_param",
    "Pluto.C73_violated_types"
   ],
   "note": "Adding a parameter and separating statements proved in full (C73_param, C73_param_legal, C73_separate, C73_separate_legal as an equivalence, C73_separate_one); interchange: exact effect on all times proved, legality under permutability of the levels in between. Missing: the code leaves the recorded types of the statements unchanged on interchange (C73_violated_types) and does not extend bounding_poly for a new parameter (C73_violated_param)."
  },
  {
   "property": "C74",
   "status": "partial",
   "theorems": [
    "Pluto.C74_last_piece_partial",
    "Pluto.C74_access_partial",
    "Pluto.C74_stmt_partial",
    "Pluto.C74_times_partial",
    "Pluto.C74_initial_legal_partial",
    "Pluto.C74_divs",
    "Pluto.C74_unused_divs",
    "Pluto.C74_violated_mixed_div",
    "Pluto.C74_violated_rational",
    "Pluto.C74_violated_floor",
    "Pluto.C74_violated_pieces",
    "Pluto.C74_violated_order",
    "Pluto.C74_violated_empty"
   ],
   "note": "The matrix is the map if every dimension is a single affine expression with integer coefficients (C74_access_partial, C74_stmt_partial); otherwise it is the last piece (C74_last_piece_partial). Hence the initial schedule is the order of the scop and is legal (C74_times_partial, C74_initial_legal_partial). Missing: what the code gets wrong, C74_violated_rational, _floor, _pieces, _order, _empty. C74_divs, C74_unused_divs, C74_violated_mixed_div: the effect of integer divisions."
  },
  {
   "property": "C75",
   "status": "partial",
   "theorems": [
    "Pluto.C75_order_partial",
    "Pluto.C75_quiet",
    "Pluto.C75_shape",
    "Pluto.C75_marked_partial",
    "Pluto.C75_acyclic_partial",
    "Pluto.C75_violated",
    "Pluto.C75_loops_partial",
    "Pluto.C75_injective_partial",
    "Pluto.C75_self_partial",
    "Pluto.C75_legal_partial",
    "Pluto.C75_violated_cycle",
    "Pluto.C75_violated_termination",
    "Pluto.C75_rebuild_partial"
   ],
   "note": "Order up to ties of cyclic unsatisfied dependences, shape, legality if all dependences are marked satisfied or no statement depends on itself; for equal numbers of loops every loop gets its own row and schedules are one-to-one. Missing: runs with a skew. The code loses a loop (C75_violated), leaves cycles unordered (C75_violated_cycle) and may not return (C75_violated_termination)."
  },
  {
   "property": "C76",
   "status": "partial",
   "theorems": [
    "Pluto.C76_oracle",
    "Pluto.C76_self",
    "Pluto.C76_conflict_partial",
    "Pluto.C76_same",
    "Pluto.C76_unrelated",
    "Pluto.C76_distribute",
    "Pluto.C76_parallel_partial",
    "Pluto.C76_par_self_partial",
    "Pluto.C76_par_partial",
    "Pluto.C76_violated_check",
    "Pluto.C76_violated_nodepbound",
    "Pluto.C76_violated_padding"
   ],
   "note": "Vertices, edges within a component, self edges (exact), edges between dependent components (exact unless a statement number equals a column number, hclash), edges between unrelated components, soundness of the parallelism information without --nodepbound. C76_oracle makes C75 apply. Missing: that a parallelism preventing edge is only there if fusion loses parallelism; the code violates this (C76_violated_check), and exactness in one case (C76_violated_padding), and the parallelism test with --nodepbound (C76_violated_nodepbound)."
  },
  {
   "property": "C77",
   "status": "partial",
   "theorems": [
    "Pluto.C77_faces",
    "Pluto.C77_stencil",
    "Pluto.C77_no_face",
    "Pluto.C77_defined",
    "Pluto.C77_violated_nodepbound",
    "Pluto.C77_violated_sides",
    "Pluto.C77_violated_face"
   ],
   "note": "C77_faces: the face is one. C77_stencil: exact once a face is found, for exact solvers. C77_no_face, C77_defined: an answer for every component without --nodepbound, false without dependences. Missing: dependences on either side are not checked (C77_violated_sides); null pointer with --nodepbound (C77_violated_nodepbound); a face along another axis than the lexicographic minimum is not found (C77_violated_face)."
  },
  {
   "property": "C78",
   "status": "partial",
   "theorems": [
    "Pluto.C78_bounds",
    "Pluto.C78_bounds_exact",
    "Pluto.C78_extent_value_partial",
    "Pluto.C78_extent_partial",
    "Pluto.C78_extent_const_partial",
    "Pluto.C78_box_partial",
    "Pluto.C78_violated_difference",
    "Pluto.C78_violated_equality",
    "Pluto.C78_violated_union"
   ],
   "note": "bounds proved, exact without other variables; extents and boxes under conditions on lower bounds; three violations shown"
  },
  {
   "property": "C79",
   "status": "partial",
   "theorems": [
    "Pluto.C79_tile_partial",
    "Pluto.C79_parallel_partial",
    "Pluto.C79_one_to_one_partial",
    "Pluto.C79_rows",
    "Pluto.C79_violated",
    "Pluto.C79_innerpar_partial"
   ],
   "note": "legality, exact instances, parallel loops and one-to-one times proved for the whole of pluto_tile if the schedules before eviction are legal and permutable, too; false otherwise (C79_violated), and the search does not guarantee it. C79_innerpar_partial: legality with --innerpar. Missing: bands with scalar levels."
  },
  {
   "property": "C80",
   "status": "partial",
   "theorems": [
    "Pluto.C80_feasible_partial",
    "Pluto.C80_marks_partial",
    "Pluto.C80_step_partial",
    "Pluto.C80_reset_partial",
    "Pluto.C80_colour_sound",
    "Pluto.C80_colour_complete_partial",
    "Pluto.C80_violated_colour",
    "Pluto.C80_violated_reset"
   ],
   "note": "soundness of the systems, marks and colouring proved. Missing: dependences whose padding columns clash (C76_violated_padding); the marks after a precise satisfaction test and the completeness of colouring are false in the code (C80_violated_reset, C80_violated_colour)."
  },
  {
   "property": "C81",
   "status": "partial",
   "theorems": [
    "Pluto.C81_print",
    "Pluto.C81_print_total",
    "Pluto.C81_print_injective",
    "Pluto.C81_sprint_partial",
    "Pluto.C81_violated_sprint",
    "Pluto.C81_supernode",
    "Pluto.C81_recognised_partial",
    "Pluto.C81_hyperplane_partial",
    "Pluto.C81_violated_hyperplane",
    "Pluto.C81_bee_partial",
    "Pluto.C81_violated_bee",
    "Pluto.C81_tileloop_partial",
    "Pluto.C81_unroll_jam",
    "Pluto.C81_unroll_jam_legal_partial",
    "Pluto.C81_violated_tileloop",
    "Pluto.C81_violated_level2",
    "Pluto.C81_violated_shift",
    "Pluto.C81_violated_range"
   ],
   "note": "Printed affine functions mean their rows (proved); printing into a buffer, tile functions, --bee and the tile loop test go wrong in the cases shown by the C81_violated theorems, and are proved outside them."
  },
  {
   "property": "C82",
   "status": "partial",
   "theorems": [
    "Pluto.C82_pip_matrix",
    "Pluto.C82_pip_lexmin",
    "Pluto.C82_pip_signed",
    "Pluto.C82_lexmin",
    "Pluto.C82_pretty_partial",
    "Pluto.C82_compact_partial",
    "Pluto.C82_cplex_partial",
    "Pluto.C82_violated_names",
    "Pluto.C82_violated_many",
    "Pluto.C82_violated_cplex",
    "Pluto.C82_violated_columns"
   ],
   "note": "PIP part proved in full. Texts: proved for different names of at most five characters, fewer than 256 columns and (cplex) no false row without coefficients; the code violates the claim otherwise (C82_violated_names, _many, _cplex, _columns)."
  },
  {
   "property": "C83",
   "status": "partial",
   "theorems": [
    "Pluto.C83_scaled_partial",
    "Pluto.C83_legal_partial",
    "Pluto.C83_ilp_partial",
    "Pluto.C83_fcg_partial",
    "Pluto.C83_violated_rows",
    "Pluto.C83_violated_fcg",
    "Pluto.C83_never_parallel",
    "Pluto.C83_violated_parallel",
    "Pluto.C83_violated_bound"
   ],
   "note": "Coefficients: proved for systems without false rows that lack coefficients and (dependences) consecutive components; bound coefficients with --lp are wrong. The code violates the rest (C83_violated_rows, _fcg, _parallel, _bound)."
  },
  {
   "property": "C84",
   "status": "partial",
   "theorems": [
    "Pluto.C84_options_partial",
    "Pluto.C84_solver_partial",
    "Pluto.C84_violated_solver",
    "Pluto.C84_violated_cluster",
    "Pluto.C84_violated_lastwriter",
    "Pluto.C84_violated_refused",
    "Pluto.C84_violated_ilp",
    "Pluto.C84_cloog_file",
    "Pluto.C84_out_file",
    "Pluto.C84_out_name",
    "Pluto.C84_asked"
   ],
   "note": "proved for all builds and flag lists: accepted options fit together, and the solver asked for is called unless Gurobi is the only LP solver built in and is not asked for; five disagreements proved"
  },
  {
   "property": "C85",
   "status": "partial",
   "theorems": [
    "Pluto.C85_footprint_partial",
    "Pluto.C85_volume",
    "Pluto.C85_root_partial",
    "Pluto.C85_high_partial",
    "Pluto.C85_fits_partial",
    "Pluto.C85_rows_partial",
    "Pluto.C85_violated_rows",
    "Pluto.C85_violated_parallel",
    "Pluto.C85_violated_negative",
    "Pluto.C85_violated_twice",
    "Pluto.C85_violated_empty",
    "Pluto.C85_violated_zero",
    "Pluto.C85_violated_assert",
    "Pluto.C85_violated_high",
    "Pluto.C85_band_partial"
   ],
   "note": "proved for subscripts of one loop each and up to degree 2: the polynomial counts the elements a tile touches, and its root gives the largest tiles that fit; eight disagreements proved"
  },
  {
   "property": "C86",
   "status": "partial",
   "theorems": [
    "Pluto.C86_nofuse_partial",
    "Pluto.C86_smart_partial",
    "Pluto.C86_violated_smart_independent",
    "Pluto.C86_nofuse_fst_partial",
    "Pluto.C86_nofuse_precut_partial"
   ],
   "note": "--nofuse (with and without .fst or .precut files) and --smartfuse with a dependence between nests of different depth, without diamond tiling; the code fuses independent nests of different depth (C86_violated_smart_independent)"
  },
  {
   "property": "C87",
   "status": "partial",
   "theorems": [
    "Pluto.C87_terminates_partial",
    "Pluto.C87_violated"
   ],
   "note": "ends within loops + dependences + 2 iterations unless the search comes back empty-handed in LAZY mode with all dependences satisfied; C87_violated: that happens with coeff_bound 0"
  },
  {
   "property": "C88",
   "status": "proved",
   "theorems": [
    "Pluto.C88_union",
    "Pluto.C88_intersection",
    "Pluto.C88_difference",
    "Pluto.C88_is_empty_isl",
    "Pluto.C88_are_equal"
   ],
   "note": "for every PolyLib that meets its contract on integer points"
  },
  {
   "property": "C89",
   "status": "partial",
   "theorems": [
    "Pluto.C89_add",
    "Pluto.C89_remove_partial",
    "Pluto.C89_set_names",
    "Pluto.C89_set_range",
    "Pluto.C89_set_range_unnamed",
    "Pluto.C89_copy_partial",
    "Pluto.C89_unnamed",
    "Pluto.C89_library_partial",
    "Pluto.C89_violated_library",
    "Pluto.C89_violated_copy",
    "Pluto.C89_dep_names",
    "Pluto.C89_violated_remove"
   ],
   "note": "Adding a variable, setting names and ranges of names are proved in full; removing, copying and the library under the conditions stated, since the code violates the claim otherwise (C89_violated_remove, C89_violated_copy, C89_violated_library)."
  }
 ]
}