{
 "claims": [
  {
   "property": "C01",
   "status": "proved",
   "theorems": [
    "OP.SetFam.C01_bufsize",
    "OP.SetFam.C01_bufsize32_exact",
    "OP.SetFam.C01_bufsize32_diverges"
   ],
   "note": "Exact arithmetic for all (length, block); the 32-bit loop agrees up to 2^29 and is proved never to end above 2^30 for the default block."
  },
  {
   "property": "C02",
   "status": "proved",
   "theorems": [
    "OP.SetFam.SSet.C02_sset_is_a_sequence",
    "OP.SetFam.SSet.C02_freed",
    "OP.SetFam.SSet.C02_remove_to_end_wraps"
   ],
   "note": "All histories with insertions up to the current length and removal lengths that do not overflow unsigned; the overflowing case is proved to be undefined behaviour."
  },
  {
   "property": "C03",
   "status": "partial",
   "theorems": [
    "OP.SetFam.SSet.C03_gap_not_constructed",
    "OP.SetFam.SSet.C03_gap_default_partial"
   ],
   "note": "The property is false: the element just before the insertion point is never constructed (proved for every fresh set). The partial theorem gives what does hold."
  },
  {
   "property": "C04",
   "status": "proved",
   "theorems": [
    "OP.SetFam.C04_oset_sort",
    "OP.SetFam.C04_oset_sort_linear"
   ],
   "note": ""
  },
  {
   "property": "C05",
   "status": "proved",
   "theorems": [
    "OP.SetFam.C05_findvalue"
   ],
   "note": ""
  },
  {
   "property": "C06",
   "status": "proved",
   "theorems": [
    "OP.SetFam.C06_cset_sort"
   ],
   "note": ""
  },
  {
   "property": "C07",
   "status": "proved",
   "theorems": [
    "OP.SetFam.Keyed.C07_iset"
   ],
   "note": ""
  },
  {
   "property": "C08",
   "status": "proved",
   "theorems": [
    "OP.SetFam.Keyed.C08_ksset_is_a_map"
   ],
   "note": ""
  },
  {
   "property": "C09",
   "status": "proved",
   "theorems": [
    "OP.SetFam.Keyed.C09_koset",
    "OP.SetFam.Keyed.C09_kiset"
   ],
   "note": ""
  },
  {
   "property": "C10",
   "status": "partial",
   "theorems": [
    "OP.SetFam.Keyed.C10_asset_remove_wrong",
    "OP.SetFam.Keyed.C10_asset_partial",
    "OP.SetFam.Keyed.C10_asset_get_partial"
   ],
   "note": "The property is false: remove acts on the next element (proved for all contents). Histories without remove are proved."
  },
  {
   "property": "C11",
   "status": "proved",
   "theorems": [
    "OP.SetFam.C11_aoset_sort",
    "OP.SetFam.C11_avoset_sort"
   ],
   "note": ""
  },
  {
   "property": "C12",
   "status": "partial",
   "theorems": [
    "OP.Tree.Avl.C12_avl_merged_is_a_map",
    "OP.Tree.Avl.C12_avl_separate_wrong",
    "OP.Tree.Avl.C12_avl_separate_partial",
    "OP.Tree.Avl.C12_avl_separate_no_remove_partial"
   ],
   "note": "Proved in full for self-keyed values. False for separate key and value types: remove exchanges two values and removes nothing (proved for all key pairs); the partial theorem says exactly what every history does instead."
  },
  {
   "property": "C13",
   "status": "proved",
   "theorems": [
    "OP.Tree.Avl.C13_avl_balanced"
   ],
   "note": ""
  },
  {
   "property": "C14",
   "status": "proved",
   "theorems": [
    "OP.Tree.Avl.C14_avl_ranks",
    "OP.Tree.Avl.C13_avl_balanced"
   ],
   "note": "Ranks in C14_avl_ranks; stored weights are in C13_avl_balanced."
  },
  {
   "property": "C15",
   "status": "partial",
   "theorems": [
    "OP.Tree.Avl.C15_avl_positions_partial",
    "OP.Tree.Avl.C15_positions_wrong"
   ],
   "note": "Density, bijectivity and link consistency proved; 'no other element moves' is false, and the partial theorem gives the exact law of movement."
  },
  {
   "property": "C16",
   "status": "proved",
   "theorems": [
    "OP.Tree.Rb.C16_llrb"
   ],
   "note": "All insertion histories; the private remove of the class cannot be called and is not modelled."
  },
  {
   "property": "C17",
   "status": "partial",
   "theorems": [
    "OP.Tree.Rb.C17_remove_missing_wrong",
    "OP.Tree.Rb.C17_remove_missing_partial"
   ],
   "note": "False for every non-empty tree and every key above all stored keys (proved in that generality). The partial theorem: otherwise contents are unchanged, and keys below every stored key are harmless."
  },
  {
   "property": "C18",
   "status": "proved",
   "theorems": [
    "OP.Table.C18_addressing"
   ],
   "note": ""
  },
  {
   "property": "C19",
   "status": "proved",
   "theorems": [
    "OP.Table.C19_table_add"
   ],
   "note": "Cells of a plain-old-data type are left with unspecified contents when new, as in the code."
  },
  {
   "property": "C20",
   "status": "proved",
   "theorems": [
    "OP.Table.C20_table_remove"
   ],
   "note": ""
  },
  {
   "property": "C21",
   "status": "partial",
   "theorems": [
    "OP.Table.C21_table_agrees_partial",
    "OP.Table.C21_empty_wrong"
   ],
   "note": "False: clearing one axis zeroes every extent (proved after every history, with the out-of-bounds lookup that follows). All histories without clears are proved."
  },
  {
   "property": "C22",
   "status": "partial",
   "theorems": [
    "OP.Table.C22_dependent_axis_partial",
    "OP.Table.C22_parent_remove_loops"
   ],
   "note": "False: removing a parent with two entries never returns (proved for all keys). Histories that only remove parents without entries, or with one entry that is last, are proved."
  },
  {
   "property": "C23",
   "status": "partial",
   "theorems": [
    "OP.Links.C23_list_single_partial",
    "OP.Links.C23_insert_first_wrong",
    "OP.Links.C23_remove_wrong"
   ],
   "note": "False: inserting before the first element makes a cycle, removing a later element also loses its predecessor (both proved in general). The partial theorem covers the remaining operations."
  },
  {
   "property": "C24",
   "status": "proved",
   "theorems": [
    "OP.Links.C24_owned_list"
   ],
   "note": "One owner; element moves between lists (move construction of the owner) are not modelled."
  },
  {
   "property": "C25",
   "status": "partial",
   "theorems": [
    "OP.Links.C25_events_partial",
    "OP.Links.C25_dispatcher_first_dangles",
    "OP.Links.C25_before_on_empty"
   ],
   "note": "All histories in which dispatchers outlive their listeners; destroying the dispatcher first makes the listener's destruction undefined (proved after every history), and a position named on an empty dispatcher is undefined."
  },
  {
   "property": "C26",
   "status": "partial",
   "theorems": [
    "OP.Links.C26_progress_partial",
    "OP.Links.C26_fraction_bounds",
    "OP.Links.C26_unbalanced_stop_wrong"
   ],
   "note": "Balanced sequences proved at any depth; every sequence with a stop too many writes before the table."
  },
  {
   "property": "C27",
   "status": "proved",
   "theorems": [
    "OP.Par.C27_exactly_once"
   ],
   "note": "All schedules, any number of workers. Exceptions other than those thrown by tasks or callbacks (allocation failure) are not modelled."
  },
  {
   "property": "C28",
   "status": "partial",
   "theorems": [
    "OP.Par.C28_calls_return_partial",
    "OP.Par.C28_abort_never_returns",
    "OP.Par.C28_abort_reachable"
   ],
   "note": "False after an abort with tasks still queued: drain, force_single_threaded and the destructor never return (proved for every continuation, and the state is reachable). Otherwise every call returns in every fair execution."
  },
  {
   "property": "C29",
   "status": "partial",
   "theorems": [
    "OP.Mem.C29_blocks_partial",
    "OP.Mem.C29_first_slab_overrun",
    "OP.Mem.C29_large_request_overrun"
   ],
   "note": "False as requested from the system: the last blocks of the first slab, and any block of at least a page, end past the memory obtained. Proved when every slab has 16 spare bytes and requests are below a page."
  },
  {
   "property": "C30",
   "status": "partial",
   "theorems": [
    "OP.Mem.C30_replay_partial",
    "OP.Mem.C30_replay_wrong"
   ],
   "note": "False in general (witness): blocks skipped when a slab was full are not skipped on replay. The partial theorem gives the addresses that do agree."
  },
  {
   "property": "C31",
   "status": "partial",
   "theorems": [
    "OP.Num.C31_fixed_partial",
    "OP.Num.C31_just_below_half_wrong"
   ],
   "note": "Conversion is within half a unit except for the number just below a half unit, where the addition of a half rounds up."
  },
  {
   "property": "C32",
   "status": "partial",
   "theorems": [
    "OP.Num.C32_conststr_partial",
    "OP.Num.C32_collision_wrong",
    "OP.Num.C32_null_wrong"
   ],
   "note": "Order is total on strings without null characters; equality is by hash only and collides (two explicit ten-character strings)."
  },
  {
   "property": "C33",
   "status": "proved",
   "theorems": [
    "OP.Num.C33_choose",
    "OP.Num.C33_choose_zero"
   ],
   "note": "The exact set of arguments for which the int arithmetic does not overflow is given."
  },
  {
   "property": "C34",
   "status": "proved",
   "theorems": [
    "OP.Num.C34_rng",
    "OP.Num.C34_period_certificate",
    "OP.Num.C34_reversible",
    "OP.Num.C34_returns",
    "OP.Num.C34_seeds"
   ],
   "note": "All seeds and all sequences of requests. The logarithm, sine and cosine of the normal deviates are those of the reals."
  },
  {
   "property": "C35",
   "status": "partial",
   "theorems": [
    "OP.Rv.C35_counts",
    "OP.Rv.C35_defined",
    "OP.Rv.C35_roll_partial",
    "OP.Rv.C35_kept",
    "OP.Rv.C35_made",
    "OP.Rv.C35_roll_again",
    "OP.Rv.C35_variable_gone_wrong",
    "OP.Rv.C35_house_gone_wrong",
    "OP.Rv.C35_self_assign_wrong",
    "OP.Rv.C35_assign_house_wrong"
   ],
   "note": "Counts, once-only sampling in key order and exactly which calls are defined are proved for every history. The code breaks the lifetime part: realizations do not keep their random variable alive (C35_variable_gone_wrong), no program can destroy a house and all realizations (C35_house_gone_wrong), self-assignment of a sole random variable uses it after deletion (C35_self_assign_wrong), and assignment keeps the old house (C35_assign_house_wrong)."
  },
  {
   "property": "C36",
   "status": "partial",
   "theorems": [
    "OP.Var.C36_defined",
    "OP.Var.C36_rejected",
    "OP.Var.C36_get",
    "OP.Var.C36_type",
    "OP.Var.C36_type_history",
    "OP.Var.C36_others",
    "OP.Var.C36_get_type",
    "OP.Var.C36_new",
    "OP.Var.C36_copy",
    "OP.Var.C36_move",
    "OP.Var.C36_assign",
    "OP.Var.C36_move_assign",
    "OP.Var.C36_set",
    "OP.Var.C36_set_function",
    "OP.Var.C36_chain",
    "OP.Var.C36_mark",
    "OP.Var.C36_used",
    "OP.Var.C36_chain_cycle_wrong",
    "OP.Var.C36_shadowed_wrong",
    "OP.Var.C36_assign_used_wrong",
    "OP.Var.C36_copy_read_wrong"
   ],
   "note": "Types, rejections without effect, values and the three flags are proved for vunctor, for every list of types and every history, with plain values and pure functions. The flags do not reject exactly cyclic use: chain accepts a cycle and reading then does not return (C36_chain_cycle_wrong), assignment from another variable skips the check for use (C36_assign_used_wrong), and a copy that was only read is rejected (C36_copy_read_wrong). A type listed after one that can be read as it cannot be read (C36_shadowed_wrong). Simple variants and validators are in C118 and C119."
  },
  {
   "property": "C37",
   "status": "partial",
   "theorems": [
    "OP.Mat.C37_dense_entries",
    "OP.Mat.C37_dense_arithmetic",
    "OP.Mat.C37_dense_product",
    "OP.Mat.C37_dense_const",
    "OP.Mat.C37_getdense_partial",
    "OP.Mat.C37_getdense_wrong",
    "OP.Mat.C37_operators_wrong"
   ],
   "note": "Dense arithmetic is proved. getdense of a negated or transposed matrix gives the operand itself (C37_getdense_wrong); sums, differences, products and inverses held as operators read as their first operand because evaluate is empty (C37_operators_wrong)."
  },
  {
   "property": "C38",
   "status": "proved",
   "theorems": [
    "OP.Lin.C38_transpose",
    "OP.Lin.C38_twice"
   ],
   "note": "Termination, the transpose and nothing else written, for every shape; 32 bit wrap of m*n is not modelled."
  },
  {
   "property": "C39",
   "status": "partial",
   "theorems": [
    "OP.Lin.C39_triangular",
    "OP.Lin.C39_band_partial",
    "OP.Lin.C39_wide_band_overruns"
   ],
   "note": "One to one for triangular storage and for bands no wider than the order; for wider bands (up to twice the order, beyond which the size wraps) the last diagonal entry lies outside the advertised storage."
  },
  {
   "property": "C40",
   "status": "partial",
   "theorems": [
    "OP.Lin.C40_inv_mul_gauss_partial",
    "OP.Lin.C40_equ_gauss",
    "OP.Lin.C40_singular_signalled",
    "OP.Lin.C40_small_column_rejected",
    "OP.Lin.C40_determinant_sign_wrong"
   ],
   "note": "Exact arithmetic over an ordered field.  The determinant returned by inv_mul_gauss ignores row exchanges, so its sign can be wrong; entries below DBL_EPSILON are treated as zero, so some nonsingular matrices are rejected."
  },
  {
   "property": "C41",
   "status": "partial",
   "theorems": [
    "OP.Lin.C41_decmp_lu",
    "OP.Lin.C41_bksub_lu",
    "OP.Lin.C41_equ_lu",
    "OP.Lin.C41_inv_mul_lu",
    "OP.Lin.C41_inv_lu",
    "OP.Lin.C41_empty_determinant_wrong",
    "OP.Lin.C41_small_row_rejected"
   ],
   "note": "Exact arithmetic over an ordered field.  decmp_lu returns exactly for nonsingular matrices each of whose rows has an entry of at least DBL_EPSILON; other nonsingular matrices are rejected.  The determinant of the empty matrix is reported as zero."
  },
  {
   "property": "C42",
   "status": "partial",
   "theorems": [
    "OP.Lin.C42_decmp_chol",
    "OP.Lin.C42_decmp_chol_tri",
    "OP.Lin.C42_decmp_chol_band_partial",
    "OP.Lin.C42_bksub_chol",
    "OP.Lin.C42_bksub_chol_band_partial",
    "OP.Lin.C42_equ_chol",
    "OP.Lin.C42_equ_chol_band_partial",
    "OP.Lin.C42_band_agrees_partial",
    "OP.Lin.C42_inv_chol"
   ],
   "note": "Exact arithmetic over an ordered field with square roots.  Full and triangular storage are settled for all matrices; the band versions for widths up to the order, beyond which the storage macros are wrong (C39)."
  },
  {
   "property": "C43",
   "status": "proved",
   "theorems": [
    "OP.Lin.C43_decmp_ldl",
    "OP.Lin.C43_bksub_ldl",
    "OP.Lin.C43_equ_ldl"
   ],
   "note": "Exact arithmetic over an ordered field; also characterises exactly when the decomposition is refused."
  },
  {
   "property": "C44",
   "status": "proved",
   "theorems": [
    "OP.Fft.C44_coefficients",
    "OP.Fft.C44_roundtrip",
    "OP.Fft.C44_convolution"
   ],
   "note": "Exact arithmetic: the truncated sine series of the template is replaced by the sine."
  },
  {
   "property": "C45",
   "status": "partial",
   "theorems": [
    "OP.Thermal.C45_interpolate_partial",
    "OP.Thermal.C45_nodes",
    "OP.Thermal.C45_polynomials",
    "OP.Thermal.C45_inner_nodes",
    "OP.Thermal.C45_unequal_nodes",
    "OP.Thermal.C45_unsorted"
   ],
   "note": "Proved for sorted depths on every sound mesh after every history. Inner nodes and polynomials need the nodes of an element equally spaced, which the code does not check; counterexamples for unequal nodes and unsorted depths."
  },
  {
   "property": "C46",
   "status": "proved",
   "theorems": [
    "OP.Thermal.C46_boundary",
    "OP.Thermal.C46_equilibrium",
    "OP.Thermal.C46_steady_flux"
   ],
   "note": "Uniform profiles and profiles of constant flux through any layers, any number of steps, exact arithmetic."
  },
  {
   "property": "C47",
   "status": "proved",
   "theorems": [
    "OP.Pave.C47_terminates",
    "OP.Pave.C47_principal",
    "OP.Pave.C47_all_eigenvalues",
    "OP.Pave.C47_shear",
    "OP.Pave.C47_hooke",
    "OP.Pave.C47_fem"
   ],
   "note": "Real arithmetic without rounding. C47_fem is the same for the copy in the finite element code."
  },
  {
   "property": "C48",
   "status": "partial",
   "theorems": [
    "OP.Pave.C48_defined_partial",
    "OP.Pave.C48_solution_partial",
    "OP.Pave.C48_unique_partial",
    "OP.Pave.C48_decay",
    "OP.Pave.C48_nonpositive",
    "OP.Pave.C48_cut_partial",
    "OP.Pave.C48_two_layers",
    "OP.Pave.C48_interface",
    "OP.Pave.C48_cut_wrong"
   ],
   "note": "For bonded layers, any number of them, in real arithmetic: no division by zero, all surface, interface and base conditions hold, and the coefficients are the only solution, for every wave number whose exponential is not cut off at an interface (the lowest one above an infinite layer does not matter, so one layer and two layers are right for all wave numbers). The code replaces exp(2mh) by the largest double above MAX_EXP: the conditions still hold at every other interface, but not at that one (proved for three layers of different moduli and all such wave numbers, C48_cut_wrong). How small the error is is not proved."
  },
  {
   "property": "C49",
   "status": "proved",
   "theorems": [
    "OP.Pave.C49_rotation",
    "OP.Pave.C49_orthogonal",
    "OP.Pave.C49_centre_any",
    "OP.Pave.C49_below",
    "OP.Pave.C49_superposition",
    "OP.Pave.C49_deflection",
    "OP.Pave.C49_centre"
   ],
   "note": "Real arithmetic without rounding; load radii are equal or differ by more than DBL_MIN. C49_superposition is about the whole loop over radii, groups and loads."
  },
  {
   "property": "C50",
   "status": "partial",
   "theorems": [
    "OP.Pave.C50_current_partial",
    "OP.Pave.C50_available",
    "OP.Pave.C50_edit",
    "OP.Pave.C50_direction",
    "OP.Pave.C50_direction_stale",
    "OP.Pave.C50_foreign_cache",
    "OP.Pave.C50_backcalc_points",
    "OP.Pave.C50_backcalc_early",
    "OP.Pave.C50_backcalc_stale",
    "OP.Pave.C50_backcalc_throw"
   ],
   "note": "Holds for every history of edits and evaluations that keeps one gradient direction and does not mix the cached and uncached procedures (C50_current_partial). False in general: a second call with another direction keeps the old gradients (C50_direction_stale), a fast evaluation after another procedure walks a foreign cache (C50_foreign_cache), and backcalculation leaves points, moduli and results that do not belong to the final system (C50_backcalc_*)."
  },
  {
   "property": "C51",
   "status": "partial",
   "theorems": [
    "OP.Pave.C51_check",
    "OP.Pave.C51_assign_partial",
    "OP.Pave.C51_kept_layer",
    "OP.Pave.C51_rejected"
   ],
   "note": "check() is characterised exactly (C51_check) and the assigned layers are sound for any evaluation whose points were placed by it. After an edit a point keeps the layer it was given earlier although it now lies in another one (C51_kept_layer), or the evaluation is refused although a layer contains it (C51_rejected)."
  },
  {
   "property": "C52",
   "status": "partial",
   "theorems": [
    "OP.Pave.C52_point2d",
    "OP.Pave.C52_point2d_rounded",
    "OP.Pave.C52_point2d_zeros",
    "OP.Pave.C52_point3d_zero",
    "OP.Pave.C52_point3d_both",
    "OP.Pave.C52_point3d_partial",
    "OP.Pave.C52_pavepoint_eq",
    "OP.Pave.C52_pavepoint_partial",
    "OP.Pave.C52_zpoint"
   ],
   "note": "The plane and depth orders are total orders in exact arithmetic; the three-dimensional order is not antisymmetric (C52_point3d_both), and rounding or signed zeros break the plane order."
  },
  {
   "property": "C53",
   "status": "partial",
   "theorems": [
    "OP.Libop.C53_handles_partial",
    "OP.Libop.C53_create_fresh_partial",
    "OP.Libop.C53_reset_wrong",
    "OP.Libop.C53_moving_keys",
    "OP.Libop.C53_ht_zero",
    "OP.Libop.C53_ht_no_layers"
   ],
   "note": "Every history of calls in which no handle is destroyed below another live one. Destroying a lower one loses the wrong handle, because the tree does not move values with their keys (C53_reset_wrong); C53_moving_keys is the full property for a tree that does. The first heat flow handle is 0, the error value (C53_ht_zero), and no layers read past the array (C53_ht_no_layers)."
  },
  {
   "property": "C54",
   "status": "partial",
   "theorems": [
    "OP.Links.C54_layers_partial",
    "OP.Links.C54_past_end_wrong",
    "OP.Links.C54_zero_layer_wrong"
   ],
   "note": "A position past the end inserts before the last layer, and below a layer of zero thickness the depths restart (both proved in general)."
  },
  {
   "property": "C55",
   "status": "partial",
   "theorems": [
    "OP.Traffic.C55_reads",
    "OP.Traffic.C55_total",
    "OP.Traffic.C55_value_partial",
    "OP.Traffic.C55_blank",
    "OP.Traffic.C55_negative",
    "OP.Traffic.C55_negative_fails"
   ],
   "note": "Proved for numbers without a sign, and that only the field is read. False for every negative number: -d...d with k digits of value v gives 3*10^k - v (C55_negative)."
  },
  {
   "property": "C56",
   "status": "proved",
   "theorems": [
    "OP.Traffic.C56_counted",
    "OP.Traffic.C56_groups_unique",
    "OP.Traffic.C56_bins"
   ],
   "note": "For every record, rounding of the arithmetic and date function. Counters are unbounded."
  },
  {
   "property": "C57",
   "status": "partial",
   "theorems": [
    "OP.Traffic.C57_add",
    "OP.Traffic.C57_read_partial",
    "OP.Traffic.C57_read_fails",
    "OP.Traffic.C57_spacing_fails",
    "OP.Traffic.C57_spacing_sum"
   ],
   "note": "Counters add componentwise, and reading is right if the last stored day is out of range. Otherwise that day is added twice (C57_read_fails); the average axle spacings become not a number once a type has no axles (C57_spacing_fails) and are otherwise sums (C57_spacing_sum)."
  },
  {
   "property": "C58",
   "status": "partial",
   "theorems": [
    "OP.Num.C58_root",
    "OP.Num.C58_limits",
    "OP.Num.C58_bracket",
    "OP.Num.C58_line",
    "OP.Num.C58_cross",
    "OP.Num.C58_reach",
    "OP.Num.C58_shrinks",
    "OP.Num.C58_fzero_partial",
    "OP.Num.C58_start_outside_wrong",
    "OP.Num.C58_step_outside_wrong",
    "OP.Num.C58_second_point_wrong"
   ],
   "note": "For every function and start inside the limits: a returned point is a root or next to a change of sign, the function is not looked at outside the limits, and the loops end. fzero itself does not reject a start beyond a limit and its invented second point may lie beyond the lower limit (negations)."
  },
  {
   "property": "C59",
   "status": "partial",
   "theorems": [
    "OP.Num.C59_best_partial",
    "OP.Num.C59_bracket_partial",
    "OP.Num.C59_peak_wrong",
    "OP.Num.C59_vertex",
    "OP.Num.C59_turning",
    "OP.Num.C59_turning_wrong"
   ],
   "note": "For every function: the refinement stays in the bracket, returns its best point and uses at most 100 points. The bracketing loop also ends on a peak, which is then returned although both ends are better (negation in general), and its extrapolation is mirrored when it moves to the right (negation in general)."
  },
  {
   "property": "C60",
   "status": "proved",
   "theorems": [
    "OP.Fem.C60_nodes",
    "OP.Fem.C60_sum",
    "OP.Fem.C60_reproduce",
    "OP.Fem.C60_infinite",
    "OP.Fem.C60_infinite_shape",
    "OP.Fem.C60_deriv",
    "OP.Fem.C60_kink"
   ],
   "note": "Over any ordered field; the derivatives over the reals. The displacement functions of infinite ends decay and so add up to less than 1; their mapping functions add up to 1."
  },
  {
   "property": "C61",
   "status": "partial",
   "theorems": [
    "OP.SetFam.Keyed.C61_kiset_getorder",
    "OP.SetFam.Keyed.C61_iset_getorder_wrong"
   ],
   "note": "True for kiset (proved for all histories); false for iset (witness)."
  },
  {
   "property": "C62",
   "status": "partial",
   "theorems": [
    "OP.Tree.Avl.C62_alias_wrong",
    "OP.Tree.Avl.C62_alias_partial"
   ],
   "note": "False when the element has a right child (proved for all pairs of keys); proved when it has none."
  },
  {
   "property": "C63",
   "status": "proved",
   "theorems": [
    "OP.Tree.Rb.C63_bst_is_a_map"
   ],
   "note": ""
  },
  {
   "property": "C64",
   "status": "partial",
   "theorems": [
    "OP.Table.C64_lookup_rejects_partial",
    "OP.Table.C64_position_not_checked",
    "OP.Table.C64_position_partial"
   ],
   "note": "True for keys, false for positions (proved for all extents)."
  },
  {
   "property": "C65",
   "status": "partial",
   "theorems": [
    "OP.Table.C65_cells_not_constructed",
    "OP.Table.C21_table_agrees_partial"
   ],
   "note": "False for class types whenever no axis is empty (proved in that generality); when an axis is empty at construction every cell is an object in all histories (C21 partial)."
  },
  {
   "property": "C66",
   "status": "partial",
   "theorems": [
    "OP.Links.C66_plain_insert_partial",
    "OP.Links.C66_plain_empty_dangles",
    "OP.Links.C66_plain_empty_none_partial"
   ],
   "note": "False for every non-empty list."
  },
  {
   "property": "C67",
   "status": "proved",
   "theorems": [
    "OP.Fft.C67_coefficients",
    "OP.Fft.C67_roundtrip",
    "OP.Fft.C67_convolution"
   ],
   "note": "Exact arithmetic, as for C44."
  },
  {
   "property": "C68",
   "status": "partial",
   "theorems": [
    "OP.Pave.C68_conditions_partial",
    "OP.Pave.C68_law_fails",
    "OP.Pave.C68_law_fails_case",
    "OP.Pave.C68_singular",
    "OP.Pave.C68_no_bond",
    "OP.Pave.C68_base"
   ],
   "note": "Vertical stress, shear stress and deflection stay continuous (C68_conditions_partial). The rest is false: the jump of the radial displacement is not the one of the slip law when Poisson ratios differ (C68_law_fails), the system is singular at some wave number for a weak bond (C68_singular), and a factor of 0 or a partly bonded base divides by zero (C68_no_bond, C68_base)."
  },
  {
   "property": "C69",
   "status": "partial",
   "theorems": [
    "OP.Pave.C69_single_partial",
    "OP.Pave.C69_directions_partial",
    "OP.Pave.C69_several",
    "OP.Pave.C69_deflection_fails",
    "OP.Pave.C69_last_layer",
    "OP.Pave.C69_strain_modulus",
    "OP.Pave.C69_half_space_fails"
   ],
   "note": "Deflections and gradients are right when all loads have one radius (C69_single_partial, C69_directions_partial). False otherwise: radii after the first are calculated with the moduli of the last gradient (C69_several), which is wrong for every half space (C69_half_space_fails), and strains in the last layer use that modulus even for one radius (C69_strain_modulus)."
  },
  {
   "property": "C70",
   "status": "partial",
   "theorems": [
    "OP.Pave.Back.C70_kalman_partial",
    "OP.Pave.Back.C70_gaussnewton_partial",
    "OP.Pave.Back.C70_bounds",
    "OP.Pave.Back.C70_gaussnewton_bounds",
    "OP.Pave.Back.C70_length",
    "OP.Pave.Back.C70_exact_fit",
    "OP.Pave.Back.C70_exact_fit_result",
    "OP.Pave.Back.C70_group_fails"
   ],
   "note": "Both steps minimise their objective when every deflection belongs to the default load group and the linear algebra is exact. False otherwise: deflections of another group get the gradient of the default group (C70_group_fails), and an exact fit gives 0/0, which sets every modulus to 10 and reports success (C70_exact_fit, C70_exact_fit_result)."
  },
  {
   "property": "C71",
   "status": "proved",
   "theorems": [
    "OP.Pave.C71_independent",
    "OP.Pave.C71_precise",
    "OP.Pave.C71_fast",
    "OP.Pave.C71_half_space"
   ],
   "note": "Real arithmetic; Bessel functions, integration points and stopping points are parameters. The interpolation of the dirty mode is C121."
  },
  {
   "property": "C72",
   "status": "proved",
   "theorems": [
    "OP.Traffic.C72_date"
   ],
   "note": "mktime is a parameter."
  },
  {
   "property": "C73",
   "status": "partial",
   "theorems": [
    "OP.Traffic.C73_line_partial",
    "OP.Traffic.C73_last",
    "OP.Traffic.C73_buffer"
   ],
   "note": "Proved for lines that end. A last line without a line end gets an additional space (C73_last)."
  },
  {
   "property": "C74",
   "status": "proved",
   "theorems": [
    "OP.Traffic.C74_files"
   ],
   "note": "Files that can be opened. The listing of the directory is not modelled (its POSIX version does not compile)."
  },
  {
   "property": "C75",
   "status": "partial",
   "theorems": [
    "OP.Thermal.C75_crank_nicolson",
    "OP.Thermal.C75_unique",
    "OP.Thermal.C75_first_step",
    "OP.Thermal.C75_first_step_iff"
   ],
   "note": "Every step but the first; the first is a fully implicit half step unless the initial profile is in equilibrium, which is proved as an equivalence."
  },
  {
   "property": "C76",
   "status": "proved",
   "theorems": [
    "OP.Thermal.C76_stable"
   ],
   "note": "For every time step, initial profile and step count."
  },
  {
   "property": "C77",
   "status": "partial",
   "theorems": [
    "OP.Thermal.C77_construct",
    "OP.Thermal.C77_reject",
    "OP.Thermal.C77_no_ub",
    "OP.Thermal.C77_below_layers"
   ],
   "note": "Acceptance and rejection are proved; a mesh that starts an element at or below the last layer reads past the layers, proved for a family of such meshes."
  },
  {
   "property": "C78",
   "status": "proved",
   "theorems": [
    "OP.Thermal.C78_galerkin",
    "OP.Thermal.C78_functions"
   ],
   "note": "Integrals over the reals."
  },
  {
   "property": "C79",
   "status": "partial",
   "theorems": [
    "OP.Libop.C79_current",
    "OP.Libop.C79_calculate",
    "OP.Libop.C79_all",
    "OP.Libop.C79_past_end"
   ],
   "note": "Proved for every history and every existing group and result number. A number past the end is undefined instead of an error (C79_past_end)."
  },
  {
   "property": "C80",
   "status": "partial",
   "theorems": [
    "OP.Libop.C80_defined",
    "OP.Libop.C80_layers",
    "OP.Libop.C80_book",
    "OP.Libop.C80_points",
    "OP.Libop.C80_groups_differ",
    "OP.Libop.C80_first_group",
    "OP.Libop.C80_remove_all"
   ],
   "note": "Layers, loads, groups and points after every history are those of an independent book of numbers (C80_book, C80_points). Groups are numbered from zero when a load is added and from one when it is removed (C80_groups_differ), and adding to a group beyond the next one is undefined, the only undefined call (C80_defined)."
  },
  {
   "property": "C81",
   "status": "partial",
   "theorems": [
    "OP.Libop.C81_calc",
    "OP.Libop.C81_flags",
    "OP.Libop.C81_reports",
    "OP.Libop.C81_backcalc_status"
   ],
   "note": "The calculation is proved for every input. The status of the back-calculation is inverted (C81_backcalc_status)."
  },
  {
   "property": "C82",
   "status": "proved",
   "theorems": [
    "OP.Mat.C82_values",
    "OP.Mat.C82_counts"
   ],
   "note": "Every history of the matrix class against environments of independent matrices, with exact reference counts."
  },
  {
   "property": "C83",
   "status": "proved",
   "theorems": [
    "OP.Mat.C83_expression",
    "OP.Mat.C83_single_index",
    "OP.Mat.C83_assign",
    "OP.Mat.C83_fill",
    "OP.Mat.C83_update"
   ],
   "note": "For the template metaprogram build. expr / d does not compile when used and is not covered for anything but a plain matrix."
  },
  {
   "property": "C84",
   "status": "partial",
   "theorems": [
    "OP.Var.Owner.C84_owned_partial",
    "OP.Var.Owner.C84_copy_wrong",
    "OP.Var.Owner.C84_move_wrong",
    "OP.Var.Owner.C84_assign_wrong",
    "OP.Var.Owner.C84_again_wrong"
   ],
   "note": "Proved for programs that give each pointer to one variable and do not copy, move or assign variables. The code breaks the rest: copies, moves (move sets a temporary to null, not the source) and assignments share the pointer and delete it twice, and setting the held pointer again or self-assignment keeps a deleted one. The copy constructor of the simple variant (C118) deletes an uninitialised pointer."
  },
  {
   "property": "C85",
   "status": "partial",
   "theorems": [
    "OP.Fem.C85_block_sum",
    "OP.Fem.C85_block_nodes",
    "OP.Fem.C85_variable_sum",
    "OP.Fem.C85_variable_nodes",
    "OP.Fem.C85_variable_wrong",
    "OP.Fem.C85_adaptor_sum",
    "OP.Fem.C85_adaptor_wrong",
    "OP.Fem.Nodes.C85_reached",
    "OP.Fem.Nodes.C85_reached_wrong"
   ],
   "note": "Blocks: every shape. Variable elements: every pattern in which a level with a node in its centre has one on each side; without that another function need not vanish (negation). Adaptors: the sum holds for eight patterns per level, and fails in the middle of the level for each of the other 24, such as two sides that meet (negation in general). Under a regular mesh of half the width the search among the neighbours gives a pattern for which all is right; with one finer block above a corner it gives patterns for which the functions are wrong (witnesses)."
  },
  {
   "property": "C86",
   "status": "partial",
   "theorems": [
    "OP.Fem.C86_stress",
    "OP.Fem.C86_law",
    "OP.Fem.C86_solve",
    "OP.Fem.C86_pivot_wrong",
    "OP.Fem.C86_box",
    "OP.Fem.C86_symmetric",
    "OP.Fem.C86_energy",
    "OP.Fem.C86_uniform",
    "OP.Fem.C86_rigid",
    "OP.Fem.C86_translation",
    "OP.Fem.C86_storage",
    "OP.Fem.C86_variable",
    "OP.Fem.C86_block",
    "OP.Fem.C86_infinite"
   ],
   "note": "For every material, position of the nodes and list of Gauss points. The elimination does not exchange rows, so an element turned by a right angle, whose first pivot is zero, is rejected although its mapping is regular (negation in general); boxes along the axes are not, also when some of their sides are infinite. Missing: infinite elements that are not boxes along the axes."
  },
  {
   "property": "C87",
   "status": "proved",
   "theorems": [
    "OP.Fem.C87_exact",
    "OP.Fem.C87_load",
    "OP.Fem.C87_inside"
   ],
   "note": "Over the reals, for every polynomial of degree 3, 5 or 7, and 5 for the rule of the loads. For infinite directions the integrand is not a polynomial and nothing is claimed beyond that degree."
  },
  {
   "property": "C88",
   "status": "partial",
   "theorems": [
    "OP.Fem.C88_append",
    "OP.Fem.C88_tidy",
    "OP.Fem.C88_copy",
    "OP.Fem.C88_product",
    "OP.Fem.C88_pattern",
    "OP.Fem.C88_fillin",
    "OP.Fem.C88_tidy_wrong",
    "OP.Fem.C88_tidy_wrong_case",
    "OP.Fem.C88_chol_wrong",
    "OP.Fem.C88_nonzero_wrong"
   ],
   "note": "Proved over exact fields for all sequences of blocks. The code: tidying counts nodes in 16 bits and does not end for a column of more than 65535 nodes (proved in general, with a sequence that gives such a column); the unused full decomposition asks for at least 2^31 nodes for every column with one, and the unused count of blocks counts down."
  },
  {
   "property": "C89",
   "status": "partial",
   "theorems": [
    "OP.Fem.C89_factor",
    "OP.Fem.C89_exact",
    "OP.Fem.C89_solve",
    "OP.Fem.C89_scale_wrong",
    "OP.Fem.C89_break_wrong"
   ],
   "note": "Proved in exact arithmetic for every matrix on which the decomposition succeeds. The code: pivots are compared with the fixed number DBL_EPSILON, so that a matrix with small entries is refused (proved in general); and a positive definite matrix of five nodes is refused because blocks that are non-zero only after two eliminations are left out (proved by a witness)."
  },
  {
   "property": "C90",
   "status": "partial",
   "theorems": [
    "OP.Fem.C90_solve",
    "OP.Fem.C90_missing",
    "OP.Fem.C90_zero_wrong"
   ],
   "note": "Proved in exact arithmetic for every mesh: assembly, boundary conditions, preconditioner and conjugate gradients. The code: for a mesh at rest (no load and zero displacements) the step is zero divided by zero, so that the displacements are not numbers or an assertion fails (proved in general)."
  },
  {
   "property": "C91",
   "status": "proved",
   "theorems": [
    "OP.Lin.C91_columns",
    "OP.Lin.C91_orthonormal",
    "OP.Lin.C91_again",
    "OP.Lin.C91_dependent"
   ],
   "note": "Proved in exact arithmetic with an exact square root. For dependent columns the routine stops without a signal: with a zero first column nothing is done (proved in general)."
  },
  {
   "property": "C92",
   "status": "partial",
   "theorems": [
    "OP.Lin.C92_tridiag",
    "OP.Lin.C92_iteration",
    "OP.Lin.C92_eig",
    "OP.Lin.C92_exact",
    "OP.Lin.C92_two",
    "OP.Lin.C92_bksub",
    "OP.Lin.C92_columns_broken",
    "OP.Lin.C92_equ",
    "OP.Lin.C92_equ_exact",
    "OP.Lin.C92_inv"
   ],
   "note": "Proved in exact arithmetic with an exact square root, for whatever the convergence test takes for zero: orthonormal columns, the diagonal form with a bound, the order, the residuals of equations and inverses. The code: the iteration has no limit of passes, so the theorems are about runs that end (proved to end for two rows; convergence for more rows is not proved); the substitution writes to the first numbers whatever the column asked for, so with several right-hand sides the column keeps part of its right-hand side (proved in general)."
  },
  {
   "property": "C93",
   "status": "partial",
   "theorems": [
    "OP.Lin.C93_decomposition",
    "OP.Lin.C93_singular",
    "OP.Lin.C93_substitution_broken"
   ],
   "note": "Proved in exact arithmetic with an exact square root: the reflections, the triangular matrix, the return value. The code: the substitution turns the right-hand side once more than the decomposition did and divides by s[n-1], that the decomposition never sets; whatever number is there, the result is wrong unless the last unknown is zero (proved in general)."
  },
  {
   "property": "C94",
   "status": "partial",
   "theorems": [
    "OP.Lin.C94_bksub",
    "OP.Lin.C94_reads_outside",
    "OP.Lin.C94_unset",
    "OP.Lin.C94_reduced",
    "OP.Lin.C94_stored",
    "OP.Lin.C94_iteration",
    "OP.Lin.C94_decomposition",
    "OP.Lin.C94_wide",
    "OP.Lin.C94_two",
    "OP.Lin.C94_two_equ",
    "OP.Lin.C94_equ",
    "OP.Lin.C94_inv",
    "OP.Lin.C94_routines",
    "OP.Lin.C94_cancel_wrong"
   ],
   "note": "Proved in exact arithmetic: least squares and least length of the substitution, for any factors; the first part of the decomposition turns the matrix into one with two diagonals by orthogonal matrices, if the caller sets the singular values to zero before. The code: the decomposition reads one number after the end of its work array for every matrix with a row and a column, so that none of the routines built on it is defined (proved in general); singular values of zero columns are never set (proved for matrices of zeros). The whole routine is modelled with the number found there as an argument: whatever it is, for a matrix with at least as many rows as columns, if every value converges in its 30 passes and no cancellation goes on beyond one number, the factors have orthonormal columns, the singular values are not negative, and the product is the matrix but for the numbers tested to be small, with a bound; for a matrix with fewer rows than columns the same holds, with orthonormal rows of the left factor, whose columns times the singular values are orthogonal with these as lengths, up to such a bound; a cancellation of more than one number changes the matrix, as a factor is left out (proved in general); values that have not converged are given without a word. With such factors the routines for equations and inverses give the least squares solution of least length for the matrix without the singular values below the tolerance, and the solution and the inverse if there are none; the refinement changes nothing in exact arithmetic. With two columns the iteration always ends, after one pass or a cancellation, if nothing is neglected, and two equations with a regular matrix are solved. Missing: convergence with more than two columns."
  },
  {
   "property": "C95",
   "status": "partial",
   "theorems": [
    "OP.Pave.Simplex.C95_search",
    "OP.Pave.Simplex.C95_no_worse_partial",
    "OP.Pave.Simplex.C95_bounds",
    "OP.Pave.Simplex.C95_moves",
    "OP.Pave.Simplex.C95_start",
    "OP.Pave.Simplex.C95_nan_hangs",
    "OP.Pave.Simplex.C95_never_ends",
    "OP.Pave.Simplex.C95_worse"
   ],
   "note": "Proved for every error function: when the search ends, the point it settled on is the best of all points tried, all corners are within a hundred tolerances, the value returned is the distance moved, and the logarithms are the point brought between one and nine. The code: bringing the moduli between the bounds can make the error worse than at the start (witness); the search never ends if the error is not a number on one side of the start (proved in general for one layer), nor if the error falls with every increase of the modulus (proved in general for one layer)."
  },
  {
   "property": "C96",
   "status": "partial",
   "theorems": [
    "OP.Pave.Grad.C96_descent",
    "OP.Pave.Grad.C96_minimum",
    "OP.Pave.Grad.C96_length_partial",
    "OP.Pave.Grad.C96_bounds",
    "OP.Pave.Grad.C96_directions_partial",
    "OP.Pave.Grad.C96_too_long",
    "OP.Pave.Grad.C96_directions_lost"
   ],
   "note": "Proved in exact arithmetic for every input with a gradient for each deflection: descent, the minimum within one order of magnitude, bounds, conjugate unit directions, orthonormality of the matrix if the directions found and those kept are independent. The code: a step that is cut can be longer than one order of magnitude (witness; at most the square root of two, proved); if the directions found depend on those kept, one is lost and the matrix returned is singular (witness)."
  },
  {
   "property": "C97",
   "status": "partial",
   "theorems": [
    "OP.Pave.Bouss.C97_hooke",
    "OP.Pave.Bouss.C97_equilibrium",
    "OP.Pave.Bouss.C97_surface",
    "OP.Pave.Bouss.C97_total",
    "OP.Pave.Bouss.C97_axis",
    "OP.Pave.Bouss.C97_jump"
   ],
   "note": "Proved for a point load off the axis: Hooke's law, both equations of equilibrium, the free surface, and the total through every plane; on the axis, the stresses and the deflection are those of the load spread over the circle (the radial and tangential stress through their mean). The code: everywhere but on the axis the load is taken as a point, so that the deflection calculated on the surface inside the loaded circle exceeds any bound near the centre, where it is right (proved in general)."
  },
  {
   "property": "C98",
   "status": "partial",
   "theorems": [
    "OP.Pave.Bouss.C98_odemark",
    "OP.Pave.Bouss.C98_continuous",
    "OP.Pave.Bouss.C98_halfspace",
    "OP.Pave.Bouss.C98_stiffness",
    "OP.Pave.Bouss.C98_split",
    "OP.Pave.Bouss.C98_fastnum"
   ],
   "note": "Proved for every number of layers: the transformed depths, the results at them, the contributions of the layers below, continuity at interfaces, the single layer, and the same for the other method. The code: the equivalent thickness has one plus the square of Poisson's ratio where the bending stiffness has one minus it, so that the stiffness is kept only if the ratios are equal (proved in general); two layers of the same material deflect more than the half-space they are (proved in general for the centre of the load)."
  },
  {
   "property": "C99",
   "status": "partial",
   "theorems": [
    "OP.Pave.Bouss.C99_ray_vdp",
    "OP.Pave.Bouss.C99_ray_vse",
    "OP.Pave.Bouss.C99_runs",
    "OP.Pave.Bouss.C99_accuracy_partial",
    "OP.Pave.Bouss.C99_axis",
    "OP.Pave.Bouss.C99_direct",
    "OP.Pave.Bouss.C99_unchecked"
   ],
   "note": "Proved: what the integrands are, the end of the recursion, the static variables unchanged after each call, the axis, and the error in terms of the distance of the integrand to a polynomial of degree nine. Missing: the error in terms of the tolerance, which does not hold for any adaptive rule in general; the code compares the first estimate with the number ten, so that an estimate of ten is never refined (proved in general)."
  },
  {
   "property": "C100",
   "status": "partial",
   "theorems": [
    "OP.Pave.Gauss.C100_legendre",
    "OP.Pave.Gauss.C100_newton",
    "OP.Pave.Gauss.C100_stop",
    "OP.Pave.Gauss.C100_fixed",
    "OP.Pave.Gauss.C100_roots",
    "OP.Pave.Gauss.C100_guess",
    "OP.Pave.Gauss.C100_search",
    "OP.Pave.Gauss.C100_middle",
    "OP.Pave.Gauss.C100_two_points",
    "OP.Pave.Gauss.C100_above",
    "OP.Pave.Gauss.C100_first",
    "OP.Pave.Gauss.C100_small",
    "OP.Pave.Gauss.C100_local",
    "OP.Pave.Gauss.C100_local_exists",
    "OP.Pave.Gauss.C100_searches",
    "OP.Pave.Gauss.C100_limit",
    "OP.Pave.Gauss.C100_exact_partial"
   ],
   "note": "Proved for every number of points: the loop evaluates the Legendre polynomial, the search is Newton's method, the zeros exist, the first search ends next to the largest zero for every tolerance, the search for the middle one of an odd number ends at once, and the table made from the zeros is exact with positive weights. For up to three points all searches end within two tolerances of the zeros. Every other zero is found from all starts between it and some larger number, with an error in proportion to the tolerance. For up to sixteen points, which is all the code makes, all searches from its guesses end for every tolerance, within two tolerances of different zeros. Their tables integrate as exactly as wanted if the tolerance is small enough. Missing: the same for more points, and the size of the error of an integral for a given tolerance."
  },
  {
   "property": "C101",
   "status": "partial",
   "theorems": [
    "OP.Pave.Back.C101_settled",
    "OP.Pave.Back.C101_bounds",
    "OP.Pave.Back.C101_code_bounded",
    "OP.Pave.Back.C101_success",
    "OP.Pave.Back.C101_seed",
    "OP.Pave.Back.C101_error",
    "OP.Pave.Back.C101_lost",
    "OP.Pave.Back.C101_way"
   ],
   "note": "Proved for every relation between moduli and deflections: moduli that the test step hardly changes are kept; all others end between the bounds; success means that the last step was at most the tolerance (or exactly the tolerance, and dropped); the seed of a half-space is its modulus. The end is by construction, with the number of rounds as fuel, if the simplex step ends (C95). The code: if the test step leads to moduli that give the measured deflections exactly, the last step divides zero by zero and success is reported with all moduli equal to 10 (proved in general, with a concrete back-calculation)."
  },
  {
   "property": "C102",
   "status": "proved",
   "theorems": [
    "OP.Stat.C102_cdf",
    "OP.Stat.C102_cdf_mono",
    "OP.Stat.C102_cdf_sym",
    "OP.Stat.C102_cdf_special",
    "OP.Stat.C102_pdf",
    "OP.Stat.C102_inv",
    "OP.Stat.C102_round",
    "OP.Stat.C102_inv_mono",
    "OP.Stat.C102_inv_sym",
    "OP.Stat.C102_inv_special"
   ],
   "note": "Proved in exact arithmetic with the coefficients and branches of the code, so the error is that of the approximation, not of rounding: at most 5e-16 of the smaller tail for the distribution function and 1.2e-14 for the inverse (for probabilities down to 2^-1074). The comment in the code that one step of Halley's method gives full machine precision is right to 54 units of the last place."
  },
  {
   "property": "C103",
   "status": "proved",
   "theorems": [
    "OP.Stat.C103_pairs",
    "OP.Stat.C103_radius",
    "OP.Stat.C103_moments"
   ],
   "note": "Proved in exact arithmetic for one thread, with M_2PI taken as twice pi. The static state is shared by all callers, so calls from several threads race; that is not modelled."
  },
  {
   "property": "C104",
   "status": "partial",
   "theorems": [
    "OP.Stat.C104_normal",
    "OP.Stat.C104_normal_negative",
    "OP.Stat.C104_lognormal",
    "OP.Stat.C104_lognormal_bad",
    "OP.Stat.C104_uniform",
    "OP.Stat.C104_refused",
    "OP.Stat.C104_discrete",
    "OP.Stat.C104_discrete_stddev",
    "OP.Stat.C104_discrete_below",
    "OP.Stat.C104_constant"
   ],
   "note": "Proved in exact arithmetic, with expectations over the normal distribution of Mathlib. The code: the standard deviation of a discrete variable is wrong for every variable with more than one value, because the square root of the number of values is taken where its square belongs (proved in general); a negative standard deviation of a normal variable is accepted and reported; a discrete variable is below its lower bound at minus infinity."
  },
  {
   "property": "C105",
   "status": "partial",
   "theorems": [
    "OP.Libop.C105_results_partial",
    "OP.Libop.C105_overlap_wrong"
   ],
   "note": "Proved for up to 150 points, for every numerical method. The code: nothing refuses more than 150 points, and then results of later points overwrite those of earlier ones (proved for every such call)."
  },
  {
   "property": "C106",
   "status": "partial",
   "theorems": [
    "OP.Fem.Nodes.C106_nodes",
    "OP.Fem.Nodes.C106_addnodes",
    "OP.Fem.Nodes.C106_update",
    "OP.Fem.Nodes.C106_compare",
    "OP.Fem.Nodes.C106_stale_copy_wrong",
    "OP.Fem.Nodes.C106_duplicate_wrong"
   ],
   "note": "Proved for every history in which a node is copied, changed and stored without adding nodes in between, as all callers do. The code: updatenode also stores the links of the tree, so that storing a copy made before another node was added loses that node (proved by a witness); node_list::add of a place that has a node spoils the counts if assertions are off (witness), which mesh::addnode prevents. Numbers of type unsigned are exact."
  },
  {
   "property": "C107",
   "status": "proved",
   "theorems": [
    "OP.Fem.Nodes.C107_loads",
    "OP.Fem.Nodes.C107_system"
   ],
   "note": "A plane across two directions is an assertion, here undefined. Doubles are exact. C107_system gives what C90_solve asks of a mesh, for the first call of the solver; the elements are still arbitrary there."
  },
  {
   "property": "C108",
   "status": "proved",
   "theorems": [
    "OP.Fem.Nodes.C108_sort",
    "OP.Fem.Nodes.C108_bricks",
    "OP.Fem.Nodes.C108_box",
    "OP.Fem.Nodes.C108_faces",
    "OP.Fem.Nodes.C108_grid",
    "OP.Fem.Nodes.C108_infinite",
    "OP.Fem.Nodes.C108_thin_wrong",
    "OP.Fem.Nodes.C108_twisted_wrong"
   ],
   "note": "Doubles and whole numbers are exact. A contradiction between neighbours is an assertion, here undefined. The code: a box thinner than one unit of the coordinates (1/256) for each node never gets through (proved in general), and corners of a box in an order that is not a mirrored one may be accepted (witness). Variable and adaptor elements are not part of this property."
  },
  {
   "property": "C109",
   "status": "partial",
   "theorems": [
    "OP.Fem.Nodes.C109_mask",
    "OP.Fem.Nodes.C109_add",
    "OP.Fem.Nodes.C109_grid_partial",
    "OP.Fem.Nodes.C109_half_wrong",
    "OP.Fem.Nodes.C109_corner_wrong",
    "OP.Fem.Nodes.C109_third_wrong"
   ],
   "note": "Proved for every mesh: which nodes are found, their numbers, the neighbours, and when the element is refused; and that under a regular mesh of half the width these are the right ones. The code takes any neighbour of a corner for the middle of a side: under a mesh that is finer in y only, the element gets a node twice; next to a single finer block it depends on the corner whether the nodes are taken up, left out or the mesh fails; under a mesh of a third of the width the nodes at a third are taken for the middles (witnesses). The property is about distinct corners; a contradiction is an assertion, here undefined."
  },
  {
   "property": "C110",
   "status": "partial",
   "theorems": [
    "OP.Fem.Area.C110_corner",
    "OP.Fem.Area.C110_block_partial",
    "OP.Fem.Area.C110_inside",
    "OP.Fem.Area.C110_total",
    "OP.Fem.Area.C110_straddle",
    "OP.Fem.Area.C110_covering_wrong",
    "OP.Fem.Area.C110_edge_wrong",
    "OP.Fem.Area.C110_tire_wrong"
   ],
   "note": "Proved in real arithmetic, with the area as Lebesgue measure: what lies beyond a corner, every block without an axis through its inside, every block within the circle, and the total of all blocks between lines that include the axes. The code is wrong for blocks with an axis through them that are partly outside: what is found is the area beyond the block (C110_straddle; the maximum is taken where the minimum belongs and the part beyond is not subtracted), so that a block across the edge gets nothing, and so does every block with all corners outside, even if it covers the load. Nodes on the axes of a tire have such blocks, so that their load is lost (C110_tire_wrong)."
  },
  {
   "property": "C111",
   "status": "partial",
   "theorems": [
    "OP.Fem.Region.C111_meets",
    "OP.Fem.Region.C111_overlaps",
    "OP.Fem.Region.C111_list_meets",
    "OP.Fem.Region.C111_ends_partial",
    "OP.Fem.Region.C111_origin_wrong",
    "OP.Fem.Region.C111_merge",
    "OP.Fem.Region.C111_merge_ends",
    "OP.Fem.Region.C111_apart_partial",
    "OP.Fem.Region.C111_two",
    "OP.Fem.Region.C111_join_exact",
    "OP.Fem.Region.C111_merge_wrong",
    "OP.Fem.Region.C111_coarsen",
    "OP.Fem.Region.C111_even_wrong"
   ],
   "note": "Overlaps, stops, ends and coarsening are proved for all regions. The code: a region that grows in merge is not compared again with those it was compared with before, so that overlapping regions can be left (proved in general for three regions; two are always apart, and a call that takes up nothing leaves all apart); the ends of a list always include the origin; with an even number of stops the last one is lost, which an assertion forbids."
  },
  {
   "property": "C112",
   "status": "proved",
   "theorems": [
    "OP.Fem.Field.C112_bessel",
    "OP.Fem.Field.C112_gamma",
    "OP.Fem.Field.C112_whittle",
    "OP.Fem.Field.C112_ellipse",
    "OP.Fem.Field.C112_correlation",
    "OP.Fem.Field.C112_field",
    "OP.Fem.Field.C112_layers"
   ],
   "note": "In real arithmetic, for every decomposition that succeeds (C42) and for numbers with mean zero and unit variance that are not correlated; independent standard normal numbers are such (white_normal). The Bessel functions of order zero and one are parameters here; their polynomials are modelled in C129, and the files in which decompositions are kept in C132."
  },
  {
   "property": "C113",
   "status": "partial",
   "theorems": [
    "OP.Fem.Depth.C113_depth",
    "OP.Fem.Depth.C113_interface",
    "OP.Fem.Depth.C113_still",
    "OP.Fem.Depth.C113_order",
    "OP.Fem.Depth.C113_above_wrong",
    "OP.Fem.Depth.C113_modulus_wrong",
    "OP.Fem.Depth.C113_infinite"
   ],
   "note": "Proved for all layers, variations and heights where the node has a node on the surface above it. Where there is none, the variations are read outside their arrays (C113_above_wrong), and nothing keeps a layer from being taken away by the variations, which turns its elements inside out (C113_order). The function for the variation of the modulus, which is not called, always reads outside (C113_modulus_wrong); buildEe gives the modulus of the material at every node."
  },
  {
   "property": "C114",
   "status": "partial",
   "theorems": [
    "OP.SetFam.SSet.C114_buffer",
    "OP.SetFam.SSet.C114_element_partial",
    "OP.SetFam.SSet.C114_full_wrong",
    "OP.SetFam.SSet.C114_insert",
    "OP.SetFam.SSet.C114_insert_wrong",
    "OP.SetFam.SSet.C114_self_partial",
    "OP.SetFam.SSet.C114_self_insert",
    "OP.SetFam.SSet.C114_self_insert_wrong",
    "OP.SetFam.SSet.C114_assign_wrong"
   ],
   "note": "True for additions at the end, and for insertions of an element that is not after the place, as long as the buffer has room. With a full buffer every such call reads freed memory; an element after the place is moved before it is read, so that the one before it is inserted; a set inserted into itself repeats its first elements; and a set assigned to itself is empty (all proved in general). The main program of fem3d inserts levels in this way."
  },
  {
   "property": "C115",
   "status": "partial",
   "theorems": [
    "OP.Fem.Stops.C115_generate",
    "OP.Fem.Stops.C115_stops",
    "OP.Fem.Stops.C115_inside",
    "OP.Fem.Stops.C115_levels",
    "OP.Fem.Stops.C115_levels_exact",
    "OP.Fem.Stops.C115_one",
    "OP.Fem.Stops.C115_few_wrong",
    "OP.Fem.Stops.C115_thin_partial",
    "OP.Fem.Stops.C115_thin_wrong"
   ],
   "note": "In exact arithmetic (the code rounds the stops to 1/256). Proved for all layers whenever no assertion fails. The code runs out of stops, and an assertion fails, if the equivalent thickness is at most three radii and there are more than three layers (C115_few_wrong). The thin elements are added without a look at the element they are cut from: with a stop within three of the interface (a first layer of three or less is enough) the stops are out of order (C115_thin_wrong); with space for them all is well (C115_thin_partial)."
  },
  {
   "property": "C116",
   "status": "partial",
   "theorems": [
    "OP.Pave.Stopping.C116_refine",
    "OP.Pave.Stopping.C116_refine_ends",
    "OP.Pave.Stopping.C116_refine_wrong",
    "OP.Pave.Stopping.C116_table",
    "OP.Pave.Stopping.C116_centre_edge",
    "OP.Pave.Stopping.C116_inside",
    "OP.Pave.Stopping.C116_outside",
    "OP.Pave.Stopping.C116_estimate",
    "OP.Pave.Stopping.C116_near_centre",
    "OP.Pave.Stopping.C116_expansion"
   ],
   "note": "Real arithmetic; the tables of roots are parameters. The zero is found, and the search ends, whenever the expansion has different signs at the two roots; the code does not check that, and with equal values returns no number, with the same sign leaves the interval at once (C116_refine_wrong). Missing: that the signs differ for the roots of the Bessel functions."
  },
  {
   "property": "C117",
   "status": "partial",
   "theorems": [
    "OP.Pave.Panels.C117_accurate_partial",
    "OP.Pave.Panels.C117_accurate_wrong",
    "OP.Pave.Panels.C117_units_partial",
    "OP.Pave.Panels.C117_units_wrong",
    "OP.Pave.Panels.C117_points",
    "OP.Pave.Panels.C117_whole"
   ],
   "note": "Exact arithmetic; roots and stopping points are parameters. Proved in full for the modes of calculate. calc_accurate adds the points 7ia/z for great depths z whatever the stopping point: when that is smaller, as it is far from the load, the integration goes past it (C117_accurate_wrong). These points have no unit (7i/z was meant), so the intervals depend on the unit of length (C117_units_wrong); for points that are not deep they do not (C117_units_partial)."
  },
  {
   "property": "C118",
   "status": "partial",
   "theorems": [
    "OP.Var.Simple.C118_others",
    "OP.Var.Simple.C118_type",
    "OP.Var.Simple.C118_copy",
    "OP.Var.Simple.C118_copy_wrong",
    "OP.Var.Simple.C118_assign",
    "OP.Var.Simple.C118_set",
    "OP.Var.Simple.C118_get",
    "OP.Var.Simple.C118_new",
    "OP.Var.Simple.C118_defined",
    "OP.Var.Simple.C118_source",
    "OP.Var.Simple.C118_realize",
    "OP.Var.Simple.C118_realize_fixed",
    "OP.Var.Simple.C118_fixate",
    "OP.Var.Simple.C118_fixate_wrong"
   ],
   "note": "Proved for plain types. The copy constructor of a simple variant and fixate assign to a slot that was never constructed: for a class type that is undefined (C118_copy_wrong, C118_fixate_wrong). Construction and assignment of a simple variant from a variant functor do not compile, and are not modelled."
  },
  {
   "property": "C119",
   "status": "partial",
   "theorems": [
    "OP.Var.Valid.C119_new",
    "OP.Var.Valid.C119_check",
    "OP.Var.Valid.C119_variable",
    "OP.Var.Valid.C119_shadowed_wrong",
    "OP.Var.Valid.C119_copy_wrong",
    "OP.Var.Valid.C119_assign",
    "OP.Var.Valid.C119_moved"
   ],
   "note": "Copies and moves assign to a function object that was never constructed, which is undefined for every validator (C119_copy_wrong). If a derived type comes before its base in the list of types, a variable of the base type is never validated (C119_shadowed_wrong). Assignment from a function does not compile."
  },
  {
   "property": "C120",
   "status": "partial",
   "theorems": [
    "OP.Fem.Outward.C120_once",
    "OP.Fem.Outward.C120_material",
    "OP.Fem.Outward.C120_program",
    "OP.Fem.Outward.C120_levels_wrong",
    "OP.Fem.Outward.C120_thin_wrong",
    "OP.Fem.Outward.C120_position_wrong",
    "OP.Fem.Outward.C120_span_wrong",
    "OP.Fem.Outward.C120_overlap_wrong"
   ],
   "note": "Proved for all runs with at most two regions that end (C120_once), and for the loads of the program with all stops, levels and layers including that the loop ends (C120_program), as long as the levels do not go up. The code: the thin elements below the third interface give a stop a lower level than the one above wherever the level changes at the interface, and then nothing is added at that stop under the loads (proved in general, C120_thin_wrong and C120_levels_wrong); the same loads 8 mm closer to each side end in a failed assertion (C120_position_wrong); an element from one edge to the other has an infinite element on one side only; three regions can be left overlapping by the merge (C111) and what they share is filled twice. Not modelled: the types of the elements and the sets of elements for the output."
  },
  {
   "property": "C121",
   "status": "proved",
   "theorems": [
    "OP.Pave.Dirty.C121_dirty",
    "OP.Pave.Dirty.C121_exists",
    "OP.Pave.Dirty.C121_results",
    "OP.Pave.Dirty.C121_interval",
    "OP.Pave.Dirty.C121_point",
    "OP.Pave.Dirty.C121_error",
    "OP.Pave.Dirty.C121_points"
   ],
   "note": "Real arithmetic; Bessel functions, points and weights are parameters. The bound of the error is for wave numbers at which no exponential is cut off, as in C48."
  },
  {
   "property": "C122",
   "status": "partial",
   "theorems": [
    "OP.Num.Types.C122_name",
    "OP.Num.Types.C122_order",
    "OP.Num.Types.C122_equal_partial",
    "OP.Num.Types.C122_equal_wrong"
   ],
   "note": "Proved: the name, the order of type_index, the order of the names, that types of the same name are equal and that types whose names differ in one byte are different. The code: type_info and type_index compare only the hash, so the two types struct jeV2MGrGX5E and struct l_Ue8s5tsHl are equal (and so are any two longer names that begin with these and go on alike), although one comes before() the other (C122_equal_wrong). The text the compiler writes is taken from the macros."
  },
  {
   "property": "C123",
   "status": "partial",
   "theorems": [
    "OP.Num.Types.C123_once",
    "OP.Num.Types.C123_leak_partial",
    "OP.Num.Types.C123_leak_wrong"
   ],
   "note": "Proved: nothing is deleted twice or held after it was deleted, and exactly the arrays of owners that are assigned to are not deleted. The code: the move assignment overwrites the pointer without deleting the array, also when an owner is assigned to itself (C123_leak_wrong). Nothing in the library assigns to an owner."
  },
  {
   "property": "C124",
   "status": "partial",
   "theorems": [
    "OP.Traffic.C124_exact",
    "OP.Traffic.C124_date_partial",
    "OP.Traffic.C124_none",
    "OP.Traffic.C124_last_wrong",
    "OP.Traffic.C124_trailer_wrong"
   ],
   "note": "Proved: what is returned for every file (C124_exact), and that it is the day of the first vehicle counted for files that end with a line end and have no H0 line before the first vehicle. The code: a vehicle in a last line without a line end is counted but gives no date, so that the file is processed first (C124_last_wrong); a vehicle after an H0 line is not counted but gives the date (C124_trailer_wrong)."
  },
  {
   "property": "C125",
   "status": "partial",
   "theorems": [
    "OP.Pave.C125_node",
    "OP.Pave.C125_load",
    "OP.Pave.C125_elastic_partial",
    "OP.Pave.C125_rest",
    "OP.Pave.C125_between_wrong",
    "OP.Pave.besselJ_j0",
    "OP.Pave.besselJ_j1"
   ],
   "note": "Proved for the precise procedures: for all pavements and loads, the results as functions of the place are an elastic state in equilibrium if every integration point counts for all results or for none, with the true Bessel functions as one instance (BesselJ.lean, from Bessel's integrals). Whatever the stopping points, the results are such a state plus what the points between the two stopping points add (C125_rest). The code: it uses different stopping points for the vertical results and for the shear stress and radial displacement, and a point between them adds a state that is not elastic (C125_between_wrong). Not covered: the axes of the loads, where the code has a formula of its own (C49_below), and points where an exponential is cut off."
  },
  {
   "property": "C126",
   "status": "proved",
   "theorems": [
    "OP.Libop.C126_layout",
    "OP.Libop.C126_query",
    "OP.Libop.C126_places",
    "OP.Libop.C126_together"
   ],
   "note": "Numbers exact; the shear strains returned are the changes of the angles (twice the tensor components)."
  },
  {
   "property": "C127",
   "status": "proved",
   "theorems": [
    "OP.Traffic.C127_agree",
    "OP.Traffic.C127_add",
    "OP.Traffic.C127_vehicle",
    "OP.Traffic.C127_file"
   ],
   "note": "Counters are natural numbers (no overflow of int). Records of at least the 256 characters that are read."
  },
  {
   "property": "C128",
   "status": "partial",
   "theorems": [
    "OP.Links.C128_moves",
    "OP.Links.C128_source_stale"
   ],
   "note": "Layers, owners and marks proved for all histories. Results of the source: the code disagrees. The move constructor of the cache clears the mark of the new pavement but not that of the source, whose points, loads and results are copied (their classes have no move constructors); so a pavement that was calculated still says that its results are valid after its layers were moved away, and a calculation of it returns at once (src/pavement.h:392-394, 441-446; src/pavement.cpp:309). Proved after every history. list_owned::operator=(&&) (include/list.h:424-431), which has no return statement, is not used by LEsystem and not modelled; nor are derived classes."
  },
  {
   "property": "C129",
   "status": "partial",
   "theorems": [
    "OP.Fem.Field.C129_i0",
    "OP.Fem.Field.C129_i1",
    "OP.Fem.Field.C129_parity",
    "OP.Fem.Field.C129_wronskian",
    "OP.Fem.Field.C129_wronskian_all",
    "OP.Fem.Field.C129_whittle",
    "OP.Fem.Field.C129_matern"
   ],
   "note": "Real arithmetic, all arguments in the ranges named. The relation between the four functions holds for every argument. Missing: the power series for arguments from 3.75, and the functions of the second kind one by one (their limit values contain Euler's constant). The correlations are complete: every distance and range, orders 1 and 2, which are those the program uses."
  },
  {
   "property": "C130",
   "status": "proved",
   "theorems": [
    "OP.Pave.C130_area",
    "OP.Pave.C130_pressure_radius",
    "OP.Pave.C130_force_pressure",
    "OP.Pave.C130_force_radius",
    "OP.Pave.C130_none",
    "OP.Pave.C130_again"
   ],
   "note": "Real arithmetic; a radius that is not a finite number counts as no load."
  },
  {
   "property": "C131",
   "status": "partial",
   "theorems": [
    "OP.Fem.Runs.C131_runs",
    "OP.Fem.Runs.C131_once",
    "OP.Fem.Runs.C131_ends",
    "OP.Fem.Runs.C131_endless_wrong",
    "OP.Fem.Runs.C131_names",
    "OP.Fem.Runs.C131_contents"
   ],
   "note": "Proved for every history of failures. The code: the pavement without variations is the same in every run, so if its solution fails once it always fails, and then the program goes on for ever and writes the results with variations of the first run again and again (proved in general, C131_endless_wrong). The opening of the files is not checked."
  },
  {
   "property": "C132",
   "status": "partial",
   "theorems": [
    "OP.Fem.Runs.C132_factors_partial",
    "OP.Fem.Runs.C132_stays",
    "OP.Fem.Runs.C132_stopped_wrong",
    "OP.Fem.Runs.C132_indefinite_wrong",
    "OP.Fem.Runs.C132_mesh_wrong"
   ],
   "note": "Holds for starts that are not stopped, from files that are complete or not there. The code makes the file before it calculates, and never looks whether a file is complete: stopped in between it leaves a file that every later start reads too short, using numbers that were never set (C132_stopped_wrong, all crash points); a matrix that is not positive definite ends the first start only, and later ones go on with an empty file (C132_indefinite_wrong); the files of another mesh are used as they are (C132_mesh_wrong)."
  },
  {
   "property": "C133",
   "status": "partial",
   "theorems": [
    "OP.Pave.LineSearch.C133_no_worse",
    "OP.Pave.LineSearch.C133_minimum_partial",
    "OP.Pave.LineSearch.C133_turn_wrong",
    "OP.Pave.LineSearch.C133_never_ends",
    "OP.Pave.LineSearch.C133_falling_wrong",
    "OP.Pave.LineSearch.C133_conjgrad"
   ],
   "note": "Proved: the result is never worse than the start, and is a minimum within the tolerance if the first loop has found a bracket in order. The code: the turning point of the parabola is taken on the wrong side (C133_turn_wrong); the first loop never ends for a convex error that falls all along the direction (C133_never_ends); for an error that falls ever faster the bracket is out of order and the search ends where the error still falls (C133_falling_wrong). The last two are for whole families of error functions."
  },
  {
   "property": "C134",
   "status": "partial",
   "theorems": [
    "OP.Pave.Swarm.C134_best",
    "OP.Pave.Swarm.C134_stop",
    "OP.Pave.Swarm.C134_start_wrong"
   ],
   "note": "Proved for every error function whose logarithms are below the largest double and grow with the error (exact arithmetic): no division by zero, limits kept, best of all places tried; no further places are tried once one at the start is below the limit. The code never tries the moduli it was given, so the result may be worse than the start (C134_start_wrong, in general). The call of the function is commented out in the code."
  },
  {
   "property": "C135",
   "status": "partial",
   "theorems": [
    "OP.Num.C135_inverse",
    "OP.Num.C135_muller",
    "OP.Num.C135_ridder_partial",
    "OP.Num.C135_ridder_wrong"
   ],
   "note": "Exact arithmetic with an exact square root. Inverse interpolation and Muller's method are proved exact. Ridder's method is exact only if the value in the middle is positive; if it is negative the sign of the value is dropped, and the guess is the mirror image of the root (proved in general)."
  }
 ]
}