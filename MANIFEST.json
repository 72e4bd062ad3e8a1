{
 "claims": [
  {
   "property": "C01",
   "status": "proved",
   "theorems": [
    "Verif.Props.C01_dead_load_flag_sound",
    "Verif.Props.C01_jacobian_is_dense_sum",
    "Verif.Props.C01_reference_route_agrees",
    "Verif.Props.C01_uncoupled_zero"
   ],
   "note": "Production batched CSR route and reference route; real arithmetic replaced by an arbitrary commutative monoid (exact)."
  },
  {
   "property": "C02",
   "status": "proved",
   "theorems": [
    "Verif.Props.C02_entry_slot",
    "Verif.Props.C02_nse_counts_pairs",
    "Verif.Props.C02_pattern_canonical",
    "Verif.Props.C02_stored_iff_coupled"
   ],
   "note": "Canonical pattern, stored iff coupled and kept by the view, count of distinct pairs, unique slot of every raw entry."
  },
  {
   "property": "C03",
   "status": "proved",
   "theorems": [
    "Verif.Props.C03_batched_kernel_eq_unbatched",
    "Verif.Props.C03_jacobian_batch_independent",
    "Verif.Props.C03_residual_batch_independent"
   ],
   "note": "Any batch size, any padding item."
  },
  {
   "property": "C04",
   "status": "proved",
   "theorems": [
    "Verif.Props.C04_batched_route_agrees",
    "Verif.Props.C04_residual_is_scatter_add"
   ],
   "note": "Dense scatter-add specification; fused route agrees."
  },
  {
   "property": "C05",
   "status": "proved",
   "theorems": [
    "Verif.Props.C05_triangular_matvec",
    "Verif.Props.C05_view_is_triangle"
   ],
   "note": "Storage of UPPER/LOWER and the triangular product identity."
  },
  {
   "property": "C06",
   "status": "proved",
   "theorems": [
    "Verif.Props.C06_diagonal",
    "Verif.Props.C06_matvec",
    "Verif.Props.C06_rmatvec",
    "Verif.Props.C06_shapes",
    "Verif.Props.C06_todense",
    "Verif.Props.C06_transpose_view"
   ],
   "note": "Any well-formed CSR matrix over a commutative ring."
  },
  {
   "property": "C07",
   "status": "proved",
   "theorems": [
    "Verif.Props.C07_full_view_structurally_symmetric",
    "Verif.Props.C07_symmetric_flag",
    "Verif.Props.C07_transpose_maps"
   ],
   "note": "Any value array; flag implies shared arrays; full view always sets the flag."
  },
  {
   "property": "C08",
   "status": "proved",
   "theorems": [
    "Verif.Props.C08_cell_index_array",
    "Verif.Props.C08_gather_matches_index_array",
    "Verif.Props.C08_numbering_bijective"
   ],
   "note": ""
  },
  {
   "property": "C09",
   "status": "proved",
   "theorems": [
    "Verif.Props.C09_component_out_of_range_not_rejected",
    "Verif.Props.C09_concat_fields",
    "Verif.Props.C09_errors",
    "Verif.Props.C09_field_entries",
    "Verif.Props.C09_field_eq_unflatten",
    "Verif.Props.C09_node_var_component"
   ],
   "note": "Also proved of the code: an out-of-range component is clamped, not rejected."
  },
  {
   "property": "C10",
   "status": "proved",
   "theorems": [
    "Verif.Props.C10_bad_location_rejected",
    "Verif.Props.C10_canonical",
    "Verif.Props.C10_component_names",
    "Verif.Props.C10_rows_exactly_selected"
   ],
   "note": "Rows sorted/unique/in range, mask and value alignment, rows exactly the selected DOFs; failure exactly for wrong-arity location predicates. numpy argsort/unique modelled as stable."
  },
  {
   "property": "C11",
   "status": "proved",
   "theorems": [
    "Verif.Props.C11_first_spec_wins"
   ],
   "note": "For every DOF the compiled value is that of the first selecting spec."
  },
  {
   "property": "C12",
   "status": "proved",
   "theorems": [
    "Verif.Props.C12_assembled",
    "Verif.Props.C12_eliminated_jacobian",
    "Verif.Props.C12_orphan_dof_not_eliminated",
    "Verif.Props.C12_pattern_unchanged",
    "Verif.Props.C12_symmetric_stays_symmetric"
   ],
   "note": "Exact entrywise form for every pattern with stored diagonals at the constrained DOFs; C12_assembled discharges that hypothesis for assembled matrices whenever each constrained DOF lies in an element; C12_orphan_dof_not_eliminated shows the code really mishandles a constrained DOF outside every element."
  },
  {
   "property": "C13",
   "status": "proved",
   "theorems": [
    "Verif.Props.C13_boundary_residual"
   ],
   "note": ""
  },
  {
   "property": "C14",
   "status": "proved",
   "theorems": [
    "Verif.Props.C14_jvp_is_matvec",
    "Verif.Props.C14_matfree_eq_assembled",
    "Verif.Props.C14_triangular_storage_differs",
    "Verif.Props.C14_vjp_is_rmatvec"
   ],
   "note": "Full storage; jvp/vjp are modelled as exact differentiation of the modelled residual. C14_triangular_storage_differs shows the plain product is not the operator under triangular storage (C05 gives the correct product)."
  },
  {
   "property": "C15",
   "status": "proved",
   "theorems": [
    "Verif.Props.C15_replace_vals"
   ],
   "note": ""
  },
  {
   "property": "C16",
   "status": "proved",
   "theorems": [
    "Verif.Props.C16_default_call",
    "Verif.Props.C16_linear_solve_correct"
   ],
   "note": "Affine residual, any matrix view, assembled or matrix-free, backend any function that solves the system it is given."
  },
  {
   "property": "C17",
   "status": "partial",
   "theorems": [
    "Verif.Props.C17_override_leaves_interior_unsolved",
    "Verif.Props.C17_override_partial"
   ],
   "note": "Full statement is false: C17_override_leaves_interior_unsolved gives a 3-node bar whose interior equation is not met after an override. Proved: constrained DOFs get the new values; interior equations hold when the guess already satisfies the new values."
  },
  {
   "property": "C18",
   "status": "partial",
   "theorems": [
    "Verif.Props.C18_accepted_steps_decrease",
    "Verif.Props.C18_failure_reported",
    "Verif.Props.C18_nan_guess_returned",
    "Verif.Props.C18_never_grows",
    "Verif.Props.C18_stops_for_a_reason_partial"
   ],
   "note": "Bound, monotone decrease, truthful reporting and error reporting proved. Missing: a residual that is NaN at the initial guess stops the loop at once and the guess is returned without error (C18_nan_guess_returned). Floats are an ordered field with NaN."
  },
  {
   "property": "C19",
   "status": "proved",
   "theorems": [
    "Verif.Props.C19_first_acceptable_step"
   ],
   "note": "Scan formulation equals first acceptable step of sequential backtracking; on failure the 1e-8 fallback step is returned with found=False."
  },
  {
   "property": "C20",
   "status": "partial",
   "theorems": [
    "Verif.Props.C20_gradient_is_implicit",
    "Verif.Props.C20_linear_solver_adjoint_partial",
    "Verif.Props.C20_linear_solver_bc_gradient_wrong",
    "Verif.Props.C20_matfree_nonsymmetric_adjoint_wrong",
    "Verif.Props.C20_newton_adjoint_is_true_adjoint_partial",
    "Verif.Props.C20_triangular_storage_bc_gradient_wrong"
   ],
   "note": "Newton adjoint proved to be the true adjoint for full storage (and matrix-free with symmetric tangent). Counterexamples proved: linear solver boundary-value gradient, triangular storage, matrix-free with non-symmetric tangent."
  },
  {
   "property": "C21",
   "status": "partial",
   "theorems": [
    "Verif.Props.C21_constrained_equilibrium_partial",
    "Verif.Props.C21_cyclic_partial_pin_accepted",
    "Verif.Props.C21_incompatible_guess_not_met",
    "Verif.Props.C21_override_equals_rebuild",
    "Verif.Props.C21_stays_in_constrained_space",
    "Verif.Props.C21_validation_partial",
    "Verif.Props.C21_values_met_partial"
   ],
   "note": "In-range part proved for every P. Validation, prescribed values and equilibrium proved for prolongation_matrix without chains and guesses compatible with the prescribed values; false for cyclic prolongations (C21_cyclic_partial_pin_accepted) and for incompatible guesses (C21_incompatible_guess_not_met)."
  },
  {
   "property": "C22",
   "status": "partial",
   "theorems": [
    "Verif.Props.C22_chain_gives_negative_column",
    "Verif.Props.C22_prolongation_partial"
   ],
   "note": "Proved for pairings without chains (no master is a slave of another pairing); with a chain the matrix gets a negative column (C22_chain_gives_negative_column)."
  },
  {
   "property": "C23",
   "status": "partial",
   "theorems": [
    "Verif.Props.C23_cyclic_partial",
    "Verif.Props.C23_nested_pairing_rejected",
    "Verif.Props.C23_shared_slave_drops_constraint"
   ],
   "note": "Proved when no two masters share a slave; a shared slave is accepted and the first constraint dropped (C23_shared_slave_drops_constraint)."
  },
  {
   "property": "C24",
   "status": "partial",
   "theorems": [
    "Verif.Props.C24_covers_boundary_2D",
    "Verif.Props.C24_covers_boundary_3D_partial",
    "Verif.Props.C24_location_functions",
    "Verif.Props.C24_lowered_not_upper",
    "Verif.Props.C24_off_origin_3D_unpaired"
   ],
   "note": "2-D proved for every box; 3-D proved for boxes with lower corner at the origin; off-origin 3-D boxes leave face and edge nodes unpaired (C24_off_origin_3D_unpaired)."
  },
  {
   "property": "C25",
   "status": "proved",
   "theorems": [
    "Verif.Props.C25_ends_without_overshoot",
    "Verif.Props.C25_fixed_step_sizes",
    "Verif.Props.C25_outcome_unique",
    "Verif.Props.C25_shrinking_steps_never_end",
    "Verif.Props.C25_terminates"
   ],
   "note": "Exact arithmetic (ordered field). Termination needs growth >= 1; C25_shrinking_steps_never_end shows the hypothesis is needed."
  },
  {
   "property": "C26",
   "status": "proved",
   "theorems": [
    "Verif.Props.C26_crash_keeps_completed_output",
    "Verif.Props.C26_output_schedule",
    "Verif.Props.C26_snapshots_increasing"
   ],
   "note": "Also proved for runs in which the pipeline raises. history.csv has no row for step 0."
  },
  {
   "property": "C27",
   "status": "partial",
   "theorems": [
    "Verif.Props.C27_can_go_below_minimum",
    "Verif.Props.C27_step_sizes_partial",
    "Verif.Props.C27_within_bounds_partial"
   ],
   "note": "dt_min is not a lower bound as stated: the growth cap is applied after the clamp (C27_can_go_below_minimum). Upper bound, growth bound and the weaker lower bound are proved; the full bounds under dt0 >= dt_min and growth >= 1."
  },
  {
   "property": "C28",
   "status": "proved",
   "theorems": [
    "Verif.Props.C28_linear_problems",
    "Verif.Props.C28_other_schemes_rejected",
    "Verif.Props.C28_scalar_rate",
    "Verif.Props.C28_time_polynomials"
   ],
   "note": "Also for linear systems."
  },
  {
   "property": "C29",
   "status": "proved",
   "theorems": [
    "Verif.Props.C29_cell_numbering",
    "Verif.Props.C29_node_numbering",
    "Verif.Props.C29_nodes_where"
   ],
   "note": "Cell and node numbering is a bijection with the index box; nodes_where selects exactly the nodes satisfying the predicate."
  },
  {
   "property": "C30",
   "status": "proved",
   "theorems": [
    "Verif.Props.C30_connectivity",
    "Verif.Props.C30_hex8_node_order",
    "Verif.Props.C30_to_mesh"
   ],
   "note": "Connectivity is in range and injective, in hex8 order (right-handed), and to_mesh returns it with every node kept."
  },
  {
   "property": "C31",
   "status": "proved",
   "theorems": [
    "Verif.Props.C31_dilation_is_box_neighbourhood",
    "Verif.Props.C31_dilations_add",
    "Verif.Props.C31_equals_node_adjacency"
   ],
   "note": "dilate_cells is the box neighbourhood clipped to the grid; dilations add; one dilation equals one ring of node adjacency."
  },
  {
   "property": "C32",
   "status": "partial",
   "theorems": [
    "Verif.Props.C32_cell_fields_partial",
    "Verif.Props.C32_node_solutions",
    "Verif.Props.C32_params_gather_after_scatter_fails",
    "Verif.Props.C32_params_gather_after_scatter_partial",
    "Verif.Props.C32_params_scatter_after_gather_fails",
    "Verif.Props.C32_params_scatter_after_gather_partial",
    "Verif.Props.C32_single_cell_gather_raises",
    "Verif.Props.C32_wrong_sizes_refused"
   ],
   "note": "Proved for node solutions, for cell fields on meshes of more than one cell, and for volume variables of TracedParams unless cell and node counts coincide. gather_cells raises on a one-cell mesh (C32_single_cell_gather_raises) and the shape dispatch of gather_params/scatter_params is not inverse when counts coincide (C32_params_*_fails)."
  },
  {
   "property": "C33",
   "status": "proved",
   "theorems": [
    "Verif.Props.C33_band_of_grid",
    "Verif.Props.C33_band_of_mesh"
   ],
   "note": "For meshes and structured grids, any active list."
  },
  {
   "property": "C34",
   "status": "partial",
   "theorems": [
    "Verif.Props.C34_active_cells_covered",
    "Verif.Props.C34_from_field",
    "Verif.Props.C34_guard_above_margin_fails",
    "Verif.Props.C34_superset_covers_partial"
   ],
   "note": "Proved for margin >= guard, all histories; for any margin and guard the active cells themselves are covered. With guard > margin the guard ring is not covered and re-extraction is requested for ever (C34_guard_above_margin_fails)."
  },
  {
   "property": "C35",
   "status": "partial",
   "theorems": [
    "Verif.Props.C35_active_ids",
    "Verif.Props.C35_band_cells",
    "Verif.Props.C35_gather_is_last_assigned_partial",
    "Verif.Props.C35_large_id_refused",
    "Verif.Props.C35_large_query_aliases"
   ],
   "note": "Proved for all histories of updates with distinct ids and for queries within int32. Queries of 2^31 and more wrap and can return the value of another cell (C35_large_query_aliases)."
  },
  {
   "property": "C36",
   "status": "partial",
   "theorems": [
    "Verif.Props.C36_cell_centroid",
    "Verif.Props.C36_dims_excludes_maximum",
    "Verif.Props.C36_fit_by_dims_partial",
    "Verif.Props.C36_fit_by_size_partial",
    "Verif.Props.C36_no_padding_excludes_maximum",
    "Verif.Props.C36_voxelize"
   ],
   "note": "Proved for fitting by cell size with the default positive padding. With dims given, or with padding 0, the maximal point of an axis gets no cell: C36_dims_excludes_maximum, C36_no_padding_excludes_maximum."
  },
  {
   "property": "C37",
   "status": "proved",
   "theorems": [
    "Verif.Props.C37_bounds_and_move",
    "Verif.Props.C37_bounds_from_any_input",
    "Verif.Props.C37_terminates",
    "Verif.Props.C37_volume_bracket"
   ],
   "note": "Bounds, move limits, volume bracket and termination over any ordered field; damping is an arbitrary function."
  },
  {
   "property": "C38",
   "status": "partial",
   "theorems": [
    "Verif.Props.C38_coarse_to_fine_partial",
    "Verif.Props.C38_ends_at_request",
    "Verif.Props.C38_floor_makes_coarse_level_finer"
   ],
   "note": "End and length proved for all arguments, coarse-to-fine order when no dim is below floor. Below floor the coarse level is finer (C38_floor_makes_coarse_level_finer)."
  },
  {
   "property": "C39",
   "status": "partial",
   "theorems": [
    "Verif.Props.C39_cholmod_batched",
    "Verif.Props.C39_nested_vmap_refused",
    "Verif.Props.C39_stacked_matrix_block_diagonal",
    "Verif.Props.C39_stacked_solve_iff",
    "Verif.Props.C39_two_axes",
    "Verif.Props.C39_two_axes_backends",
    "Verif.Props.C39_umfpack_batched",
    "Verif.Props.C39_vmap_partial",
    "Verif.Props.C39_vmap_uses_first_pattern"
   ],
   "note": "Stacked matrix proved block diagonal and stacked solve equivalent to the separate solves for every batch size, valid (also padded) pattern and values; UMFPACK (shared/individual values) and CHOLMOD/SciPy batched solves, with one or two batch axes, and their vmap rule return solutions of each instance for any backend whose answers solve the system it is given. Partial: under vmap, instances with different patterns are accepted and solved with the first one's pattern (witness); a solve vmapped twice raises TypeError for every pattern and batch (C39_nested_vmap_refused)."
  },
  {
   "property": "C40",
   "status": "partial",
   "theorems": [
    "Verif.Props.C40_history_independent_partial",
    "Verif.Props.C40_interrupted_update_poisons"
   ],
   "note": "History independence of answers and exceptions for all histories, under a stated contract of the factorisation library. Partial: a call interrupted between the cache's assignments poisons later calls (witness, also with a library that checks patterns)."
  },
  {
   "property": "C41",
   "status": "partial",
   "theorems": [
    "Verif.Props.C41_accepted_shapes",
    "Verif.Props.C41_attribute_types",
    "Verif.Props.C41_four_components_lose_index",
    "Verif.Props.C41_index_consistent",
    "Verif.Props.C41_index_written_iff",
    "Verif.Props.C41_names_survive_reentry",
    "Verif.Props.C41_rejected_call_blocks_later",
    "Verif.Props.C41_valid_calls_accepted_partial"
   ],
   "note": "Index consistency proved for all histories of calls and for re-entry; the last clause (a rejected frame does not prevent later ones) is false: proved that every later call of the session is then rejected; a 4-component field makes the exit fail without an index."
  },
  {
   "property": "C42",
   "status": "partial",
   "theorems": [
    "Verif.Props.C42_merged_is_sum",
    "Verif.Props.C42_shape_mismatch_refused",
    "Verif.Props.C42_stored_zero_raises",
    "Verif.Props.C42_union_pattern_partial"
   ],
   "note": "Canonical union pattern for any storage order/duplicates, sum of two CSR matrices on the merged pattern and its transpose, for all shapes and values. Partial: a scipy pattern with a stored zero makes the merge raise (witness)."
  },
  {
   "property": "C43",
   "status": "proved",
   "theorems": [
    "Verif.Props.C43_accepted_types",
    "Verif.Props.C43_counter_clockwise",
    "Verif.Props.C43_nodes_distinct",
    "Verif.Props.C43_rectangle_mesh"
   ],
   "note": "All Nx,Ny>=1, all three element types; exact arithmetic for coordinates."
  },
  {
   "property": "C44",
   "status": "partial",
   "theorems": [
    "Verif.Props.C44_refine_readback",
    "Verif.Props.C44_reindexed_partial",
    "Verif.Props.C44_unordered_tags_wrong_geometry"
   ],
   "note": "box/sphere/cylinder/_extract_tet4 assume node tag t sits at position t-1: proved under that condition, refuted without it; refine_mesh (which remaps tags) proved for every numbering."
  },
  {
   "property": "C45",
   "status": "partial",
   "theorems": [
    "Verif.Props.C45_automatic_type",
    "Verif.Props.C45_earlier_blocks_lost",
    "Verif.Props.C45_last_block",
    "Verif.Props.C45_single_block_partial",
    "Verif.Props.C45_type_table",
    "Verif.Props.C45_unsupported_raises"
   ],
   "note": "Only the last block of a type is kept: proved for one block per type, refuted for two; automatic choice and rejection proved."
  },
  {
   "property": "C46",
   "status": "proved",
   "theorems": [
    "Verif.Props.C46_count",
    "Verif.Props.C46_each_once",
    "Verif.Props.C46_face_table",
    "Verif.Props.C46_regions",
    "Verif.Props.C46_selected_iff"
   ],
   "note": "Criterion is all vertices of the face (the docstring of count_selected_faces says centroid). Node numbers assumed in range."
  },
  {
   "property": "C47",
   "status": "proved",
   "theorems": [
    "Verif.Props.C47_free_idempotent",
    "Verif.Props.C47_plain_assembly",
    "Verif.Props.C47_rebuild",
    "Verif.Props.C47_traced_structure_unaffected"
   ],
   "note": "TracedStructure.from_problem, free_assembly_scratch and the slot-sort caches as a state machine over the problem attributes; all histories of build/free/assemble. The residual-only path reads arrays that are never released."
  },
  {
   "property": "C48",
   "status": "partial",
   "theorems": [
    "Verif.Props.C48_auto_selection",
    "Verif.Props.C48_config_values",
    "Verif.Props.C48_documented_order_none_rejected",
    "Verif.Props.C48_explicit",
    "Verif.Props.C48_idempotent",
    "Verif.Props.C48_iterative_options_partial",
    "Verif.Props.C48_iterative_selection",
    "Verif.Props.C48_names",
    "Verif.Props.C48_options_kept_partial",
    "Verif.Props.C48_raises_iff_none",
    "Verif.Props.C48_restart_dropped",
    "Verif.Props.C48_triangular_storage_gets_lu"
   ],
   "note": "Selection, admissibility, error-iff-none, explicit choice kept: proved. Fails: triangular storage handed to a general LU backend, GMRES restart dropped by automatic selection, order=None documented but refused."
  },
  {
   "property": "C49",
   "status": "partial",
   "theorems": [
    "Verif.Props.C49_accepted_is_honoured_partial",
    "Verif.Props.C49_amg_drops_extra_residual",
    "Verif.Props.C49_contradictions_raise",
    "Verif.Props.C49_linear_ignores_elimination",
    "Verif.Props.C49_prolongation_never_iterates",
    "Verif.Props.C49_prolongation_sides"
   ],
   "note": "All accepted non-reduced requests honoured outside three listed combinations; contradictions raise. Fails: linear=True ignores symmetric_elimination=False; P never iterates; rebuilding AMG drops the extra residual and the adjoint options."
  },
  {
   "property": "C50",
   "status": "proved",
   "theorems": [
    "Verif.Props.C50_design_fits_mesh",
    "Verif.Props.C50_evaluations",
    "Verif.Props.C50_no_remesh",
    "Verif.Props.C50_optimiser_not_reused",
    "Verif.Props.C50_parameters",
    "Verif.Props.C50_remeshes"
   ],
   "note": "Exactly max_iter evaluations numbered 1,2,...; parameters value_at(k-1); remeshes at the first n_adapts_max multiples; optimiser objects never reused across a change. For any inner optimiser that makes between 1 and budget evaluations per call."
  },
  {
   "property": "C51",
   "status": "partial",
   "theorems": [
    "Verif.Props.C51_between_partial",
    "Verif.Props.C51_eventually_final",
    "Verif.Props.C51_monotone",
    "Verif.Props.C51_never_beyond_final",
    "Verif.Props.C51_not_clamped_to_initial",
    "Verif.Props.C51_starts_at_initial"
   ],
   "note": "Starts at initial, never passes final, monotone, eventually final for steps towards final; between initial and final for such steps. The documented clamp fails for steps that lead away: C51_not_clamped_to_initial."
  },
  {
   "property": "C52",
   "status": "proved",
   "theorems": [
    "Verif.Props.C52_feasible_iff",
    "Verif.Props.C52_gradients",
    "Verif.Props.C52_other_types_raise"
   ],
   "note": "Feasibility of all registered constraints iff the declared ones hold, with the optimiser's tolerance; gradients match values; other types raise."
  },
  {
   "property": "C53",
   "status": "partial",
   "theorems": [
    "Verif.Props.C53_bounded",
    "Verif.Props.C53_constant",
    "Verif.Props.C53_filter_bounded",
    "Verif.Props.C53_formula",
    "Verif.Props.C53_linear",
    "Verif.Props.C53_mass_not_conserved",
    "Verif.Props.C53_monotone",
    "Verif.Props.C53_weights",
    "Verif.Props.C53_zero_radius"
   ],
   "note": "The filtered value is the weighted mean with the linear hat weights (formula, weights), is bounded by the extremes, linear, monotone and exact on constants for every batch size and mesh when the radius is positive. Two parts of the claim are false of the code and their negations are proved: the sum (mass) of the field is not conserved near a boundary (C53_mass_not_conserved) and a zero radius returns the zero field (C53_zero_radius)."
  },
  {
   "property": "C54",
   "status": "proved",
   "theorems": [
    "Verif.Props.C54_sensitivity_filter"
   ],
   "note": ""
  },
  {
   "property": "C55",
   "status": "partial",
   "theorems": [
    "Verif.Props.C55_constant",
    "Verif.Props.C55_gradient_partial",
    "Verif.Props.C55_gradient_transposed",
    "Verif.Props.C55_node_average",
    "Verif.Props.C55_range"
   ],
   "note": "False of the code for elements whose edge matrix is not symmetric: it applies the inverse transpose where the inverse is needed (C55_gradient_transposed). Proved: the correct gradient on elements with a symmetric edge matrix, zero gradient for constant fields, the nodal averaging, and the range of the normalised result for all fields and meshes."
  },
  {
   "property": "C56",
   "status": "partial",
   "theorems": [
    "Verif.Props.C56_ambiguous_assembly",
    "Verif.Props.C56_ambiguous_energy",
    "Verif.Props.C56_assembly_partial",
    "Verif.Props.C56_cell_vector_truncated",
    "Verif.Props.C56_energy_partial",
    "Verif.Props.C56_routes_agree_partial",
    "Verif.Props.C56_scalar_refused",
    "Verif.Props.C56_second_field_energy"
   ],
   "note": "Values handed to the constitutive function by assembly are the intended ones whenever no field has as many nodes as there are cells (C56_assembly_partial); the energy and average-stress routes agree for scalar nodal data of field 0, per-cell and per-quadrature data (C56_energy_partial, C56_routes_agree_partial). Violated, with witnesses: equal node and cell counts (C56_ambiguous_assembly, C56_ambiguous_energy), nodal data of another field in the energy (C56_second_field_energy), rank-0 data (C56_scalar_refused), per-cell vectors (C56_cell_vector_truncated)."
  },
  {
   "property": "C57",
   "status": "proved",
   "theorems": [
    "Verif.Props.C57_edge_set",
    "Verif.Props.C57_edges_roundtrip",
    "Verif.Props.C57_isolated_node_lost",
    "Verif.Props.C57_loop_lost",
    "Verif.Props.C57_lower_triangle_ignored",
    "Verif.Props.C57_matrix",
    "Verif.Props.C57_matrix_roundtrip",
    "Verif.Props.C57_same_indicator",
    "Verif.Props.C57_same_indicator_adj"
   ],
   "note": "For simple undirected graphs (no loops) with num_nodes given. Outside: C57_loop_lost, C57_lower_triangle_ignored, C57_isolated_node_lost show what happens."
  },
  {
   "property": "C58",
   "status": "partial",
   "theorems": [
    "Verif.Props.C58_bc_roundtrip",
    "Verif.Props.C58_csr_roundtrip",
    "Verif.Props.C58_params_lane",
    "Verif.Props.C58_params_leaves",
    "Verif.Props.C58_params_map",
    "Verif.Props.C58_params_roundtrip",
    "Verif.Props.C58_params_stack_ok",
    "Verif.Props.C58_params_structure",
    "Verif.Props.C58_problem_later_lost",
    "Verif.Props.C58_problem_roundtrip_partial",
    "Verif.Props.C58_problem_single_mesh",
    "Verif.Props.C58_replace_surface",
    "Verif.Props.C58_replace_volume",
    "Verif.Props.C58_solution_roundtrip",
    "Verif.Props.C58_structure_leaves",
    "Verif.Props.C58_structure_roundtrip"
   ],
   "note": "TracedParams: C58_params_{roundtrip,leaves,map,structure,lane,stack_ok} and replacements; TracedStructure, DirichletBC, CSRMatrix, Solution round trips; Problem as constructed (C58_problem_roundtrip_partial, any subclass state computed from the fields). Violated for Problem attributes assigned after construction: C58_problem_later_lost."
  },
  {
   "property": "C59",
   "status": "proved",
   "theorems": [
    "Verif.Props.C59_flagged_or_unchanged"
   ],
   "note": "Any operator product and norm; NaN modelled as none."
  },
  {
   "property": "C60",
   "status": "partial",
   "theorems": [
    "Verif.Props.C60_tied_rows_overshoot",
    "Verif.Props.C60_x0_prolonged_partial",
    "Verif.Props.C60_x0_satisfies_bc_rows"
   ],
   "note": "Proved without a prolongation. With a prolongation the increment is met only where a class has one constrained DOF (C60_x0_prolonged_partial); tied constrained DOFs overshoot by the size of the class (C60_tied_rows_overshoot)."
  },
  {
   "property": "C61",
   "status": "proved",
   "theorems": [
    "Verif.Props.C61_fused_eq_separate"
   ],
   "note": ""
  },
  {
   "property": "C62",
   "status": "partial",
   "theorems": [
    "Verif.Props.C62_ascends_and_descends",
    "Verif.Props.C62_combine",
    "Verif.Props.C62_combine_empty",
    "Verif.Props.C62_eq_initial",
    "Verif.Props.C62_ineq_initial",
    "Verif.Props.C62_multiplier_gradient",
    "Verif.Props.C62_multiplier_step_raises_loss",
    "Verif.Props.C62_prepare_update",
    "Verif.Props.C62_violated_start_is_equality"
   ],
   "note": "Update signs, ascent in the multipliers, initial infeasibility, combine. Violated: an inequality constraint that starts violated keeps slack 0 for ever and acts as an equality (C62_violated_start_is_equality)."
  },
  {
   "property": "C63",
   "status": "proved",
   "theorems": [
    "Verif.Props.C63_formula",
    "Verif.Props.C63_isotropic",
    "Verif.Props.C63_modulus"
   ],
   "note": "np.linalg.inv is assumed to return an inverse."
  },
  {
   "property": "C64",
   "status": "partial",
   "theorems": [
    "Verif.Props.C64_host_newton_partial",
    "Verif.Props.C64_zero_iterations_fails"
   ],
   "note": "Missing: max_iter=0 with an unconverged guess raises UnboundLocalError (C64_zero_iterations_fails) instead of returning."
  },
  {
   "property": "C65",
   "status": "partial",
   "theorems": [
    "Verif.Props.C65_level_schedule_partial",
    "Verif.Props.C65_single_level_ignores_n_iter"
   ],
   "note": "Proved for every ladder as run; with a one-level ladder the requested grid runs coarse_iter instead of n_iter iterations (C65_single_level_ignores_n_iter)."
  },
  {
   "property": "C66",
   "status": "proved",
   "theorems": [
    "Verif.Props.C66_band_follows_design",
    "Verif.Props.C66_solver_matches_active_set"
   ],
   "note": ""
  },
  {
   "property": "C67",
   "status": "partial",
   "theorems": [
    "Verif.Props.C67_overlapping_calls_mix_matrices",
    "Verif.Props.C67_serial_calls_partial"
   ],
   "note": "Serial schedules in any order give every call its own answer; overlapping factorise/solve steps mix matrices (witness)."
  },
  {
   "property": "C68",
   "status": "partial",
   "theorems": [
    "Verif.Props.C68_output_type_partial",
    "Verif.Props.C68_quad8_written_as_hexahedron",
    "Verif.Props.C68_rejected"
   ],
   "note": "Type is guessed from the number of nodes per cell; plane QUAD8 is written as HEX8 (refuted), QUAD9/HEX27 are rejected."
  },
  {
   "property": "C69",
   "status": "partial",
   "theorems": [
    "Verif.Props.C69_constant_tangent_partial",
    "Verif.Props.C69_exact_at_probes",
    "Verif.Props.C69_stop_taken_for_dead",
    "Verif.Props.C69_zero_sample_parameter"
   ],
   "note": "Sound when the surface tangent depends neither on load parameters nor on the state (C69_constant_tangent_partial). Violated otherwise: a Robin coefficient that is zero in the sample (C69_zero_sample_parameter), contact not reached by the probes (C69_stop_taken_for_dead)."
  },
  {
   "property": "C70",
   "status": "partial",
   "theorems": [
    "Verif.Props.C70_indefinite_taken_for_spd",
    "Verif.Props.C70_nonsymmetric_taken_for_spd",
    "Verif.Props.C70_spd_recognised",
    "Verif.Props.C70_symmetric_never_general",
    "Verif.Props.C70_verdict_partial"
   ],
   "note": "Symmetric is never reported general, SPD is always recognised, and what each verdict implies. The converse fails: C70_indefinite_taken_for_spd, C70_nonsymmetric_taken_for_spd."
  },
  {
   "property": "C71",
   "status": "partial",
   "theorems": [
    "Verif.Props.C71_colliding_names",
    "Verif.Props.C71_history_partial"
   ],
   "note": "For distinct names (including the added _lb names). Violated on a collision: C71_colliding_names."
  },
  {
   "property": "C72",
   "status": "partial",
   "theorems": [
    "Verif.Props.C72_bounds",
    "Verif.Props.C72_bounds_after_remesh",
    "Verif.Props.C72_default_design",
    "Verif.Props.C72_default_design_out_of_bounds",
    "Verif.Props.C72_initial_partial",
    "Verif.Props.C72_stale_indices"
   ],
   "note": "Bounds exact; initial design admissible if the design it is made from is. Violated: default design below the lower bound for a small target (C72_default_design_out_of_bounds); stale indices after a remesh with the same number of nodes (C72_stale_indices)."
  },
  {
   "property": "C73",
   "status": "partial",
   "theorems": [
    "Verif.Props.C73_bounds",
    "Verif.Props.C73_clip",
    "Verif.Props.C73_containing_element_missed",
    "Verif.Props.C73_linear_partial",
    "Verif.Props.C73_linear_small_mesh"
   ],
   "note": "Exact for linear fields at points contained in a candidate, for whole meshes of at most eight elements; bounds and clip for all inputs. False in general: the containing element need not be among the eight nearest centroids (C73_containing_element_missed)."
  },
  {
   "property": "C74",
   "status": "partial",
   "theorems": [
    "Verif.Props.C74_bounds",
    "Verif.Props.C74_interpolates_partial",
    "Verif.Props.C74_uniform_field_ignored"
   ],
   "note": "Bounds for all fields; the interpolation for every non-uniform field. A uniform field is ignored (C74_uniform_field_ignored)."
  },
  {
   "property": "C75",
   "status": "proved",
   "theorems": [
    "Verif.Props.C75_ratio",
    "Verif.Props.C75_retune"
   ],
   "note": "The mesher is an arbitrary deterministic function of the two sizes."
  },
  {
   "property": "C76",
   "status": "proved",
   "theorems": [
    "Verif.Props.C76_indicator",
    "Verif.Props.C76_indicator_adj",
    "Verif.Props.C76_negative_radius"
   ],
   "note": "Distances are compared squared, which is the same for a non-negative radius."
  },
  {
   "property": "C77",
   "status": "partial",
   "theorems": [
    "Verif.Props.C77_ambiguous_solution",
    "Verif.Props.C77_solution_array",
    "Verif.Props.C77_solution_value_partial",
    "Verif.Props.C77_uniform_partial",
    "Verif.Props.C77_uniform_violated"
   ],
   "note": "C77_uniform_partial and C77_solution_value_partial need that no mesh has as many nodes as cells; C77_uniform_violated is the counterexample. C77_solution_array and C77_ambiguous_solution hold without it."
  },
  {
   "property": "C78",
   "status": "proved",
   "theorems": [
    "Verif.Props.C78_degenerate_cell",
    "Verif.Props.C78_gradient_linear",
    "Verif.Props.C78_gradient_of_affine_field",
    "Verif.Props.C78_translation_has_no_gradient",
    "Verif.Props.C78_value_of_affine_field"
   ],
   "note": "Every supported element type, arbitrary points and meshes, exact arithmetic in any field. For QUAD8 and HEX20 the Basix basis is modelled from its documentation (vertex values and edge averages)."
  },
  {
   "property": "C79",
   "status": "partial",
   "theorems": [
    "Verif.Props.C79_coordinates",
    "Verif.Props.C79_face_nodes",
    "Verif.Props.C79_face_restriction",
    "Verif.Props.C79_face_trace",
    "Verif.Props.C79_gmsh_tet10_order",
    "Verif.Props.C79_gradients_coordinates",
    "Verif.Props.C79_gradients_sum",
    "Verif.Props.C79_hex27_refused",
    "Verif.Props.C79_interpolation_bounds",
    "Verif.Props.C79_nodal",
    "Verif.Props.C79_order_is_permutation",
    "Verif.Props.C79_partition_of_unity",
    "Verif.Props.C79_quadratic_overshoot",
    "Verif.Props.C79_same_order",
    "Verif.Props.C79_serendipity_edge",
    "Verif.Props.C79_serendipity_midside_not_nodal",
    "Verif.Props.C79_serendipity_nodes_partial",
    "Verif.Props.C79_supported"
   ],
   "note": "All statements for the Lagrange types; node orders, face tables, partition of unity, coordinates, gradients and face traces for all nine types. Refuted: on QUAD8 and HEX20, for the degrees of freedom Basix documents (edge averages), the field at a midside node is 3/2 of the stored value less a quarter of the corner values (C79_serendipity_midside_not_nodal; corner nodes and the trace on edges are settled by C79_serendipity_nodes_partial and C79_serendipity_edge); HEX27 is refused (C79_hex27_refused); Gmsh's TET10 order, which refine_mesh says matches meshio, does not (C79_gmsh_tet10_order). Quadratic types overshoot (C79_quadratic_overshoot)."
  },
  {
   "property": "C80",
   "status": "partial",
   "theorems": [
    "Verif.Props.C80_affine_field_partial",
    "Verif.Props.C80_quadratic_field_partial",
    "Verif.Props.C80_serendipity_curvature_wrong",
    "Verif.Props.C80_trapezoid_violated"
   ],
   "note": "Exact on affine images of the reference cell for every element type (affine fields) and for TRI6, TET10, QUAD9 (quadratic fields). On other straight-edged cells it fails: C80_trapezoid_violated. On QUAD8 the nodal values of a quadratic field give one and a half times its curvature (C80_serendipity_curvature_wrong), for the degrees of freedom Basix documents."
  },
  {
   "property": "C81",
   "status": "proved",
   "theorems": [
    "Verif.Props.C81_affine_cell",
    "Verif.Props.C81_edge_length",
    "Verif.Props.C81_edge_measure",
    "Verif.Props.C81_face_measure",
    "Verif.Props.C81_gradients_transform",
    "Verif.Props.C81_inverted_cell_negative",
    "Verif.Props.C81_tetrahedron",
    "Verif.Props.C81_triangle",
    "Verif.Props.C81_weights_transform"
   ],
   "note": "Exact arithmetic; face normals and facet directions of Basix enter as hypotheses of C81_edge_measure and C81_face_measure. On inverted cells the measures are negative (C81_inverted_cell_negative)."
  },
  {
   "property": "C82",
   "status": "proved",
   "theorems": [
    "Verif.Props.C82_composition",
    "Verif.Props.C82_equilibrium_is_galerkin",
    "Verif.Props.C82_residual_additive",
    "Verif.Props.C82_residual_is_the_weak_form",
    "Verif.Props.C82_single_variable",
    "Verif.Props.C82_surface_composition",
    "Verif.Props.C82_surface_map"
   ],
   "note": "Kernels, the flattening and slicing of multi-variable element vectors and the scatter are modelled; shape values, gradients and weights enter as data per cell (their relation to the mesh is C78-C81). Exact arithmetic in any commutative ring."
  },
  {
   "property": "C83",
   "status": "proved",
   "theorems": [
    "Verif.Props.C83_affine_work",
    "Verif.Props.C83_every_mesh",
    "Verif.Props.C83_internal_forces_balanced",
    "Verif.Props.C83_mean_stress",
    "Verif.Props.C83_reactions_balance_loads",
    "Verif.Props.C83_reference_elements",
    "Verif.Props.C83_total_force",
    "Verif.Props.C83_total_moment"
   ],
   "note": "Stated for the displacement variable of problems with any number of variables, under consistency of its shape functions; C83_every_mesh discharges that for one-variable problems on every supported element type. Exact arithmetic."
  },
  {
   "property": "C84",
   "status": "proved",
   "theorems": [
    "Verif.Props.C84_convex_equilibrium_is_minimiser",
    "Verif.Props.C84_minimiser_is_equilibrium",
    "Verif.Props.C84_potential_minimiser_is_equilibrium",
    "Verif.Props.C84_residual_is_the_energy_gradient",
    "Verif.Props.C84_residual_is_the_potential_gradient"
   ],
   "note": "jax.grad is a function assumed to be the derivative of the density (IsGradientOf); exact real arithmetic."
  },
  {
   "property": "C85",
   "status": "partial",
   "theorems": [
    "Verif.Props.C85_compliance_is_internal_work",
    "Verif.Props.C85_compliance_is_load_work",
    "Verif.Props.C85_compliance_is_twice_the_energy",
    "Verif.Props.C85_dynamic_compliance_partial",
    "Verif.Props.C85_dynamic_drops_surfaces",
    "Verif.Props.C85_load_parameters",
    "Verif.Props.C85_numpy_array_not_split",
    "Verif.Props.C85_weak_form_loads_ignored"
   ],
   "note": "Work identities proved for one-variable problems with surface maps. Refuted: numpy arrays of parameters are not split (C85_numpy_array_not_split), surfaces beyond the end of surface_vars are left out (C85_dynamic_drops_surfaces), loads given as surface weak forms are ignored (C85_weak_form_loads_ignored)."
  },
  {
   "property": "C86",
   "status": "partial",
   "theorems": [
    "Verif.Props.C86_between_zero_and_one_partial",
    "Verif.Props.C86_linear",
    "Verif.Props.C86_quadrature_array_misread",
    "Verif.Props.C86_tet10_out_of_range",
    "Verif.Props.C86_uniform_density",
    "Verif.Props.C86_volume_fraction"
   ],
   "note": "Meaning, linearity, uniform densities and errors proved; range proved except for nodal densities on elements with negative shape values. Refuted: TET10 nodal densities give -1/20 (C86_tet10_out_of_range), a quadrature array is read as nodal when the sizes coincide (C86_quadrature_array_misread)."
  },
  {
   "property": "C87",
   "status": "partial",
   "theorems": [
    "Verif.Props.C87_bilinear_example",
    "Verif.Props.C87_bilinear_exceeds_fracture_energy",
    "Verif.Props.C87_bilinear_onset_fixed",
    "Verif.Props.C87_bilinear_partial",
    "Verif.Props.C87_closing_returns_the_energy",
    "Verif.Props.C87_exponential_energy",
    "Verif.Props.C87_exponential_fracture_energy",
    "Verif.Props.C87_exponential_irreversible",
    "Verif.Props.C87_exponential_peak_traction",
    "Verif.Props.C87_unloading_exceeds_critical_traction",
    "Verif.Props.C87_unloading_path"
   ],
   "note": "Exponential law: peak traction, energy range, monotonicity, fracture energy and irreversibility of the stiffness proved over the reals. Refuted: closing returns the stored energy (no dissipation), traction on reversal exceeds sigma_c, and the bilinear law has its onset at opening 1 whatever the parameters, so it exceeds Gamma whenever sigma_c > 2 Gamma (proved in general, and with the module's example parameters). C87_bilinear_partial covers sigma_c < 2 Gamma. Exact real arithmetic; floating-point rounding is not modelled."
  },
  {
   "property": "C88",
   "status": "proved",
   "theorems": [
    "Verif.Props.C88_bad_input_refused",
    "Verif.Props.C88_components",
    "Verif.Props.C88_contact_energy",
    "Verif.Props.C88_energy",
    "Verif.Props.C88_from_axis",
    "Verif.Props.C88_lumped_total",
    "Verif.Props.C88_lumped_weight",
    "Verif.Props.C88_modes",
    "Verif.Props.C88_opening",
    "Verif.Props.C88_orthogonal_split",
    "Verif.Props.C88_quad_area",
    "Verif.Props.C88_rigid_translation",
    "Verif.Props.C88_trapezoidal_weights"
   ],
   "note": "Node numbers in range and one weight and one history value per pair are assumed (JAX would clamp or broadcast). Exact real arithmetic."
  },
  {
   "property": "C89",
   "status": "partial",
   "theorems": [
    "Verif.Props.C89_array_of_one_wrong",
    "Verif.Props.C89_arrays_refused",
    "Verif.Props.C89_principal_direction",
    "Verif.Props.C89_smooth_sign",
    "Verif.Props.C89_tensor_2d",
    "Verif.Props.C89_tensor_3d_not_admissible",
    "Verif.Props.C89_tensor_3d_partial",
    "Verif.Props.C89_tetrahedron",
    "Verif.Props.C89_tetrahedron_corners",
    "Verif.Props.C89_trace_above_one",
    "Verif.Props.C89_triangle",
    "Verif.Props.C89_triangle_corners",
    "Verif.Props.C89_triangle_mirror"
   ],
   "note": "Proved with the bound 1 + 1e-6 (2e-6 in space). Refuted: the sum stays at most one (C89_trace_above_one), arrays are accepted (C89_arrays_refused, C89_array_of_one_wrong), the three-dimensional tensor is positive semidefinite (C89_tensor_3d_not_admissible; C89_tensor_3d_partial gives the two-by-two minors). eigh enters by its specification (IsEigh). Exact real arithmetic."
  },
  {
   "property": "C90",
   "status": "proved",
   "theorems": [
    "Verif.Props.C90_build_admissible",
    "Verif.Props.C90_build_aligned",
    "Verif.Props.C90_build_complete",
    "Verif.Props.C90_build_contraction",
    "Verif.Props.C90_hybrid_blend",
    "Verif.Props.C90_hybrid_exact",
    "Verif.Props.C90_linear",
    "Verif.Props.C90_other_dimensions_refused",
    "Verif.Props.C90_outside_disk",
    "Verif.Props.C90_quadratic_exact"
   ],
   "note": "Distributions are finite weighted lists of unit vectors. The documentation says the contraction is exact; with eps > 0 it holds within eps/2, which is what the property states. Exact real arithmetic."
  },
  {
   "property": "C91",
   "status": "proved",
   "theorems": [
    "Verif.Props.C91_axis_rotation",
    "Verif.Props.C91_in_plane_angle",
    "Verif.Props.C91_isotropic",
    "Verif.Props.C91_orthotropic_3d",
    "Verif.Props.C91_orthotropic_in_plane",
    "Verif.Props.C91_rotation_composes",
    "Verif.Props.C91_rotation_covariant",
    "Verif.Props.C91_transverse_isotropic",
    "Verif.Props.C91_voigt_round_trip"
   ],
   "note": "np.linalg.inv is the matrix inverse; the compliance is assumed invertible where it is inverted. Exact real arithmetic."
  },
  {
   "property": "C92",
   "status": "proved",
   "theorems": [
    "Verif.Props.C92_average",
    "Verif.Props.C92_average_3d",
    "Verif.Props.C92_random_isotropic",
    "Verif.Props.C92_single_angle",
    "Verif.Props.C92_stable",
    "Verif.Props.C92_symmetric",
    "Verif.Props.C92_thermal"
   ],
   "note": "Distributions are finite. Stability is proved in the plane. Exact real arithmetic."
  },
  {
   "property": "C93",
   "status": "proved",
   "theorems": [
    "Verif.Props.C93_energy",
    "Verif.Props.C93_faces",
    "Verif.Props.C93_laminate",
    "Verif.Props.C93_laminate_symmetric",
    "Verif.Props.C93_layup_arguments",
    "Verif.Props.C93_plate_residual",
    "Verif.Props.C93_resultants",
    "Verif.Props.C93_reversed",
    "Verif.Props.C93_rotated",
    "Verif.Props.C93_single_ply",
    "Verif.Props.C93_stable",
    "Verif.Props.C93_strains",
    "Verif.Props.C93_symmetric_no_thermal_moment",
    "Verif.Props.C93_symmetric_uncoupled",
    "Verif.Props.C93_weak_form_is_the_energy_derivative"
   ],
   "note": "Real arithmetic instead of floating point. thicknessIntegral is Mathlib's interval integral of the piecewise function through the stack. The potential theorem asks for symmetric stiffnesses; C93_laminate_symmetric shows that laminates of symmetric plies have them. The invalid 'nonlinear' is refused when the weak form is evaluated, not when make_mindlin_plate is called."
  },
  {
   "property": "C94",
   "status": "proved",
   "theorems": [
    "Verif.Props.C94_balance",
    "Verif.Props.C94_create_layered",
    "Verif.Props.C94_create_oriented",
    "Verif.Props.C94_exact_through_the_thickness",
    "Verif.Props.C94_exact_with_thermal_strain",
    "Verif.Props.C94_geometric_stiffness",
    "Verif.Props.C94_gradient_chain_rule",
    "Verif.Props.C94_interpolation",
    "Verif.Props.C94_no_spurious_forces",
    "Verif.Props.C94_patch",
    "Verif.Props.C94_quadrature",
    "Verif.Props.C94_quadrature_exact",
    "Verif.Props.C94_residual_is_the_energy_gradient",
    "Verif.Props.C94_shape_functions",
    "Verif.Props.C94_tangent_symmetric",
    "Verif.Props.C94_virtual_work"
   ],
   "note": "Exact real arithmetic. The Gauss rules of numpy are any rules satisfying GaussRule (points in [-1,1], non-negative weights, exact to the stated degree); the two-point rule is shown to satisfy it."
  },
  {
   "property": "C95",
   "status": "partial",
   "theorems": [
    "Verif.Props.C95_affine_motion_free_partial",
    "Verif.Props.C95_classification",
    "Verif.Props.C95_create",
    "Verif.Props.C95_documented_energy_violated",
    "Verif.Props.C95_energy_density",
    "Verif.Props.C95_energy_minimal_at_rest",
    "Verif.Props.C95_log_extension",
    "Verif.Props.C95_regularisation_partial"
   ],
   "note": "Proved except: the regularisation forces are the gradient of half the documented energy (C95_documented_energy_violated), and affine motions are free only on cells that are affine images of the reference cell (see C80)."
  },
  {
   "property": "C96",
   "status": "partial",
   "theorems": [
    "Verif.Props.C96_connected_visible",
    "Verif.Props.C96_constants_kept",
    "Verif.Props.C96_damps",
    "Verif.Props.C96_element_detected",
    "Verif.Props.C96_equal_counts_violated",
    "Verif.Props.C96_filter_solves_partial",
    "Verif.Props.C96_linear",
    "Verif.Props.C96_periodic_filter_solves_partial",
    "Verif.Props.C96_periodic_solvable",
    "Verif.Props.C96_range_violated",
    "Verif.Props.C96_self_adjoint",
    "Verif.Props.C96_small_radius_violated",
    "Verif.Props.C96_smooths",
    "Verif.Props.C96_solvable",
    "Verif.Props.C96_unique",
    "Verif.Props.C96_volume_kept"
   ],
   "note": "Proved: the returned field is the Galerkin solution (plain and periodic), solvability, uniqueness on connected meshes, linearity, constants, volume, self-adjointness, damping, smoothing. Partial: the call fails with TypeError on every mesh with as many nodes as cells (C96_equal_counts_violated); the range [0,1] is not kept (C96_range_violated: -1/6 on a square of two triangles); with the one-point rule of TRI3 a vanishing radius does not give back the density (C96_small_radius_violated); quadratic elements are taken for linear ones (C96_element_detected)."
  },
  {
   "property": "C97",
   "status": "partial",
   "theorems": [
    "Verif.Props.C97_order",
    "Verif.Props.C97_range",
    "Verif.Props.C97_sharp_limit",
    "Verif.Props.C97_sharpness",
    "Verif.Props.C97_threshold_in_range",
    "Verif.Props.C97_threshold_partial",
    "Verif.Props.C97_volume_fraction_partial",
    "Verif.Props.C97_volume_fraction_violated"
   ],
   "note": "Proved: range, order, sharpness, sharp limit of the mean, and that the share of entries above the threshold is within one entry of the target (1/n in the limit, without ties). Partial: the documented exact volume fraction fails (C97_volume_fraction_violated: a uniform field is projected to 1/2 whatever the target)."
  },
  {
   "property": "C98",
   "status": "partial",
   "theorems": [
    "Verif.Props.C98_bounds",
    "Verif.Props.C98_default_size_doubled",
    "Verif.Props.C98_evaluate",
    "Verif.Props.C98_from_vtk",
    "Verif.Props.C98_never_overestimates",
    "Verif.Props.C98_sampled_positions",
    "Verif.Props.C98_set_meaning",
    "Verif.Props.C98_user_defined",
    "Verif.Props.C98_vertices_in_box"
   ],
   "note": "Set meaning, evaluate, bounds, no overestimate, sampling and vertex positions proved for all trees. The documented default mesh size is not the one used: C98_default_size_doubled."
  },
  {
   "property": "C99",
   "status": "partial",
   "theorems": [
    "Verif.Props.C99_affine_exact_partial",
    "Verif.Props.C99_boundary_not_closed",
    "Verif.Props.C99_containing_element_missed",
    "Verif.Props.C99_evaluate",
    "Verif.Props.C99_far_outside_partial",
    "Verif.Props.C99_interpolates_partial",
    "Verif.Props.C99_range",
    "Verif.Props.C99_solid_extends_outside"
   ],
   "note": "Interpolation, exactness, range, evaluate and far points proved for points whose containing cell is among the candidates of the tree. False in general: the containing cell can be missed (C99_containing_element_missed), close_boundary does not close the surface inside the box (C99_boundary_not_closed) and the solid extends half a cell outside the mesh (C99_solid_extends_outside)."
  },
  {
   "property": "C100",
   "status": "partial",
   "theorems": [
    "Verif.Props.C100_boxes_affine_partial",
    "Verif.Props.C100_boxes_interpolated_partial",
    "Verif.Props.C100_evaluate_differs",
    "Verif.Props.C100_grid_cube_lost",
    "Verif.Props.C100_grid_field_lost",
    "Verif.Props.C100_turned_square_lost"
   ],
   "note": "Proved for boxes along the axes in the standard node order. False otherwise, because the Newton step uses the transposed Jacobian: square cells turned by 30 to 150 degrees (C100_turned_square_lost), every cubic cell of a structured grid (C100_grid_cube_lost, C100_grid_field_lost); evaluate and __call__ then differ (C100_evaluate_differs)."
  },
  {
   "property": "C101",
   "status": "partial",
   "theorems": [
    "Verif.Props.C101_built",
    "Verif.Props.C101_cells",
    "Verif.Props.C101_flat_refused",
    "Verif.Props.C101_layer_distance",
    "Verif.Props.C101_layers",
    "Verif.Props.C101_nodes",
    "Verif.Props.C101_nodes_distinct",
    "Verif.Props.C101_polar_opening",
    "Verif.Props.C101_pole_accepted",
    "Verif.Props.C101_rim",
    "Verif.Props.C101_surfaces",
    "Verif.Props.C101_valid_cells"
   ],
   "note": "Everything but the refusal of degenerate cells is proved for all vessels; one and two columns are refused (C101_flat_refused). A vessel closed at the pole is accepted although its cells at the pole are degenerate, since the check looks at the centres only: C101_pole_accepted."
  },
  {
   "property": "C102",
   "status": "proved",
   "theorems": [
    "Verif.Props.C102_free_dofs",
    "Verif.Props.C102_no_rigid_modes",
    "Verif.Props.C102_opposite",
    "Verif.Props.C102_pins",
    "Verif.Props.C102_pins_needed",
    "Verif.Props.C102_symmetry_plane"
   ],
   "note": "Proved for all vessels with positive dimensions and at least three columns."
  },
  {
   "property": "C103",
   "status": "partial",
   "theorems": [
    "Verif.Props.C103_clairaut",
    "Verif.Props.C103_cylinder_normal",
    "Verif.Props.C103_dome_balance_partial",
    "Verif.Props.C103_dome_unbalanced",
    "Verif.Props.C103_expansion",
    "Verif.Props.C103_fibres",
    "Verif.Props.C103_frames",
    "Verif.Props.C103_isotropic",
    "Verif.Props.C103_materials",
    "Verif.Props.C103_outside_opening",
    "Verif.Props.C103_reported_angle",
    "Verif.Props.C103_triad",
    "Verif.Props.C103_unknown_kind"
   ],
   "note": "Frames, angles, materials and reported directions proved for all cells and layups. The documented balance on the dome holds for an even number of hoop plies (C103_dome_balance_partial) and fails for an odd number: C103_dome_unbalanced."
  },
  {
   "property": "C104",
   "status": "partial",
   "theorems": [
    "Verif.Props.C104_arpack_sizes",
    "Verif.Props.C104_dense",
    "Verif.Props.C104_dense_singular_silent",
    "Verif.Props.C104_generalized_eigh",
    "Verif.Props.C104_returned",
    "Verif.Props.C104_sparse_misses",
    "Verif.Props.C104_sparse_partial"
   ],
   "note": "The dense backend is proved complete under the specification of Cholesky and eigh (C104_dense, C104_returned). The sparse backend is proved for spectra in which few other values are larger in magnitude (C104_sparse_partial) and fails otherwise: C104_sparse_misses (a factor is reported missing although it exists, and convergence is reported). A K that is not positive definite is not noticed by the dense backend: C104_dense_singular_silent. The GPU and matfree backends are C131."
  },
  {
   "property": "C105",
   "status": "partial",
   "theorems": [
    "Verif.Props.C105_bwd",
    "Verif.Props.C105_cluster_invariant",
    "Verif.Props.C105_cudss_guarded",
    "Verif.Props.C105_degenerate_ambiguous",
    "Verif.Props.C105_derivative",
    "Verif.Props.C105_missing_mode_nan"
   ],
   "note": "The derivative of a factor along a differentiable family and the assembled cotangents are proved. Violations: a missing mode makes every gradient NaN on the host backends (C105_missing_mode_nan), while the cudss backend is guarded (C105_cudss_guarded). At a repeated factor symmetric weights are basis independent (C105_cluster_invariant), a single member is not (C105_degenerate_ambiguous)."
  },
  {
   "property": "C106",
   "status": "partial",
   "theorems": [
    "Verif.Props.C106_constant_pattern",
    "Verif.Props.C106_cudss_first_pattern",
    "Verif.Props.C106_eager_any_pattern",
    "Verif.Props.C106_stale_pattern"
   ],
   "note": "Proved for constant sparsity and for eager use with any sparsity. With two sparsities of equal size a compiled function answers for a matrix nobody assembled (C106_stale_pattern), and the cudss backend does so even in eager use (C106_cudss_first_pattern)."
  },
  {
   "property": "C107",
   "status": "proved",
   "theorems": [
    "Verif.Props.C107_arnoldi",
    "Verif.Props.C107_ritz"
   ],
   "note": "Exact arithmetic; any operator, start and number of steps."
  },
  {
   "property": "C108",
   "status": "partial",
   "theorems": [
    "Verif.Props.C108_exact_work",
    "Verif.Props.C108_rigid_kernel",
    "Verif.Props.C108_spacing_ignored"
   ],
   "note": "Proved for the unit cube. C108_spacing_ignored: the same matrix is used whatever the grid spacing, so on a grid that is not of unit cubes it is not the stiffness of the cells."
  },
  {
   "property": "C109",
   "status": "partial",
   "theorems": [
    "Verif.Props.C109_auto_levels",
    "Verif.Props.C109_auto_levels_diverges",
    "Verif.Props.C109_band_layout",
    "Verif.Props.C109_colours",
    "Verif.Props.C109_design_order",
    "Verif.Props.C109_levels"
   ],
   "note": "Violations: a floor below 1 never terminates (C109_auto_levels_diverges); the cells are sorted while the band keeps their order, so unsorted cells silently pair designs with the wrong cells (C109_design_order)."
  },
  {
   "property": "C110",
   "status": "proved",
   "theorems": [
    "Verif.Props.C110_interpolation",
    "Verif.Props.C110_restriction_transpose",
    "Verif.Props.C110_transfer_in_range"
   ],
   "note": "Exact reproduction, existence of all stencil nodes, transposition."
  },
  {
   "property": "C111",
   "status": "proved",
   "theorems": [
    "Verif.Props.C111_colour_step",
    "Verif.Props.C111_levels_sound",
    "Verif.Props.C111_sweeps"
   ],
   "note": "Poisson ratio strictly between -1 and 1/2; exact arithmetic."
  },
  {
   "property": "C112",
   "status": "partial",
   "theorems": [
    "Verif.Props.C112_residual",
    "Verif.Props.C112_supports",
    "Verif.Props.C112_unconverged_silent"
   ],
   "note": "Bound on the residual proved through the recurrence; C112_unconverged_silent: reaching cg_maxit is not reported. No convergence rate is claimed or proved."
  },
  {
   "property": "C113",
   "status": "proved",
   "theorems": [
    "Verif.Props.C113_bucket_invisible",
    "Verif.Props.C113_shapes"
   ],
   "note": "For coarse solvers that do not look at the padding."
  },
  {
   "property": "C114",
   "status": "proved",
   "theorems": [
    "Verif.Props.C114_adjoint_gradient",
    "Verif.Props.C114_compliance",
    "Verif.Props.C114_objective",
    "Verif.Props.C114_solvable"
   ],
   "note": "Differentiability of the displacement is derived, not assumed. Exact solves are part of the statement: the code uses the iterative solution for both."
  },
  {
   "property": "C115",
   "status": "proved",
   "theorems": [
    "Verif.Props.C115_coarse_choice",
    "Verif.Props.C115_coarse_entries",
    "Verif.Props.C115_coarse_solve",
    "Verif.Props.C115_krylov_definite"
   ],
   "note": "Exact arithmetic; factorisation and Krylov methods are parameters, specified by the solution they return."
  },
  {
   "property": "C116",
   "status": "proved",
   "theorems": [
    "Verif.Props.C116_average",
    "Verif.Props.C116_bounds",
    "Verif.Props.C116_every_level",
    "Verif.Props.C116_load",
    "Verif.Props.C116_load_off_band",
    "Verif.Props.C116_not_overall_mean"
   ],
   "note": "C116_load_off_band records what happens when the documented precondition on the nodes fails; C116_not_overall_mean that two levels up the mean is of means, not of the band cells."
  },
  {
   "property": "C117",
   "status": "proved",
   "theorems": [
    "Verif.Props.C117_cases",
    "Verif.Props.C117_macro_gradient"
   ],
   "note": "Cells as lists of quadrature points with nodes, shape gradients, weight and material."
  },
  {
   "property": "C118",
   "status": "proved",
   "theorems": [
    "Verif.Props.C118_effective_law",
    "Verif.Props.C118_energy",
    "Verif.Props.C118_equilibrium",
    "Verif.Props.C118_semidefinite",
    "Verif.Props.C118_solvable",
    "Verif.Props.C118_symmetric"
   ],
   "note": "The linear solver is any function that solves solvable symmetric semidefinite systems; convergence of CG is not modelled."
  },
  {
   "property": "C119",
   "status": "proved",
   "theorems": [
    "Verif.Props.C119_definite",
    "Verif.Props.C119_homogeneous",
    "Verif.Props.C119_monotone",
    "Verif.Props.C119_reuss_bound",
    "Verif.Props.C119_voigt_bound"
   ],
   "note": "Reuss, homogeneous and definite need that periodic fields have zero mean gradient (the cell fills its box)."
  },
  {
   "property": "C120",
   "status": "proved",
   "theorems": [
    "Verif.Props.C120_equilibrium",
    "Verif.Props.C120_pinned_definite",
    "Verif.Props.C120_pins",
    "Verif.Props.C120_pins_missing",
    "Verif.Props.C120_refusals",
    "Verif.Props.C120_same_stiffness",
    "Verif.Props.C120_total",
    "Verif.Props.C120_zero_mean"
   ],
   "note": "Dense matrices; the CSR arrays of the pinned matrix are C123."
  },
  {
   "property": "C121",
   "status": "proved",
   "theorems": [
    "Verif.Props.C121_adjoint",
    "Verif.Props.C121_sensitivity",
    "Verif.Props.C121_solve_gradient"
   ],
   "note": "Existence of the derivative of the solution is a hypothesis."
  },
  {
   "property": "C122",
   "status": "partial",
   "theorems": [
    "Verif.Props.C122_dim_unchecked",
    "Verif.Props.C122_dimension_partial"
   ],
   "note": "Only 2 and 3 are enforced; C122_dim_unchecked shows that the default dim=3 on a plane problem returns a 6x6 matrix whose rows 33 and 23 repeat row 22, since JAX clamps indices."
  },
  {
   "property": "C123",
   "status": "proved",
   "theorems": [
    "Verif.Props.C123_nothing_refused",
    "Verif.Props.C123_operator_assembled",
    "Verif.Props.C123_outside_pattern_wrong",
    "Verif.Props.C123_pin_missing_refused",
    "Verif.Props.C123_pinned",
    "Verif.Props.C123_reduced_operator",
    "Verif.Props.C123_reduced_pattern",
    "Verif.Props.C123_shape_refused",
    "Verif.Props.C123_sparse_jacobian"
   ],
   "note": "asdex is a parameter: it must return a proper colouring of the positions it is given; JVPs and VJPs are products with the Jacobian. C123_outside_pattern_wrong shows that the pattern hypothesis is needed. sparse_hessian_fn's star colouring is not modelled."
  },
  {
   "property": "C124",
   "status": "proved",
   "theorems": [
    "Verif.Props.C124_ok_sound",
    "Verif.Props.C124_triangular_refused",
    "Verif.Props.C124_verdict"
   ],
   "note": "The detected set is a parameter (asdex). coverage is the ratio of two of the counts."
  },
  {
   "property": "C125",
   "status": "partial",
   "theorems": [
    "Verif.Props.C125_adjoint_partial",
    "Verif.Props.C125_assembled_triangular_refused",
    "Verif.Props.C125_converged_means",
    "Verif.Props.C125_hybrid_triangular_wrong",
    "Verif.Props.C125_newton_step_partial"
   ],
   "note": "Full storage (the default). C125_hybrid_triangular_wrong proves that with triangular storage the Krylov path is not refused and multiplies by the stored triangle. asdex and automatic differentiation are contracts. bc passed at solve time must constrain the rows of the construction-time bc, as the code documents."
  },
  {
   "property": "C126",
   "status": "partial",
   "theorems": [
    "Verif.Props.C126_adaptive_partial",
    "Verif.Props.C126_fixed_period",
    "Verif.Props.C126_nan_not_rebuilt",
    "Verif.Props.C126_result"
   ],
   "note": "C126_nan_not_rebuilt proves that a lagged solve returning NaN is not rebuilt (nan > lag_tol is false): the loop stops there although a rebuild would converge. PyAMG itself is a parameter."
  },
  {
   "property": "C127",
   "status": "partial",
   "theorems": [
    "Verif.Props.C127_equilibrium_partial",
    "Verif.Props.C127_gradient_partial",
    "Verif.Props.C127_operator",
    "Verif.Props.C127_options_agree",
    "Verif.Props.C127_result",
    "Verif.Props.C127_triangular_refused",
    "Verif.Props.C127_unused_prescribed_dropped"
   ],
   "note": "Assembled operator = PᵀJP, result, agreement of the options and refusals for all prolongations. Missing: equilibrium for linear problems with pairings without chains only; gradient for linear problems with symmetric tangent (the code assumes symmetry and takes one linear step). The statement fails for a prescribed DOF that belongs to no element: the assembled operator has a zero row there, the matrix-free one an identity row (C127_unused_prescribed_dropped)."
  },
  {
   "property": "C128",
   "status": "partial",
   "theorems": [
    "Verif.Props.C128_constrained_rows",
    "Verif.Props.C128_modes_have_no_residual",
    "Verif.Props.C128_modes_independent",
    "Verif.Props.C128_modes_rigid",
    "Verif.Props.C128_modes_shape",
    "Verif.Props.C128_modes_span",
    "Verif.Props.C128_presets",
    "Verif.Props.C128_projection_exact",
    "Verif.Props.C128_projection_is_class_mean",
    "Verif.Props.C128_reduced_modes",
    "Verif.Props.C128_reduced_request_silently_replaced",
    "Verif.Props.C128_rotations_centred",
    "Verif.Props.C128_translations_survive"
   ],
   "note": "Proved for all meshes and prolongations; zero residual for materials whose stress vanishes on skew gradients on elements that reproduce linear fields. Missing: PyAMG itself and the convergence it gives. The refusal of impossible requests fails with a prolongation: an explicit request for rigid body modes that do not exist is silently replaced by the constant near-null space (C128_reduced_request_silently_replaced)."
  },
  {
   "property": "C129",
   "status": "partial",
   "theorems": [
    "Verif.Props.C129_adjoint_partial",
    "Verif.Props.C129_hierarchy_of_operator",
    "Verif.Props.C129_newton_partial",
    "Verif.Props.C129_triangular_adjoint_wrong"
   ],
   "note": "Steps, prescribed values, adjoint and hierarchies for full storage. The statement fails for triangular storage: it is accepted, the Krylov method multiplies by the stored triangle, and the adjoint is that of the triangle although the tangent is symmetric (C129_triangular_adjoint_wrong). PyAMG and the Krylov methods are parameters."
  },
  {
   "property": "C130",
   "status": "partial",
   "theorems": [
    "Verif.Props.C130_check_is_orientation",
    "Verif.Props.C130_check_not_volume",
    "Verif.Props.C130_check_tet4",
    "Verif.Props.C130_rectangle",
    "Verif.Props.C130_rectangle_positive",
    "Verif.Props.C130_swap_turns_sign"
   ],
   "note": "Proved: C130_check_tet4, C130_check_is_orientation, C130_swap_turns_sign, C130_rectangle, C130_rectangle_positive. The documented claim that check_mesh_TET4 returns signed volumes is false: C130_check_not_volume (the unit tetrahedron gives 1, not 1/6). Box meshes come from Gmsh and are not covered."
  },
  {
   "property": "C131",
   "status": "partial",
   "theorems": [
    "Verif.Props.C131_exact_partial",
    "Verif.Props.C131_indefinite_silent",
    "Verif.Props.C131_matfree",
    "Verif.Props.C131_repeated_factor_missed",
    "Verif.Props.C131_restrict",
    "Verif.Props.C131_returned",
    "Verif.Props.C131_steps",
    "Verif.Props.C131_symmetrise",
    "Verif.Props.C131_triangular_storage"
   ],
   "note": "Proved: C131_restrict, C131_symmetrise (structurally symmetric patterns), C131_returned, C131_matfree, and C131_exact_partial (full number of steps, no breakdown). False in the code: C131_repeated_factor_missed (a double factor is reported once and inf), C131_indefinite_silent (an indefinite stiffness gives a finite factor with a zero mode and passes the convergence test). C131_triangular_storage: for a stiffness stored as a triangle the symmetrisation mixes unrelated entries."
  },
  {
   "property": "C132",
   "status": "partial",
   "theorems": [
    "Verif.Props.C132_adjoint_same",
    "Verif.Props.C132_fallback",
    "Verif.Props.C132_forward_correct",
    "Verif.Props.C132_row_elimination_gradient_wrong",
    "Verif.Props.C132_row_elimination_still_reuses",
    "Verif.Props.C132_when"
   ],
   "note": "C132_when, C132_forward_correct, C132_adjoint_same, C132_fallback hold. Violated: with automatic options create_linear_solver declares the matrix SPD whatever the elimination (C132_row_elimination_still_reuses), and the gradient with respect to boundary values is then wrong for every library that solves the forward system (C132_row_elimination_gradient_wrong). The factorisation library is assumed to solve the matrix it is given."
  },
  {
   "property": "C133",
   "status": "partial",
   "theorems": [
    "Verif.Props.C133_elimination_partial",
    "Verif.Props.C133_linear_ignores_choice",
    "Verif.Props.C133_load_step_wrong"
   ],
   "note": "C133_elimination_partial gives the elimination for every accepted request; for linear=True the flag is dropped (C133_linear_ignores_choice) and a load step from the previous solution is then wrong (C133_load_step_wrong)."
  },
  {
   "property": "C134",
   "status": "partial",
   "theorems": [
    "Verif.Props.C134_apply",
    "Verif.Props.C134_choice",
    "Verif.Props.C134_definite",
    "Verif.Props.C134_diagonal",
    "Verif.Props.C134_ignored_matrix_free"
   ],
   "note": "C134_diagonal, C134_apply, C134_choice, C134_definite hold; the solvers returned by create_solver always hand Krylov methods a callable, for which the option is silently ignored (C134_ignored_matrix_free)."
  },
  {
   "property": "C135",
   "status": "partial",
   "theorems": [
    "Verif.Props.C135_arguments_dropped",
    "Verif.Props.C135_consistent_cluster",
    "Verif.Props.C135_orphaned_workers",
    "Verif.Props.C135_port_ignored",
    "Verif.Props.C135_single_node",
    "Verif.Props.C135_succeeds_iff",
    "Verif.Props.C135_worker_failure_hidden"
   ],
   "note": "C135_consistent_cluster, C135_single_node, C135_succeeds_iff hold. Violated: the configured port is never used (C135_port_ignored), workers get no script arguments (C135_arguments_dropped), a failing worker does not change the exit status (C135_worker_failure_hidden), a node without host leaves the earlier workers running (C135_orphaned_workers)."
  },
  {
   "property": "C136",
   "status": "partial",
   "theorems": [
    "Verif.Props.C136_converged_reported_unconverged",
    "Verif.Props.C136_memory_counted_per_platform",
    "Verif.Props.C136_memory_partial",
    "Verif.Props.C136_nested_not_counted",
    "Verif.Props.C136_newton_record",
    "Verif.Props.C136_primitive_counts_partial",
    "Verif.Props.C136_time_fn"
   ],
   "note": "C136_time_fn and C136_newton_record hold. Violated: nested jaxprs are not counted (C136_nested_not_counted), several devices of a platform each report all its arrays (C136_memory_counted_per_platform), a solve that converges in the last iteration is reported as not converged (C136_converged_reported_unconverged)."
  },
  {
   "property": "C137",
   "status": "partial",
   "theorems": [
    "Verif.Props.C137_flags_preserved",
    "Verif.Props.C137_folding_disabled_partial",
    "Verif.Props.C137_folding_kept",
    "Verif.Props.C137_idempotent",
    "Verif.Props.C137_mention_keeps_folding",
    "Verif.Props.C137_preallocation",
    "Verif.Props.C137_precision"
   ],
   "note": "C137_precision, C137_preallocation, C137_flags_preserved, C137_folding_kept, C137_idempotent hold; constant folding stays enabled if any flag merely mentions the word (C137_mention_keeps_folding). Environment values are given stripped and lower-cased, flags as words."
  },
  {
   "property": "C138",
   "status": "partial",
   "theorems": [
    "Verif.Props.C138_faces_paired",
    "Verif.Props.C138_small_box_not_periodic",
    "Verif.Props.C138_translation"
   ],
   "note": "C138_faces_paired and C138_translation for boxes whose sides exceed the tolerance (1e-6 in mesh units) plus twice the padding. A box whose first side is below 1e-6 silently gets no periodicity at all (C138_small_box_not_periodic)."
  },
  {
   "property": "C139",
   "status": "partial",
   "theorems": [
    "Verif.Props.C139_empty_universal_accepted",
    "Verif.Props.C139_idle_boundaries",
    "Verif.Props.C139_idle_boundaries_tangent",
    "Verif.Props.C139_single_weak_form_ignored",
    "Verif.Props.C139_surface_map_not_ignored",
    "Verif.Props.C139_surface_only_kernel",
    "Verif.Props.C139_surface_only_problem_wrong",
    "Verif.Props.C139_validation",
    "Verif.Props.C139_volume_hooks_ignored"
   ],
   "note": "C139_validation, C139_volume_hooks_ignored, C139_idle_boundaries, C139_idle_boundaries_tangent hold. Violated: a single-variable weak form is silently unused (C139_single_weak_form_ignored), surface maps announced as ignored stop the assembly (C139_surface_map_not_ignored), a universal kernel method returning None passes the check (C139_empty_universal_accepted), get_res of a problem with only a surface load is wrong (C139_surface_only_problem_wrong)."
  },
  {
   "property": "C140",
   "status": "partial",
   "theorems": [
    "Verif.Props.C140_box_element_size",
    "Verif.Props.C140_cylinder_partial",
    "Verif.Props.C140_cylinder_upright",
    "Verif.Props.C140_downward_axis_wrong",
    "Verif.Props.C140_edges_match"
   ],
   "note": "C140_cylinder_partial for axes tilted from the vertical by more than the tolerances of the code, C140_cylinder_upright for the upward axis, C140_box_element_size, C140_edges_match. The downward axis builds the upward cylinder (C140_downward_axis_wrong). Gmsh is trusted to rotate and to mesh what it is asked for."
  },
  {
   "property": "C141",
   "status": "partial",
   "theorems": [
    "Verif.Props.C141_direct_lanes",
    "Verif.Props.C141_lanes_independent_partial",
    "Verif.Props.C141_scipy_lanes",
    "Verif.Props.C141_scipy_solves",
    "Verif.Props.C141_singular_lane_spoils_batch"
   ],
   "note": "C141_lanes_independent_partial for every batched linear solve that gives each lane its own direction; C141_direct_lanes derives that for CHOLMOD, SciPy and UMFPACK with systems of any size and regular tangents, C141_scipy_lanes with NaN values for one unknown. One lane with a singular tangent makes SciPy return NaN for the stacked system, so a lane that converges alone returns NaN in the batch (C141_singular_lane_spoils_batch). jax.vmap of while_loop is trusted to be the masked loop of the model."
  },
  {
   "property": "C142",
   "status": "partial",
   "theorems": [
    "Verif.Props.C142_extract_clean_partial",
    "Verif.Props.C142_failed_extraction_leaks",
    "Verif.Props.C142_generators_clean_partial",
    "Verif.Props.C142_retries_clean",
    "Verif.Props.C142_user_session_closed"
   ],
   "note": "C142_generators_clean_partial and C142_retries_clean for the functions with try/finally, C142_extract_clean_partial for the extraction. Violated: a session the user has open is closed (C142_user_session_closed); when Gmsh cannot mesh the volume, extract_volume_mesh and to_volume_mesh leave the session open and the STL file on disk (C142_failed_extraction_leaks)."
  },
  {
   "property": "C143",
   "status": "partial",
   "theorems": [
    "Verif.Props.C143_center_is_a_corner",
    "Verif.Props.C143_centers_inside",
    "Verif.Props.C143_classification_partial",
    "Verif.Props.C143_corners",
    "Verif.Props.C143_everything_is_a_corner",
    "Verif.Props.C143_partition"
   ],
   "note": "C143_classification_partial and C143_partition for nodes that are on the box or farther from it than the tolerance; C143_corners and C143_centers_inside without condition. The relative part of the tolerance grows with the distance from the origin and the absolute one does not shrink with the cell: for cells smaller than it every node is a corner (C143_everything_is_a_corner, C143_center_is_a_corner)."
  },
  {
   "property": "C144",
   "status": "partial",
   "theorems": [
    "Verif.Props.C144_default_grid_misses_axis",
    "Verif.Props.C144_empty_grid_refused",
    "Verif.Props.C144_mesh",
    "Verif.Props.C144_statistics_partial",
    "Verif.Props.C144_surface"
   ],
   "note": "Surface, mesh and sampled statistics proved. The extremes are those of the grid only: the default grid has no line on the equator, so E_max of a material that is stiffest along the first axis is too small (C144_default_grid_misses_axis). Exact reals; meshio is not modelled."
  },
  {
   "property": "C145",
   "status": "partial",
   "theorems": [
    "Verif.Props.C145_cell_names",
    "Verif.Props.C145_cell_type_guessed",
    "Verif.Props.C145_directory_left_behind",
    "Verif.Props.C145_refused",
    "Verif.Props.C145_refused_untouched",
    "Verif.Props.C145_repeated_name_lost",
    "Verif.Props.C145_written_partial"
   ],
   "note": "Proved for fields with different names. Of two fields with one name only the last is written (C145_repeated_name_lost); a refused call can leave a new directory behind (C145_directory_left_behind); eight-node quadrilaterals and surface quadrilaterals in space are written as hexahedra and tetrahedra (C145_cell_type_guessed). meshio is not modelled."
  },
  {
   "property": "C146",
   "status": "partial",
   "theorems": [
    "Verif.Props.C146_affine",
    "Verif.Props.C146_changes_volume",
    "Verif.Props.C146_clipped",
    "Verif.Props.C146_monotone",
    "Verif.Props.C146_moves_material",
    "Verif.Props.C146_same_shape",
    "Verif.Props.C146_shape_and_range",
    "Verif.Props.C146_short_is_padded"
   ],
   "note": "Shape, range, affine densities, order and identity proved for all shapes and all quotients within rounding. The material moves, since the samples of both grids are aligned at the first and last cell centres (C146_moves_material), and the volume changes (C146_changes_volume). scipy's zoom is modelled by its documented linear interpolation; exact arithmetic otherwise."
  },
  {
   "property": "C147",
   "status": "partial",
   "theorems": [
    "Verif.Props.C147_component",
    "Verif.Props.C147_design_round_trip",
    "Verif.Props.C147_negative_index_accepted",
    "Verif.Props.C147_refused",
    "Verif.Props.C147_same_bridge_partial",
    "Verif.Props.C147_wrong_length"
   ],
   "note": "Proved for variables counted from the front and vectors of the right length; the store round trips in full. The bridges are not the same for negative variable indices (C147_negative_index_accepted) and for vectors of another length (C147_wrong_length). Cell ids below 2^31."
  },
  {
   "property": "C148",
   "status": "partial",
   "theorems": [
    "Verif.Props.C148_occupied_cell_missed",
    "Verif.Props.C148_occupied_partial"
   ],
   "note": "Soundness and the cells of nodes and centres proved. A grid cell inside a tetrahedron is missed whatever subsamples is (C148_occupied_cell_missed), since the samples lie on the lines from the centre to the corners. Exact arithmetic."
  },
  {
   "property": "C149",
   "status": "partial",
   "theorems": [
    "Verif.Props.C149_as_written_partial",
    "Verif.Props.C149_component_beyond_all_fields",
    "Verif.Props.C149_default_argument_is_node_number",
    "Verif.Props.C149_default_argument_overwritten",
    "Verif.Props.C149_histories",
    "Verif.Props.C149_negative_numpy_component",
    "Verif.Props.C149_other_callables",
    "Verif.Props.C149_refused",
    "Verif.Props.C149_shared_list",
    "Verif.Props.C149_variable_index_not_ignored",
    "Verif.Props.C149_vector_value_dealt_out",
    "Verif.Props.C149_wrong_arity_refused"
   ],
   "note": "C149_as_written_partial for specifications of the documented kinds, C149_refused, C149_histories, C149_component_beyond_all_fields. Violated, silently: a location function with a default argument gets the node number in its place (C149_default_argument_overwritten); negative NumPy integers pass the check and constrain another node (C149_negative_numpy_component); variable_index is not ignored in problems with one variable, the specification is (C149_variable_index_not_ignored); a value function with several results is dealt out to the wrong nodes (C149_vector_value_dealt_out); two configurations made from one list share it (C149_shared_list)."
  },
  {
   "property": "C150",
   "status": "proved",
   "theorems": [
    "Verif.Props.C150_converges_with_stated_order",
    "Verif.Props.C150_fixed_step"
   ],
   "note": "Taylor remainders of the solution, stage by stage, give the local error; a discrete Gronwall argument inside a tube around the solution gives the run's error. No global Lipschitz hypothesis. Exact arithmetic."
  },
  {
   "property": "C151",
   "status": "proved",
   "theorems": [
    "Verif.Props.C151_host_loops_converge",
    "Verif.Props.C151_inexact_solves",
    "Verif.Props.C151_line_search_succeeds",
    "Verif.Props.C151_quadratic_convergence",
    "Verif.Props.C151_solver_converges"
   ],
   "note": "Exact arithmetic. The direction is any function solving the linearised equation (exactly or to a relative tolerance) near the solution; the matrix-free loop's stagnation test is not included in the host-loop theorem."
  },
  {
   "property": "C152",
   "status": "proved",
   "theorems": [
    "Verif.Props.C152_discrete_gradient",
    "Verif.Props.C152_gradient_within_residual",
    "Verif.Props.C152_solver_gradient"
   ],
   "note": "The tangent is assumed to be the derivative of the residual (automatic differentiation is trusted) and the linear solves to be exact; the residual and its derivatives are real."
  },
  {
   "property": "C153",
   "status": "proved",
   "theorems": [
    "Verif.Props.C153_backward_euler_converges",
    "Verif.Props.C153_step_contracts"
   ],
   "note": "Proved for every real inner-product state space (the inner product of the mass matrix), weak form, solver meeting the tolerance in every call, and every run that returns. Exact arithmetic; that a solver meets its tolerance is a hypothesis on its answers (see C18, C151)."
  },
  {
   "property": "C154",
   "status": "proved",
   "theorems": [
    "Verif.Props.C154_pseudo_time_drops_history",
    "Verif.Props.C154_pseudo_time_exact",
    "Verif.Props.C154_pseudo_time_last_step",
    "Verif.Props.C154_transient_gradient"
   ],
   "note": "Proved for every differentiable update_vars, residual and solution map; the solver is taken to return the solution whatever it starts from, and its reverse rule to use an exact adjoint solve (C152 bounds the error of inexact ones). JAX's reverse mode and stop_gradient are modelled by chainVjp. The dropped history is a documented limit, proved with a witness."
  },
  {
   "property": "C155",
   "status": "proved",
   "theorems": [
    "Verif.Props.C155_global_convergence",
    "Verif.Props.C155_host_loops_can_stall",
    "Verif.Props.C155_host_loops_keep_going",
    "Verif.Props.C155_solution_exists",
    "Verif.Props.C155_strongly_monotone"
   ],
   "note": "Exact arithmetic and exact linear solves; the numbers of backtracking steps and iterations that suffice exist but depend on the problem, so the default limits (30 steps; max_iter) may be too small for a given one, and the solver then behaves as C18 and C19 say."
  },
  {
   "property": "C156",
   "status": "partial",
   "theorems": [
    "Verif.Props.C156_boundary_values",
    "Verif.Props.C156_direction",
    "Verif.Props.C156_one_step_partial",
    "Verif.Props.C156_stiff_bar_fails",
    "Verif.Props.C156_warm_start_fails"
   ],
   "note": "Proved except the last sentence, which is false under the default symmetric elimination: C156_warm_start_fails shows that every line search of the first iteration fails once the stiffness coupling exceeds a bound given by the smallest step tried, and C156_stiff_bar_fails gives a bar for which the solver with default options raises although row elimination solves it in one step. Exact arithmetic, exact backends."
  },
  {
   "property": "C157",
   "status": "partial",
   "theorems": [
    "Verif.Props.C157_clamped_plane",
    "Verif.Props.C157_correction_lowers_nothing",
    "Verif.Props.C157_deeper_cycles_raise",
    "Verif.Props.C157_energy_halved",
    "Verif.Props.C157_two_level_cycle_partial"
   ],
   "note": "The first sentence is false: the element matrix of the unit cube is used on every level, so a coarse displacement has half the strain energy of its interpolation (C157_energy_halved), an exact coarse solve gives twice the best correction and leaves the energy as it was (C157_correction_lowers_nothing; half of it is the best one). The second sentence is false from three levels on without sweeps (C157_deeper_cycles_raise) and proved for two levels with any numbers of sweeps (C157_two_level_cycle_partial). Cycles with sweeps on three levels or more, and bands with incomplete blocks, are not settled."
  },
  {
   "property": "C158",
   "status": "proved",
   "theorems": [
    "Verif.Props.C158_adjoint_residual",
    "Verif.Props.C158_inexact_gradient",
    "Verif.Props.C158_iterative_solver_gradient"
   ],
   "note": "Exact arithmetic; the matrix-free symmetric path needs a symmetric tangent and the direct path full storage, as in C20."
  },
  {
   "property": "C159",
   "status": "proved",
   "theorems": [
    "Verif.Props.C159_deep_hierarchies",
    "Verif.Props.C159_more_passes",
    "Verif.Props.C159_pass",
    "Verif.Props.C159_two_levels"
   ],
   "note": "Exact arithmetic. No rate is claimed."
  },
  {
   "property": "C160",
   "status": "proved",
   "theorems": [
    "Verif.Props.C160_affine_cell",
    "Verif.Props.C160_affine_equilibrium",
    "Verif.Props.C160_affine_linear",
    "Verif.Props.C160_brick",
    "Verif.Props.C160_brick_cell",
    "Verif.Props.C160_elastic_affine",
    "Verif.Props.C160_full_grid",
    "Verif.Props.C160_hourglass",
    "Verif.Props.C160_isotropic",
    "Verif.Props.C160_one_equilibrium",
    "Verif.Props.C160_parallelepiped",
    "Verif.Props.C160_parallelogram",
    "Verif.Props.C160_paths_agree",
    "Verif.Props.C160_plate",
    "Verif.Props.C160_plate_braced",
    "Verif.Props.C160_plate_cells",
    "Verif.Props.C160_plate_equilibrium",
    "Verif.Props.C160_plate_unique",
    "Verif.Props.C160_rectangle",
    "Verif.Props.C160_rectangle_cell",
    "Verif.Props.C160_rigid_motion_free",
    "Verif.Props.C160_same_forces",
    "Verif.Props.C160_simplex",
    "Verif.Props.C160_systems_solvable",
    "Verif.Props.C160_three_points",
    "Verif.Props.C160_two_points",
    "Verif.Props.C160_underheld",
    "Verif.Props.C160_unique",
    "Verif.Props.C160_voxel_cells",
    "Verif.Props.C160_voxels_braced",
    "Verif.Props.C160_voxels_equilibrium",
    "Verif.Props.C160_voxels_monotone"
   ],
   "note": "Exact arithmetic. Rigidity of a cell is proved for simplices and for parallelogram QUAD4 and parallelepiped HEX8 cells, and is a hypothesis for other elements and shapes. Bracing of a whole generated mesh is proved for rectangle_mesh with QUAD4 and for StructuredGrid.to_mesh."
  }
 ]
}