{
 "claims": [
  {
   "property": "C01",
   "status": "proved",
   "theorems": [
    "Verif.Dof.C01_slices_tile",
    "Verif.Dof.C01_append_order",
    "Verif.Dof.C01_slice_length",
    "Verif.Dof.C01_shared_slice",
    "Verif.Dof.C01_append_effect"
   ],
   "note": ""
  },
  {
   "property": "C02",
   "status": "proved",
   "theorems": [
    "Verif.Dof.C02_subset_layout"
   ],
   "note": ""
  },
  {
   "property": "C03",
   "status": "proved",
   "theorems": [
    "Verif.Dof.C03_expand_spec",
    "Verif.Dof.C03_expand_unknown",
    "Verif.Dof.C03_expand_injective",
    "Verif.Dof.C03_expand_all"
   ],
   "note": ""
  },
  {
   "property": "C04",
   "status": "proved",
   "theorems": [
    "Verif.Dof.C04_numbering",
    "Verif.Dof.C04_numbering_empty",
    "Verif.Dof.C04_active_iff"
   ],
   "note": ""
  },
  {
   "property": "C05",
   "status": "proved",
   "theorems": [
    "Verif.Dof.C05_full_satisfies_conditions",
    "Verif.Dof.C05_full_forced",
    "Verif.Dof.C05_state_parts"
   ],
   "note": ""
  },
  {
   "property": "C06",
   "status": "proved",
   "theorems": [
    "Verif.Dof.C06_reduce_full",
    "Verif.Dof.C06_state_round_trip"
   ],
   "note": ""
  },
  {
   "property": "C07",
   "status": "proved",
   "theorems": [
    "Verif.Dof.C07_full_reduce_iff"
   ],
   "note": ""
  },
  {
   "property": "C08",
   "status": "proved",
   "theorems": [
    "Verif.Dof.C08_apply_ebc",
    "Verif.Dof.C08_apply_ebc_idempotent",
    "Verif.Dof.C08_has_ebc_iff",
    "Verif.Dof.C08_state_parts"
   ],
   "note": ""
  },
  {
   "property": "C09",
   "status": "proved",
   "theorems": [
    "Verif.Dof.C09_operator_full",
    "Verif.Dof.C09_operator_reduced"
   ],
   "note": ""
  },
  {
   "property": "C10",
   "status": "proved",
   "theorems": [
    "Verif.Dof.C10_group_chains_components"
   ],
   "note": ""
  },
  {
   "property": "C11",
   "status": "partial",
   "theorems": [
    "Verif.Dof.C11_linked_tied_partial",
    "Verif.Dof.C11_box_order",
    "Verif.Dof.C11_counterexample_dropped",
    "Verif.Dof.C11_counterexample_dangling"
   ],
   "note": ""
  },
  {
   "property": "C12",
   "status": "proved",
   "theorems": [
    "Verif.Asm.C12_assemble_vector",
    "Verif.Asm.C12_untouched"
   ],
   "note": ""
  },
  {
   "property": "C13",
   "status": "proved",
   "theorems": [
    "Verif.Asm.C13_assemble_matrix",
    "Verif.Asm.C13_matrix_entries",
    "Verif.Asm.C13_error_iff"
   ],
   "note": ""
  },
  {
   "property": "C14",
   "status": "partial",
   "theorems": [
    "Verif.Asm.C14_bsearch_agrees_partial",
    "Verif.Asm.C14_counterexample"
   ],
   "note": ""
  },
  {
   "property": "C15",
   "status": "proved",
   "theorems": [
    "Verif.Asm.C15_adof_conn_entry",
    "Verif.Asm.C15_vector_reduce",
    "Verif.Asm.C15_vector_outside",
    "Verif.Asm.C15_matrix_reduce",
    "Verif.Asm.C15_vector",
    "Verif.Asm.C15_matrix"
   ],
   "note": ""
  },
  {
   "property": "C16",
   "status": "proved",
   "theorems": [
    "Verif.Region.C16_sort_by_dependency",
    "Verif.Region.C16_accepts_iff",
    "Verif.Region.C16_dependency_graph"
   ],
   "note": ""
  },
  {
   "property": "C17",
   "status": "proved",
   "theorems": [
    "Verif.Region.C17_eval_iff",
    "Verif.Region.C17_stack_restored",
    "Verif.Region.C17_history",
    "Verif.Region.C17_counterexample_relation_group"
   ],
   "note": ""
  },
  {
   "property": "C18",
   "status": "proved",
   "theorems": [
    "Verif.Region.C18_kinds",
    "Verif.Region.C18_read",
    "Verif.Region.C18_operator",
    "Verif.Region.C18_accepted_iff",
    "Verif.Region.C18_result_wf"
   ],
   "note": ""
  },
  {
   "property": "C19",
   "status": "proved",
   "theorems": [
    "Verif.Region.C19_finalized",
    "Verif.Region.C19_kind_entities",
    "Verif.Region.C19_cells_from_vertices",
    "Verif.Region.C19_allow_empty",
    "Verif.Region.C19_counterexample_facets_of_cells",
    "Verif.Region.C19_counterexample_surface_vertices",
    "Verif.Region.C19_counterexample_facets_not_monotone"
   ],
   "note": ""
  },
  {
   "property": "C20",
   "status": "proved",
   "theorems": [
    "Verif.Time.C20_construct",
    "Verif.Time.C20_construct_rejects",
    "Verif.Time.C20_n_step",
    "Verif.Time.C20_operations",
    "Verif.Time.C20_set_step_range",
    "Verif.Time.C20_iteration",
    "Verif.Time.C20_times",
    "Verif.Time.C20_substep",
    "Verif.Time.C20_counterexample_substep"
   ],
   "note": ""
  },
  {
   "property": "C21",
   "status": "proved",
   "theorems": [
    "Verif.Time.C21_construct",
    "Verif.Time.C21_history",
    "Verif.Time.C21_set_step",
    "Verif.Time.C21_counterexample_update_at_start",
    "Verif.Time.C21_iteration",
    "Verif.Time.C21_increasing"
   ],
   "note": ""
  },
  {
   "property": "C22",
   "status": "proved",
   "theorems": [
    "Verif.Time.C22_fixed",
    "Verif.Time.C22_variable",
    "Verif.Time.C22_counterexample_n_step",
    "Verif.Time.C22_counterexample_alias"
   ],
   "note": ""
  },
  {
   "property": "C23",
   "status": "proved",
   "theorems": [
    "Verif.Time.C23_active",
    "Verif.Time.C23_adjacent"
   ],
   "note": ""
  },
  {
   "property": "C24",
   "status": "proved",
   "theorems": [
    "Verif.History.C24_start",
    "Verif.History.C24_history",
    "Verif.History.C24_current",
    "Verif.History.C24_no_history",
    "Verif.History.C24_set_data_step",
    "Verif.History.C24_counterexample_set_data",
    "Verif.History.C24_counterexample_slice",
    "Verif.History.C24_save",
    "Verif.History.C24_counterexample_save",
    "Verif.History.C24_load",
    "Verif.History.C24_restart",
    "Verif.History.C24_counterexample_restart"
   ],
   "note": ""
  },
  {
   "property": "C25",
   "status": "proved",
   "theorems": [
    "Verif.History.C25_cached_is_fresh",
    "Verif.History.C25_counterexample_gap",
    "Verif.History.C25_counterexample_step0",
    "Verif.History.C25_counterexample_derivative",
    "Verif.History.C25_counterexample_arguments"
   ],
   "note": ""
  },
  {
   "property": "C26",
   "status": "proved",
   "theorems": [
    "Verif.Solver.C26_conv_test",
    "Verif.Solver.C26_stops"
   ],
   "note": ""
  },
  {
   "property": "C27",
   "status": "proved",
   "theorems": [
    "Verif.Solver.C27_line_search",
    "Verif.Solver.C27_ret",
    "Verif.Solver.C27_bound",
    "Verif.Solver.C27_terminates",
    "Verif.Solver.C27_factors_decrease",
    "Verif.Solver.C27_no_reduction_diverges",
    "Verif.Solver.C27_give_up_unbound"
   ],
   "note": ""
  },
  {
   "property": "C28",
   "status": "proved",
   "theorems": [
    "Verif.Solver.Tsc.C28_basic_accept",
    "Verif.Solver.Tsc.C28_basic_accept_iff",
    "Verif.Solver.Tsc.C28_nan_accepted",
    "Verif.Solver.Tsc.C28_basic_factor_accept",
    "Verif.Solver.Tsc.C28_basic_factor_reject",
    "Verif.Solver.Tsc.C28_pid",
    "Verif.Solver.Tsc.C28_pid_default",
    "Verif.Solver.Tsc.C28_pid_formula",
    "Verif.Solver.Tsc.C28_pid_reject_increases",
    "Verif.Solver.Tsc.C28_linear",
    "Verif.Solver.Tsc.C28_linear_accept_ge",
    "Verif.Solver.Tsc.C28_scaled_norm_bound",
    "Verif.Solver.Tsc.C28_never_rejects",
    "Verif.Solver.Tsc.C28_small_error_accepted",
    "Verif.Solver.Tsc.C28_zero_error"
   ],
   "note": ""
  },
  {
   "property": "C29",
   "status": "proved",
   "theorems": [
    "Verif.Mech.C29_sym2dim_dim2sym",
    "Verif.Mech.C29_sym2dim_iff",
    "Verif.Mech.C29_sym_full_sym",
    "Verif.Mech.C29_full_layout",
    "Verif.Mech.C29_full_sym_full",
    "Verif.Mech.C29_t4",
    "Verif.Mech.C29_t4_contraction",
    "Verif.Mech.C29_cauchy_strain"
   ],
   "note": ""
  },
  {
   "property": "C30",
   "status": "proved",
   "theorems": [
    "Verif.Mech.C30_split_sym",
    "Verif.Mech.C30_split_full",
    "Verif.Mech.C30_storages_agree",
    "Verif.Mech.C30_vonMises_storages",
    "Verif.Mech.C30_vonMises_dev",
    "Verif.Mech.C30_vonMises_plane",
    "Verif.Mech.C30_vonMises_nonneg",
    "Verif.Mech.C30_vonMises_hydro",
    "Verif.Mech.C30_vonMises_zero",
    "Verif.Mech.C30_vonMises_zero2",
    "Verif.Mech.C30_vonMises_seminorm"
   ],
   "note": ""
  },
  {
   "property": "C31",
   "status": "proved",
   "theorems": [
    "Verif.Mech.C31_stiffness_matrix",
    "Verif.Mech.C31_symmetric",
    "Verif.Mech.C31_hooke",
    "Verif.Mech.C31_t4",
    "Verif.Mech.C31_mixed_split",
    "Verif.Mech.C31_roundtrip",
    "Verif.Mech.C31_plane_stress_matrix",
    "Verif.Mech.C31_bulk",
    "Verif.Mech.C31_ortho3",
    "Verif.Mech.C31_ortho3_hooke",
    "Verif.Mech.C31_ortho3_isotropic",
    "Verif.Mech.C31_posdef3",
    "Verif.Mech.C31_posdef3_iff",
    "Verif.Mech.C31_posdef_engineering",
    "Verif.Mech.C31_wave_speeds"
   ],
   "note": ""
  },
  {
   "property": "C32",
   "status": "proved",
   "theorems": [
    "Verif.Mech.C32_init",
    "Verif.Mech.C32_swap",
    "Verif.Mech.C32_any_pair",
    "Verif.Mech.C32_exactly_two",
    "Verif.Mech.C32_unique",
    "Verif.Mech.C32_auxetic_wrong",
    "Verif.Mech.C32_lam_zero_undefined"
   ],
   "note": ""
  },
  {
   "property": "C33",
   "status": "proved",
   "theorems": [
    "Verif.Sort.C33_quicksort",
    "Verif.Sort.C33_int32_quicksort",
    "Verif.Sort.C33_int32_aquicksort",
    "Verif.Sort.C33_mtx_aquicksort",
    "Verif.Sort.C33_sort_rows"
   ],
   "note": ""
  },
  {
   "property": "C34",
   "status": "proved",
   "theorems": [
    "Verif.CMesh.C34_rows",
    "Verif.CMesh.C34_transpose",
    "Verif.CMesh.C34_transpose_twice"
   ],
   "note": ""
  },
  {
   "property": "C35",
   "status": "proved",
   "theorems": [
    "Verif.CMesh.C35_neighbours",
    "Verif.CMesh.C35_contained",
    "Verif.CMesh.C35_intersect",
    "Verif.CMesh.C35_iterator_read",
    "Verif.CMesh.C35_overread"
   ],
   "note": ""
  },
  {
   "property": "C36",
   "status": "proved",
   "theorems": [
    "Verif.CMesh.C36_sort234",
    "Verif.CMesh.C36_build",
    "Verif.CMesh.C36_facets_of_cells",
    "Verif.CMesh.C36_false_match",
    "Verif.CMesh.C36_degenerate_cell",
    "Verif.CMesh.C36_orientation"
   ],
   "note": ""
  },
  {
   "property": "C37",
   "status": "proved",
   "theorems": [
    "Verif.Linalg.C37_cycle",
    "Verif.Linalg.C37_assemble1d",
    "Verif.Linalg.C37_assemble1d_index",
    "Verif.Linalg.C37_argsort_rows",
    "Verif.Linalg.C37_map_permutations",
    "Verif.Linalg.C37_map_check",
    "Verif.Linalg.C37_map_rows",
    "Verif.Linalg.C37_chunk_arrays",
    "Verif.Linalg.C37_chunk_zero",
    "Verif.Linalg.C37_invs_fast"
   ],
   "note": ""
  },
  {
   "property": "C38",
   "status": "proved",
   "theorems": [
    "Verif.Linalg.C38_compose",
    "Verif.Linalg.C38_refused",
    "Verif.Linalg.C38_incomplete",
    "Verif.Linalg.C38_all_zero"
   ],
   "note": ""
  },
  {
   "property": "C39",
   "status": "proved",
   "theorems": [
    "Verif.Mech.C39_invs_fast",
    "Verif.Mech.C39_det_argument"
   ],
   "note": ""
  },
  {
   "property": "C40",
   "status": "proved",
   "theorems": [
    "Verif.Solver.C40_run",
    "Verif.Solver.C40_status",
    "Verif.Solver.C40_status_give_up",
    "Verif.Solver.C40_iterates",
    "Verif.Solver.C40_terminates",
    "Verif.Solver.C40_give_up_stale"
   ],
   "note": ""
  },
  {
   "property": "C41",
   "status": "partial",
   "theorems": [
    "Verif.Asm.C41_chunk_size_one",
    "Verif.Asm.C41_chunk_len",
    "Verif.Asm.C41_graph_exact_partial",
    "Verif.Asm.C41_graph_full_partial",
    "Verif.Asm.C41_full_numbers",
    "Verif.Asm.C41_assembly_never_fails",
    "Verif.Asm.C41_counterexample_empty_variable"
   ],
   "note": ""
  },
  {
   "property": "C42",
   "status": "proved",
   "theorems": [
    "Verif.Region.C42_others_unchanged",
    "Verif.Region.C42_history",
    "Verif.Region.C42_created_finalized",
    "Verif.Region.C42_counterexample_bare_reference",
    "Verif.Region.C42_counterexample_cells_lost"
   ],
   "note": ""
  },
  {
   "property": "C43",
   "status": "proved",
   "theorems": [
    "Verif.Time.C43_each_step_once",
    "Verif.Time.C43_restart",
    "Verif.Time.C43_counterexample_single_step",
    "Verif.Time.C43_counterexample_restart_at_end"
   ],
   "note": ""
  },
  {
   "property": "C44",
   "status": "proved",
   "theorems": [
    "Verif.Time.C44_attempts",
    "Verif.Time.C44_terminates",
    "Verif.Time.C44_dt_bounds",
    "Verif.Time.C44_increase",
    "Verif.Time.C44_counterexample_give_up"
   ],
   "note": ""
  },
  {
   "property": "C45",
   "status": "proved",
   "theorems": [
    "Verif.Dyn.C45_newmark_step",
    "Verif.Dyn.C45_newmark_step_extra",
    "Verif.Dyn.C45_central_difference_step",
    "Verif.Dyn.C45_central_difference_formula",
    "Verif.Dyn.C45_central_difference_is_newmark",
    "Verif.Dyn.C45_verlet_step",
    "Verif.Dyn.C45_verlet_is_central_difference",
    "Verif.Dyn.C45_counterexample_verlet_damping",
    "Verif.Dyn.C45_rmm_step",
    "Verif.Dyn.C45_generalized_alpha_step",
    "Verif.Dyn.C45_generalized_alpha_is_newmark",
    "Verif.Dyn.C45_generalized_alpha_defaults",
    "Verif.Dyn.C45_generalized_alpha_given",
    "Verif.Dyn.C45_generalized_alpha_high_frequency",
    "Verif.Dyn.C45_bathe_formula",
    "Verif.Dyn.C45_bathe_step",
    "Verif.Dyn.C45_counterexample_bathe_time",
    "Verif.Dyn.C45_initial_acceleration",
    "Verif.Dyn.C45_pack_unpack",
    "Verif.Dyn.C45_unpack_pack"
   ],
   "note": ""
  },
  {
   "property": "C46",
   "status": "proved",
   "theorems": [
    "Verif.Dyn.C46_fixed",
    "Verif.Dyn.C46_fixed_restart",
    "Verif.Dyn.C46_counterexample_returned",
    "Verif.Dyn.C46_counterexample_single_step",
    "Verif.Dyn.C46_adaptive",
    "Verif.Dyn.C46_times_sequence",
    "Verif.Dyn.C46_counterexample_repeated_time",
    "Verif.Dyn.C46_counterexample_cleared_matrices"
   ],
   "note": ""
  },
  {
   "property": "C47",
   "status": "proved",
   "theorems": [
    "Verif.Dyn.C47_newmark_balance",
    "Verif.Dyn.C47_newmark_stability",
    "Verif.Dyn.C47_newmark_unconditional",
    "Verif.Dyn.C47_newmark_conditional",
    "Verif.Dyn.C47_newmark_table",
    "Verif.Dyn.C47_trapezoidal_energy",
    "Verif.Dyn.C47_trapezoidal_conservation",
    "Verif.Dyn.C47_generalized_alpha_no_dissipation"
   ],
   "note": ""
  },
  {
   "property": "C48",
   "status": "proved",
   "theorems": [
    "Verif.Dyn.C48_newmark_tangent",
    "Verif.Dyn.C48_central_difference_tangent",
    "Verif.Dyn.C48_verlet_tangent",
    "Verif.Dyn.C48_generalized_alpha_tangent",
    "Verif.Dyn.C48_bathe_tangent1",
    "Verif.Dyn.C48_bathe_tangent2",
    "Verif.Dyn.C48_newmark_tangent_extra"
   ],
   "note": ""
  },
  {
   "property": "C49",
   "status": "proved",
   "theorems": [
    "Verif.Mech.C49_second_order",
    "Verif.Mech.C49_second_order_index",
    "Verif.Mech.C49_group",
    "Verif.Mech.C49_vec_tensor",
    "Verif.Mech.C49_invariants",
    "Verif.Mech.C49_fourth_order",
    "Verif.Mech.C49_constitutive",
    "Verif.Mech.C49_vonMises",
    "Verif.Mech.C49_rotation",
    "Verif.Mech.C49_rotation_z",
    "Verif.Mech.C49_cylindrical"
   ],
   "note": ""
  },
  {
   "property": "C50",
   "status": "proved",
   "theorems": [
    "Verif.Mech.C50_plane_stress",
    "Verif.Mech.C50_index_sets",
    "Verif.Mech.C50_plane_stress_tensor",
    "Verif.Mech.C50_isotropic",
    "Verif.Mech.C50_piezo",
    "Verif.Mech.C50_piezo_d2_wrong"
   ],
   "note": ""
  },
  {
   "property": "C51",
   "status": "proved",
   "theorems": [
    "Verif.Mech.C51_cauchy3",
    "Verif.Mech.C51_cauchy2",
    "Verif.Mech.C51_pull_back"
   ],
   "note": ""
  },
  {
   "property": "C52",
   "status": "proved",
   "theorems": [
    "Verif.CMesh.C52_targets",
    "Verif.CMesh.C52_requested",
    "Verif.CMesh.C52_twoTriangles",
    "Verif.CMesh.C52_setup",
    "Verif.CMesh.C52_setup_num",
    "Verif.CMesh.C52_history"
   ],
   "note": ""
  },
  {
   "property": "C53",
   "status": "proved",
   "theorems": [
    "Verif.CMesh.C53_facet_indices",
    "Verif.CMesh.C53_cells_consistent",
    "Verif.CMesh.C53_outside_parent",
    "Verif.CMesh.C53_cell_indices",
    "Verif.CMesh.C53_cell_indices_unsorted",
    "Verif.CMesh.C53_surface_mesh",
    "Verif.CMesh.C53_mesh_facets",
    "Verif.CMesh.C53_incident",
    "Verif.CMesh.C53_incident_part",
    "Verif.CMesh.C53_incident_empty",
    "Verif.CMesh.C53_local_ids",
    "Verif.CMesh.C53_complete",
    "Verif.CMesh.C53_surface"
   ],
   "note": ""
  },
  {
   "property": "C54",
   "status": "proved",
   "theorems": [
    "Verif.CMesh.C54_hex",
    "Verif.CMesh.C54_tet",
    "Verif.CMesh.C54_wedge",
    "Verif.CMesh.C54_wedge_wrong",
    "Verif.CMesh.C54_edge",
    "Verif.CMesh.C54_tri",
    "Verif.CMesh.C54_tri3",
    "Verif.CMesh.C54_quad",
    "Verif.CMesh.C54_quad_wrong",
    "Verif.CMesh.C54_quad_face",
    "Verif.CMesh.C54_centroid_perm",
    "Verif.CMesh.C54_centroid",
    "Verif.CMesh.C54_normal",
    "Verif.CMesh.C54_normal2",
    "Verif.CMesh.C54_normal_tiny",
    "Verif.CMesh.C54_outward_tet",
    "Verif.CMesh.C54_outward_tri",
    "Verif.CMesh.C54_outward_quad",
    "Verif.CMesh.C54_outward_hex",
    "Verif.CMesh.C54_closed"
   ],
   "note": ""
  },
  {
   "property": "C55",
   "status": "proved",
   "theorems": [
    "Verif.Fem.C55_facets_of_mesh",
    "Verif.Fem.C55_twisted_counterexample",
    "Verif.Fem.C55_range_simplex",
    "Verif.Fem.C55_range_tensor",
    "Verif.Fem.C55_count_simplex",
    "Verif.Fem.C55_count_tensor",
    "Verif.Fem.C55_conforming_simplex",
    "Verif.Fem.C55_conforming_tensor"
   ],
   "note": ""
  },
  {
   "property": "C56",
   "status": "proved",
   "theorems": [
    "Verif.Fem.C56_reference_simplices",
    "Verif.Fem.C56_reference_segment",
    "Verif.Fem.C56_bubble_order2_not_nodal",
    "Verif.Fem.C56_bubble_hessian_wrong",
    "Verif.Fem.C56_bubble_unity",
    "Verif.Fem.C56_bubble_boundary",
    "Verif.Fem.C56_bubble_center",
    "Verif.Fem.C56_bubble_nodal",
    "Verif.Fem.C56_bubble_gradient",
    "Verif.Fem.C56_simplex_gradient",
    "Verif.Fem.C56_simplex_hessian",
    "Verif.Fem.C56_tensor_gradient",
    "Verif.Fem.C56_tensor_hessian",
    "Verif.Fem.C56_tensor_nodal",
    "Verif.Fem.C56_tensor_polynomials",
    "Verif.Fem.C56_tensor_unity",
    "Verif.Fem.C56_simplex_nodal",
    "Verif.Fem.C56_simplex_polynomials",
    "Verif.Fem.C56_simplex_unity",
    "Verif.Fem.C56_outside",
    "Verif.Fem.C56_snapped"
   ],
   "note": ""
  },
  {
   "property": "C57",
   "status": "proved",
   "theorems": [
    "Verif.Fem.C57_continuous_tensor",
    "Verif.Fem.C57_continuous_simplex"
   ],
   "note": ""
  },
  {
   "property": "C58",
   "status": "proved",
   "theorems": [
    "Verif.Homog.C58_update_coors_first_only",
    "Verif.Homog.C58_same_name",
    "Verif.Homog.C58_chunk_requires",
    "Verif.Homog.C58_chunks",
    "Verif.Homog.C58_store_idxs",
    "Verif.Homog.C58_compute_only_chunks_fails",
    "Verif.Homog.C58_unique",
    "Verif.Homog.C58_serial",
    "Verif.Homog.C58_parallel",
    "Verif.Homog.C58_sorted",
    "Verif.Homog.C58_sorted_iff"
   ],
   "note": ""
  },
  {
   "property": "C59",
   "status": "proved",
   "theorems": [
    "Verif.Base.C59_missing_self",
    "Verif.Base.C59_undefined_repeats",
    "Verif.Base.C59_duplicate_prerequisites",
    "Verif.Base.C59_order",
    "Verif.Base.C59_blocks",
    "Verif.Base.C59_block_solve"
   ],
   "note": ""
  },
  {
   "property": "C60",
   "status": "proved",
   "theorems": [
    "Verif.Term.C60_edge",
    "Verif.Term.C60_face",
    "Verif.Term.C60_outward",
    "Verif.Term.C60_point",
    "Verif.Term.C60_point_inward",
    "Verif.Term.C60_to_plane",
    "Verif.Term.C60_to_plane_down",
    "Verif.Term.C60_to_axis",
    "Verif.Term.C60_warp",
    "Verif.Term.C60_gradient",
    "Verif.Term.C60_field_exists",
    "Verif.Term.C60_det",
    "Verif.Term.C60_integral",
    "Verif.Term.C60_volume",
    "Verif.Term.C60_physical_qps",
    "Verif.Term.C60_average",
    "Verif.Term.C60_sum",
    "Verif.Term.C60_integrate_fails",
    "Verif.Term.C60_shape",
    "Verif.Term.C60_shape_refused",
    "Verif.Term.C60_shape_single"
   ],
   "note": ""
  },
  {
   "property": "C61",
   "status": "proved",
   "theorems": [
    "Verif.Term.C61_convect_v_grad_s_wrong_cell",
    "Verif.Term.C61_electric_source_first_qp",
    "Verif.Term.C61_dot_scalar",
    "Verif.Term.C61_dot_vector_scalar",
    "Verif.Term.C61_dot_vector_matrix",
    "Verif.Term.C61_dot_eval",
    "Verif.Term.C61_dot_eval_matrix",
    "Verif.Term.C61_mass_psd",
    "Verif.Term.C61_mass_total",
    "Verif.Term.C61_v_dot_grad_s_vw",
    "Verif.Term.C61_v_dot_grad_s_sw",
    "Verif.Term.C61_v_dot_grad_s_transpose",
    "Verif.Term.C61_surface_normal_dot",
    "Verif.Term.C61_volume_lvf",
    "Verif.Term.C61_electric_source",
    "Verif.Term.C61_convect_v_grad_s",
    "Verif.Term.C61_convect_v_grad_s_uniform",
    "Verif.Term.C61_volume_surface",
    "Verif.Term.C61_surface_moment",
    "Verif.Term.C61_laplace_matrix",
    "Verif.Term.C61_laplace_vector",
    "Verif.Term.C61_laplace_eval",
    "Verif.Term.C61_laplace_residual",
    "Verif.Term.C61_laplace_symmetric_kernel",
    "Verif.Term.C61_laplace_psd",
    "Verif.Term.C61_diffusion_matrix",
    "Verif.Term.C61_diffusion_vector",
    "Verif.Term.C61_diffusion_eval",
    "Verif.Term.C61_diffusion_residual_symmetric_kernel",
    "Verif.Term.C61_diffusion_psd",
    "Verif.Term.C61_diffusion_r",
    "Verif.Term.C61_sd_diffusion",
    "Verif.Term.C61_surface_flux",
    "Verif.Term.C61_surface_flux_weak"
   ],
   "note": ""
  },
  {
   "property": "C62",
   "status": "proved",
   "theorems": [
    "Verif.Term.C62_strain_fib_off_diagonal",
    "Verif.Term.C62_strain_fib_axis",
    "Verif.Term.C62_strain",
    "Verif.Term.C62_elastic_matrix",
    "Verif.Term.C62_elastic_vector",
    "Verif.Term.C62_elastic_eval",
    "Verif.Term.C62_elastic_residual",
    "Verif.Term.C62_elastic_symmetric",
    "Verif.Term.C62_elastic_rigid",
    "Verif.Term.C62_elastic_psd",
    "Verif.Term.C62_isotropic",
    "Verif.Term.C62_isotropic_stress",
    "Verif.Term.C62_prestress",
    "Verif.Term.C62_prestress_matrix",
    "Verif.Term.C62_prestress_eval",
    "Verif.Term.C62_prestress_matrix_eval",
    "Verif.Term.C62_strain_fib",
    "Verif.Term.C62_cauchy_stress",
    "Verif.Term.C62_cauchy_strain",
    "Verif.Term.C62_nonsym",
    "Verif.Term.C62_sd",
    "Verif.Term.C62_wave"
   ],
   "note": ""
  },
  {
   "property": "C63",
   "status": "proved",
   "theorems": [
    "Verif.Term.C63_piezo_matrix_counterexample",
    "Verif.Term.C63_traction_eval_tensor_counterexample",
    "Verif.Term.C63_traction_1d_counterexample",
    "Verif.Term.C63_div_grad_blocks_counterexample",
    "Verif.Term.C63_biot_grad_matrix",
    "Verif.Term.C63_biot_grad_vector",
    "Verif.Term.C63_biot_div_matrix",
    "Verif.Term.C63_biot_div_vector",
    "Verif.Term.C63_biot_eval",
    "Verif.Term.C63_biot_transpose_residual",
    "Verif.Term.C63_biot_nonsym",
    "Verif.Term.C63_piezo_grad_vector",
    "Verif.Term.C63_piezo_div_vector",
    "Verif.Term.C63_piezo_matrix",
    "Verif.Term.C63_piezo_eval",
    "Verif.Term.C63_piezo_transpose",
    "Verif.Term.C63_traction_vector",
    "Verif.Term.C63_traction_eval",
    "Verif.Term.C63_traction_eval_tensor",
    "Verif.Term.C63_div_grad_matrix",
    "Verif.Term.C63_div_grad_vector",
    "Verif.Term.C63_div_grad_eval",
    "Verif.Term.C63_div_grad_residual",
    "Verif.Term.C63_div_grad_symmetric",
    "Verif.Term.C63_div_grad_psd",
    "Verif.Term.C63_convect_vector",
    "Verif.Term.C63_convect_matrix",
    "Verif.Term.C63_convect_expansion",
    "Verif.Term.C63_convect_derivative",
    "Verif.Term.C63_lin_convect_matrix",
    "Verif.Term.C63_lin_convect_vector",
    "Verif.Term.C63_stokes_grad_matrix",
    "Verif.Term.C63_stokes_grad_vector",
    "Verif.Term.C63_stokes_div_matrix",
    "Verif.Term.C63_stokes_div_vector",
    "Verif.Term.C63_stokes_eval",
    "Verif.Term.C63_stokes_transpose",
    "Verif.Term.C63_grad_div",
    "Verif.Term.C63_pspg_c",
    "Verif.Term.C63_supg_p",
    "Verif.Term.C63_supg_c"
   ],
   "note": ""
  },
  {
   "property": "C64",
   "status": "proved",
   "theorems": [
    "Verif.Term.C64_neo_1d_counterexample",
    "Verif.Term.C64_square_counterexample",
    "Verif.Term.C64_ul_mr_counterexample",
    "Verif.Term.C64_svk_counterexample",
    "Verif.Term.C64_stress_cache_counterexample",
    "Verif.Term.C64_warp",
    "Verif.Term.C64_neo_energy",
    "Verif.Term.C64_neo_jacobian",
    "Verif.Term.C64_mr_energy",
    "Verif.Term.C64_mr_jacobian",
    "Verif.Term.C64_bulk_energy",
    "Verif.Term.C64_bulk_jacobian",
    "Verif.Term.C64_active_energy",
    "Verif.Term.C64_active_jacobian",
    "Verif.Term.C64_pressure_energy",
    "Verif.Term.C64_pressure_jacobian",
    "Verif.Term.C64_svk_energy",
    "Verif.Term.C64_yeoh_energy",
    "Verif.Term.C64_yeoh_jacobian",
    "Verif.Term.C64_ul_neo",
    "Verif.Term.C64_ul_bulk",
    "Verif.Term.C64_ul_pressure",
    "Verif.Term.C64_ul_mr_doubled",
    "Verif.Term.C64_moved",
    "Verif.Term.C64_rest",
    "Verif.Term.C64_objective",
    "Verif.Term.C64_stress_cache",
    "Verif.Term.C64_stress_cache_newton",
    "Verif.Term.C64_warp_cache",
    "Verif.Term.C64_svk_inplace",
    "Verif.Term.C64_svk_stress",
    "Verif.Term.C64_ul_mr_rest",
    "Verif.Term.C64_svk_tangent"
   ],
   "note": ""
  },
  {
   "property": "C65",
   "status": "proved",
   "theorems": [
    "Verif.Mat.C65_failed_update_silent",
    "Verif.Mat.C65_set_function_stale",
    "Verif.Mat.C65_stationary_new_term",
    "Verif.Mat.C65_get_data_dict",
    "Verif.Mat.C65_wrong_rows_accepted",
    "Verif.Mat.C65_current",
    "Verif.Mat.C65_current_keys",
    "Verif.Mat.C65_stationary",
    "Verif.Mat.C65_user_data",
    "Verif.Mat.C65_reset",
    "Verif.Mat.C65_update_mode",
    "Verif.Mat.C65_constant",
    "Verif.Mat.C65_by_region",
    "Verif.Mat.C65_special",
    "Verif.Mat.C65_not_set"
   ],
   "note": ""
  },
  {
   "property": "C66",
   "status": "proved",
   "theorems": [
    "Verif.Mesh.C66_q2t_nonconforming",
    "Verif.Mesh.C66_block3",
    "Verif.Mesh.C66_block2",
    "Verif.Mesh.C66_block1",
    "Verif.Mesh.C66_tiling3",
    "Verif.Mesh.C66_tiling2",
    "Verif.Mesh.C66_q2t_rows",
    "Verif.Mesh.C66_q2t_groups",
    "Verif.Mesh.C66_q2t_hex_cover",
    "Verif.Mesh.C66_q2t_quad_cover",
    "Verif.Mesh.C66_q2t_hex_volume",
    "Verif.Mesh.C66_q2t_quad_area",
    "Verif.Mesh.C66_q2t_conforming"
   ],
   "note": ""
  },
  {
   "property": "C67",
   "status": "proved",
   "theorems": [
    "Verif.Mesh.C67_pieces_shared",
    "Verif.Mesh.C67_conforming23",
    "Verif.Mesh.C67_conforming24",
    "Verif.Mesh.C67_conforming34",
    "Verif.Mesh.C67_conforming38",
    "Verif.Mesh.C67_neighbours",
    "Verif.Mesh.C67_triangles",
    "Verif.Mesh.C67_triangles_area",
    "Verif.Mesh.C67_tetrahedrons",
    "Verif.Mesh.C67_tetrahedrons_volume",
    "Verif.Mesh.C67_incidence",
    "Verif.Mesh.C67_chain_exists",
    "Verif.Mesh.C67_one_dim",
    "Verif.Mesh.C67_one_dim_permuted",
    "Verif.Mesh.C67_valid",
    "Verif.Mesh.C67_old_nodes",
    "Verif.Mesh.C67_levels",
    "Verif.Mesh.C67_domain",
    "Verif.Mesh.C67_measure",
    "Verif.Mesh.C67_triangles_similar",
    "Verif.Mesh.C67_tetrahedrons_corners",
    "Verif.Mesh.C67_tetrahedrons_shapes",
    "Verif.Mesh.C67_tetrahedrons_degenerate",
    "Verif.Mesh.C67_quadrilaterals",
    "Verif.Mesh.C67_hexahedrons"
   ],
   "note": ""
  },
  {
   "property": "C68",
   "status": "proved",
   "theorems": [
    "Verif.Mesh.C68_fix_double_triple",
    "Verif.Mesh.C68_match_plane_wrong",
    "Verif.Mesh.C68_cache_wrong",
    "Verif.Mesh.C68_merge_accepts",
    "Verif.Mesh.C68_merge_refused",
    "Verif.Mesh.C68_fix_double_once",
    "Verif.Mesh.C68_fix_double_map",
    "Verif.Mesh.C68_fix_double_chain",
    "Verif.Mesh.C68_match_plane",
    "Verif.Mesh.C68_match_plane_complete",
    "Verif.Mesh.C68_match_line",
    "Verif.Mesh.C68_cache_consistent",
    "Verif.Mesh.C68_cache_fresh",
    "Verif.Mesh.C68_cache_stale",
    "Verif.Mesh.C68_find_map",
    "Verif.Mesh.C68_merge",
    "Verif.Mesh.C68_merge_injective"
   ],
   "note": ""
  },
  {
   "property": "C69",
   "status": "proved",
   "theorems": [
    "Verif.Mesh.C69_tiling",
    "Verif.Mesh.C69_translated",
    "Verif.Mesh.C69_tiling_axes",
    "Verif.Mesh.C69_groups",
    "Verif.Mesh.C69_ndmap"
   ],
   "note": ""
  },
  {
   "property": "C70",
   "status": "proved",
   "theorems": [
    "Verif.Mesh.C70_expand_nodes",
    "Verif.Mesh.C70_expand_negative",
    "Verif.Mesh.C70_expand_triangles",
    "Verif.Mesh.C70_expand_quads",
    "Verif.Mesh.C70_wedge_side",
    "Verif.Mesh.C70_expand_conforming",
    "Verif.Mesh.C70_extrude_groups_mixed",
    "Verif.Mesh.C70_mirror_point",
    "Verif.Mesh.C70_mirror_orientation",
    "Verif.Mesh.C70_mirror_mesh",
    "Verif.Mesh.C70_mirror_plane",
    "Verif.Mesh.C70_cell_vertices_only",
    "Verif.Mesh.C70_by_cgroup",
    "Verif.Mesh.C70_by_ngroup",
    "Verif.Mesh.C70_merge_nodes",
    "Verif.Mesh.C70_merge_exact"
   ],
   "note": ""
  },
  {
   "property": "C71",
   "status": "proved",
   "theorems": [
    "Verif.Lcbc.C71_nodal_misaligned",
    "Verif.Lcbc.C71_nodal_unmentioned_zero",
    "Verif.Lcbc.C71_nodal_aligned",
    "Verif.Lcbc.C71_pbc_rows_shifted",
    "Verif.Lcbc.C71_noPen_permuted_dofs",
    "Verif.Lcbc.C71_average_rigid",
    "Verif.Lcbc.C71_average_translation",
    "Verif.Lcbc.C71_average_rigid_iff",
    "Verif.Lcbc.C71_average_default_loses_rotation",
    "Verif.Lcbc.C71_average_force_balance",
    "Verif.Lcbc.C71_average_moment",
    "Verif.Lcbc.C71_average_plain",
    "Verif.Lcbc.C71_average_plain_default_fails",
    "Verif.Lcbc.C71_noPen_pivot_max",
    "Verif.Lcbc.C71_noPen_range",
    "Verif.Lcbc.C71_noPen_injective",
    "Verif.Lcbc.C71_direction_values",
    "Verif.Lcbc.C71_mean_values",
    "Verif.Lcbc.C71_shifted_iff",
    "Verif.Lcbc.C71_multi_values",
    "Verif.Lcbc.C71_rigid_values_3d",
    "Verif.Lcbc.C71_rigid_values_2d",
    "Verif.Lcbc.C71_rigid2_values_3d",
    "Verif.Lcbc.C71_rigid2_values_2d",
    "Verif.Lcbc.C71_rigid2_translation",
    "Verif.Lcbc.C71_rigid_keeps_distances_3d",
    "Verif.Lcbc.C71_rigid_keeps_distances_2d",
    "Verif.Lcbc.C71_rigid_range_3d",
    "Verif.Lcbc.C71_rigid_range_2d",
    "Verif.Lcbc.C71_rigid_injective_3d",
    "Verif.Lcbc.C71_rigid_injective_2d",
    "Verif.Lcbc.C71_twist_values",
    "Verif.Lcbc.C71_twist_rigid",
    "Verif.Lcbc.C71_twist_documented_iff",
    "Verif.Lcbc.C71_twist_never_documented"
   ],
   "note": ""
  },
  {
   "property": "C72",
   "status": "proved",
   "theorems": [
    "Verif.Lcbc.C72_chain_tie_wrong",
    "Verif.Lcbc.C72_free_copied",
    "Verif.Lcbc.C72_reduction_values",
    "Verif.Lcbc.C72_tie_values",
    "Verif.Lcbc.C72_columns_cover",
    "Verif.Lcbc.C72_free_columns_distinct",
    "Verif.Lcbc.C72_new_columns_distinct",
    "Verif.Lcbc.C72_free_new_disjoint",
    "Verif.Lcbc.C72_range_is_constraint_set",
    "Verif.Lcbc.C72_injective",
    "Verif.Lcbc.C72_reduced_residual_weak",
    "Verif.Lcbc.C72_reduced_tangent"
   ],
   "note": ""
  },
  {
   "property": "C73",
   "status": "proved",
   "theorems": [
    "Par.C73_partition_balanced",
    "Par.C73_partition_too_many",
    "Par.C73_inter_facets",
    "Par.C73_every_dof_one_owner",
    "Par.C73_owned_in_own_cells",
    "Par.C73_numbering",
    "Par.C73_overlap_complete",
    "Par.C73_never_fails",
    "Par.C73_single_task"
   ],
   "note": ""
  },
  {
   "property": "C74",
   "status": "proved",
   "theorems": [
    "Par.C74_rhs_add",
    "Par.C74_matrix_add",
    "Par.C74_prealloc_rows",
    "Par.C74_prealloc_columns",
    "Par.C74_scatter",
    "Par.C74_rhs_reassembled",
    "Par.C74_matrix_reassembled_iff",
    "Par.C74_rhs_overlap",
    "Par.C74_matrix_overlap",
    "Par.C74_matrix_overlap_zero"
   ],
   "note": ""
  },
  {
   "property": "C75",
   "status": "proved",
   "theorems": [
    "Par.C75_interleaved",
    "Par.C75_composite_bijection",
    "Par.C75_composite_sizes",
    "Par.C75_composite_ranges",
    "Par.C75_single_field",
    "Par.C75_verify_sound",
    "Par.C75_verify_complete"
   ],
   "note": ""
  },
  {
   "property": "C76",
   "status": "proved",
   "theorems": [
    "Iga.C76_bernstein_values",
    "Iga.C76_bernstein_derivatives",
    "Iga.C76_bernstein_partition",
    "Iga.C76_bezier_extraction",
    "Iga.C76_spans_cover"
   ],
   "note": ""
  },
  {
   "property": "C77",
   "status": "proved",
   "theorems": [
    "Iga.C77_box_regions_3d",
    "Iga.C77_box_regions_2d",
    "Iga.C77_box_regions_1d",
    "Iga.C77_bezier_topology",
    "Iga.C77_faces_3d",
    "Iga.C77_edges_2d",
    "Iga.C77_boundary_points",
    "Iga.C77_end_functions",
    "Iga.C77_facet_trace",
    "Iga.C77_connectivity_1d",
    "Iga.C77_number_of_functions",
    "Iga.C77_connectivity_nd",
    "Iga.C77_combined_operator",
    "Iga.C77_bezier_form",
    "Iga.C77_bezier_connectivity",
    "Iga.C77_bezier_control",
    "Iga.C77_bezier_geometry",
    "Iga.C77_partition_of_unity",
    "Iga.C77_derivatives_sum",
    "Iga.C77_chain_rule",
    "Iga.C77_gradient_of_coordinates",
    "Iga.C77_gradients_sum",
    "Iga.C77_derivatives",
    "Iga.C77_element_basis_is_global",
    "Iga.C77_other_functions_vanish"
   ],
   "note": ""
  },
  {
   "property": "C78",
   "status": "proved",
   "theorems": [
    "Eqn.C78_arithmetic",
    "Eqn.C78_arithmetic_of_terms",
    "Eqn.C78_operand_changed",
    "Eqn.C78_operands_kept",
    "Eqn.C78_equation_text",
    "Eqn.C78_only_equations",
    "Eqn.C78_lhs_minus_rhs"
   ],
   "note": ""
  },
  {
   "property": "C79",
   "status": "proved",
   "theorems": [
    "Eqn.C79_complex_arguments",
    "Eqn.C79_complex_refused",
    "Eqn.C79_complex_square",
    "Eqn.C79_arguments",
    "Eqn.C79_repeated_variable",
    "Eqn.C79_residual",
    "Eqn.C79_residual_block",
    "Eqn.C79_residual_by_terms",
    "Eqn.C79_by_terms_sum",
    "Eqn.C79_by_terms_same_name",
    "Eqn.C79_tangent_is_derivative",
    "Eqn.C79_initial_rate",
    "Eqn.C79_tangent_by_terms",
    "Eqn.C79_by_terms_dynamic_lost",
    "Eqn.C79_tangent_block",
    "Eqn.C79_eval_mode"
   ],
   "note": ""
  },
  {
   "property": "C80",
   "status": "proved",
   "theorems": [
    "Dg.C80_moment2D_field",
    "Dg.C80_minmod_seq",
    "Dg.C80_minmod",
    "Dg.C80_moment1D",
    "Dg.C80_moment1D_mean",
    "Dg.C80_moment1D_ends",
    "Dg.C80_moment1D_shrinks",
    "Dg.C80_moment1D_hierarchical",
    "Dg.C80_moment2D",
    "Dg.C80_moment2D_mean",
    "Dg.C80_moment2D_shrinks",
    "Dg.C80_moment2D_kept_cells",
    "Dg.C80_composed",
    "Dg.C80_composed_tail_lost"
   ],
   "note": ""
  },
  {
   "property": "C81",
   "status": "proved",
   "theorems": [
    "Dg.C81_euler_run",
    "Dg.C81_tvd_run",
    "Dg.C81_tvd_documented",
    "Dg.C81_tvd_invariant",
    "Dg.C81_tvd_third_order",
    "Dg.C81_tvd_history_first_order",
    "Dg.C81_rk4_step",
    "Dg.C81_rk4_rest_not_kept",
    "Dg.C81_euler_saved",
    "Dg.C81_tvd_saved_twice"
   ],
   "note": ""
  },
  {
   "property": "C82",
   "status": "proved",
   "theorems": [
    "Dg.C82_indices_1d",
    "Dg.C82_indices_2d",
    "Dg.C82_indices_2d_extended",
    "Dg.C82_indices_3d",
    "Dg.C82_indices_3d_extended_missing",
    "Dg.C82_hierarchical",
    "Dg.C82_order_for_limiter"
   ],
   "note": ""
  },
  {
   "property": "C83",
   "status": "proved",
   "theorems": [
    "Dg.C83_nth_fun",
    "Dg.C83_nth_fun_der",
    "Dg.C83_tensor_gradient",
    "Dg.C83_tensor_scheme",
    "Dg.C83_triangle_gradient_x",
    "Dg.C83_triangle_gradient_y",
    "Dg.C83_triangle_scheme"
   ],
   "note": ""
  },
  {
   "property": "C84",
   "status": "proved",
   "theorems": [
    "Dg.C84_advection_flux_conservative",
    "Dg.C84_nonlinear_flux_conservative",
    "Dg.C84_advection_total",
    "Dg.C84_nonlinear_total",
    "Dg.C84_advection_upwind",
    "Dg.C84_nonlinear_consistent",
    "Dg.C84_advection_tangent",
    "Dg.C84_penalty_tangent",
    "Dg.C84_penalty_energy",
    "Dg.C84_penalty_nonneg",
    "Dg.C84_diffusion_diagonal"
   ],
   "note": ""
  },
  {
   "property": "C85",
   "status": "proved",
   "theorems": [
    "Dg.C85_neighbour",
    "Dg.C85_boundary",
    "Dg.C85_mutual",
    "Dg.C85_periodic",
    "Dg.C85_periodic_mutual"
   ],
   "note": ""
  },
  {
   "property": "C86",
   "status": "proved",
   "theorems": [
    "Ml.C86_residual",
    "Ml.C86_tangent"
   ],
   "note": ""
  },
  {
   "property": "C87",
   "status": "proved",
   "theorems": [
    "Ml.C87_derivative"
   ],
   "note": ""
  },
  {
   "property": "C88",
   "status": "proved",
   "theorems": [
    "Ml.C88_layout",
    "Ml.C88_layout_runs",
    "Ml.C88_cell_loop",
    "Ml.C88_point_loop"
   ],
   "note": ""
  },
  {
   "property": "C89",
   "status": "proved",
   "theorems": [
    "Ml.C89_elastic_tensor",
    "Ml.C89_integrate",
    "Ml.C89_integrateM",
    "Ml.C89_laplace",
    "Ml.C89_laplaceM",
    "Ml.C89_dotS",
    "Ml.C89_dotV",
    "Ml.C89_dotMS",
    "Ml.C89_dotMV",
    "Ml.C89_dotMM",
    "Ml.C89_mgrad",
    "Ml.C89_nonPen",
    "Ml.C89_divGrad",
    "Ml.C89_divGradM",
    "Ml.C89_traction",
    "Ml.C89_convect",
    "Ml.C89_convectM",
    "Ml.C89_linConvect",
    "Ml.C89_div",
    "Ml.C89_divM",
    "Ml.C89_grad",
    "Ml.C89_gradM",
    "Ml.C89_gradMM",
    "Ml.C89_stokes",
    "Ml.C89_stokesM",
    "Ml.C89_elastic",
    "Ml.C89_cauchy",
    "Ml.C89_nonsym",
    "Ml.C89_diffusion",
    "Ml.C89_surfaceLtr",
    "Ml.C89_surfaceFlux",
    "Ml.C89_flux2",
    "Ml.C89_flux2M",
    "Ml.C89_piezo",
    "Ml.C89_piezo2"
   ],
   "note": ""
  },
  {
   "property": "C90",
   "status": "proved",
   "theorems": [
    "Quad.C90_simplex",
    "Quad.C90_simplex_beyond_tables",
    "Quad.C90_tensor",
    "Quad.C90_full_order",
    "Quad.C90_wedge",
    "Quad.C90_point"
   ],
   "note": ""
  },
  {
   "property": "C91",
   "status": "proved",
   "theorems": [
    "Quad.C91_simplex_cubature_exact",
    "Quad.C91_extended_euclid",
    "Quad.C91_simplify_fraction",
    "Quad.C91_enumeration"
   ],
   "note": ""
  },
  {
   "property": "C92",
   "status": "proved",
   "theorems": [
    "Quad.C92_order_selection",
    "Quad.C92_bounds",
    "Quad.C92_symmetric",
    "Quad.C92_tensor_product",
    "Quad.C92_full_order_beyond_fails",
    "Quad.C92_wedge_high_order",
    "Quad.C92_tensor_order_cap",
    "Quad.C92_custom_symmetric_fails",
    "Quad.C92_get_qp_history",
    "Quad.C92_integrals_get"
   ],
   "note": ""
  },
  {
   "property": "C93",
   "status": "proved",
   "theorems": [
    "Geo.C93_barycentric",
    "Geo.C93_volume_coordinates",
    "Geo.C93_degenerate",
    "Geo.C93_points_in_simplex",
    "Geo.C93_inverse_mapping",
    "Geo.C93_mini_newton",
    "Geo.C93_volume",
    "Geo.C93_triangle_area",
    "Geo.C93_quad_area"
   ],
   "note": ""
  },
  {
   "property": "C94",
   "status": "proved",
   "theorems": [
    "Geo.C94_edge",
    "Geo.C94_triangle",
    "Geo.C94_tetrahedron",
    "Geo.C94_force_inside"
   ],
   "note": ""
  },
  {
   "property": "C95",
   "status": "proved",
   "theorems": [
    "Geo.C95_ray_crossing",
    "Geo.C95_cyclic_and_reverse",
    "Geo.C95_cut",
    "Geo.C95_convex_hull",
    "Geo.C95_convex_inside"
   ],
   "note": ""
  },
  {
   "property": "C96",
   "status": "proved",
   "theorems": [
    "Geo.C96_plane",
    "Geo.C96_plane_mask",
    "Geo.C96_sphere",
    "Geo.C96_sphere_derivatives",
    "Geo.C96_sphere_normals",
    "Geo.C96_sphere_normals_near",
    "Geo.C96_perpendiculars_2d",
    "Geo.C96_perpendiculars_3d",
    "Geo.C96_rotation2d",
    "Geo.C96_tube",
    "Geo.C96_tube_outside_is_empty",
    "Geo.C96_ball",
    "Geo.C96_ball_outside_two_radii"
   ],
   "note": ""
  },
  {
   "property": "C97",
   "status": "proved",
   "theorems": [
    "Verif.Solver.Qevp.C97_cholesky_factor",
    "Verif.Solver.Qevp.C97_companion",
    "Verif.Solver.Qevp.C97_cholesky",
    "Verif.Solver.Qevp.C97_inverted",
    "Verif.Solver.Qevp.C97_complete",
    "Verif.Solver.Qevp.C97_determinant"
   ],
   "note": ""
  },
  {
   "property": "C98",
   "status": "proved",
   "theorems": [
    "Verif.Units.C98_unit",
    "Verif.Units.C98_get_prefix",
    "Verif.Units.C98_quantity_call",
    "Verif.Units.C98_quantity_coef",
    "Verif.Units.C98_kind_dimension",
    "Verif.Units.C98_apply_multipliers",
    "Verif.Units.C98_dimensionless",
    "Verif.Units.C98_apply_to_pars"
   ],
   "note": ""
  },
  {
   "property": "C99",
   "status": "proved",
   "theorems": [
    "Verif.Poly.Ser.C99_serendipity_counts",
    "Verif.Poly.Ser.C99_serendipity_nodal",
    "Verif.Poly.Ser.C99_serendipity_gradient",
    "Verif.Poly.Ser.C99_serendipity_reproduces",
    "Verif.Poly.Ser.C99_serendipity_unity",
    "Verif.Poly.Ser.C99_serendipity_span"
   ],
   "note": ""
  },
  {
   "property": "C100",
   "status": "proved",
   "theorems": [
    "Verif.Poly.Ser.C100_serendipity_conforming",
    "Verif.Poly.Ser.C100_serendipity_continuous"
   ],
   "note": ""
  },
  {
   "property": "C101",
   "status": "proved",
   "theorems": [
    "Verif.Poly.Lob.C101_lobatto_derivative",
    "Verif.Poly.Lob.C101_kernel_derivative",
    "Verif.Poly.Lob.C101_legendre_derivative",
    "Verif.Poly.Lob.C101_lobatto_linear",
    "Verif.Poly.Lob.C101_lobatto_ends",
    "Verif.Poly.Lob.C101_lobatto_parity",
    "Verif.Poly.Lob.C101_lobatto_kernel",
    "Verif.Poly.Lob.C101_legendre_recurrence",
    "Verif.Poly.Lob.C101_legendre_orthogonal",
    "Verif.Poly.Lob.C101_lobatto_legendre",
    "Verif.Poly.Lob.C101_lobatto_orthonormal",
    "Verif.Poly.Lob.C101_lobatto_complete"
   ],
   "note": ""
  },
  {
   "property": "C102",
   "status": "proved",
   "theorems": [
    "Verif.Poly.Lob.C102_lobatto_nodes",
    "Verif.Poly.Lob.C102_lobatto_reproduces",
    "Verif.Poly.Lob.C102_lobatto_gradient"
   ],
   "note": ""
  },
  {
   "property": "C103",
   "status": "proved",
   "theorems": [
    "Verif.Poly.Lob.C103_lobatto_continuous",
    "Verif.Poly.Lob.C103_lobatto_numbering"
   ],
   "note": ""
  },
  {
   "property": "C104",
   "status": "proved",
   "theorems": [
    "Verif.Poly.C104_bernstein_simplex_gradient_nan",
    "Verif.Poly.C104_bernstein_simplex_unity",
    "Verif.Poly.C104_bernstein_simplex_polynomials",
    "Verif.Poly.C104_bernstein_simplex_positive",
    "Verif.Poly.C104_bernstein_simplex_vertices",
    "Verif.Poly.C104_bernstein_simplex_gradient"
   ],
   "note": ""
  },
  {
   "property": "C105",
   "status": "proved",
   "theorems": [
    "Verif.Poly.C105_bernstein_tensor_unity",
    "Verif.Poly.C105_bernstein_tensor_polynomials",
    "Verif.Poly.C105_bernstein_tensor_positive",
    "Verif.Poly.C105_bernstein_tensor_gradient"
   ],
   "note": ""
  },
  {
   "property": "C106",
   "status": "proved",
   "theorems": [
    "Verif.Poly.C106_continuous_bernstein_simplex",
    "Verif.Poly.C106_continuous_bernstein_tensor"
   ],
   "note": ""
  },
  {
   "property": "C107",
   "status": "proved",
   "theorems": [
    "Verif.Poly.C107_sem_nodal",
    "Verif.Poly.C107_sem_polynomials",
    "Verif.Poly.C107_sem_unity",
    "Verif.Poly.C107_sem_gradient"
   ],
   "note": ""
  },
  {
   "property": "C108",
   "status": "proved",
   "theorems": [
    "Verif.Poly.C108_sem_mass_diagonal",
    "Verif.Poly.C108_sem_cubature",
    "Verif.Poly.C108_lgl_symmetric",
    "Verif.Poly.C108_lgl_quadrature"
   ],
   "note": ""
  },
  {
   "property": "C109",
   "status": "proved",
   "theorems": [
    "Verif.Poly.C109_continuous_sem",
    "Verif.Poly.C109_continuous_sem_lgl"
   ],
   "note": ""
  },
  {
   "property": "C110",
   "status": "proved",
   "theorems": [
    "Verif.Loc.C110_extrapolation_mixes_cells",
    "Verif.Loc.C110_status_five",
    "Verif.Loc.C110_status_zero",
    "Verif.Loc.C110_first_accepted",
    "Verif.Loc.C110_closest",
    "Verif.Loc.C110_eval_not_found",
    "Verif.Loc.C110_potential_cells_complete"
   ],
   "note": ""
  },
  {
   "property": "C111",
   "status": "proved",
   "theorems": [
    "Verif.Loc.C111_barycentric_point",
    "Verif.Loc.C111_barycentric_unique",
    "Verif.Loc.C111_locate_complete",
    "Verif.Loc.C111_locate_sound",
    "Verif.Loc.C111_evaluate_exact"
   ],
   "note": ""
  },
  {
   "property": "C112",
   "status": "proved",
   "theorems": [
    "Verif.Loc.C112_locate_sound",
    "Verif.Loc.C112_potential_cells_complete",
    "Verif.Loc.C112_locate_complete",
    "Verif.Loc.C112_evaluate"
   ],
   "note": ""
  },
  {
   "property": "C113",
   "status": "proved",
   "theorems": [
    "Verif.Loc.C113_centroid_example",
    "Verif.Loc.C113_convex_sound",
    "Verif.Loc.C113_convex_simplex",
    "Verif.Loc.C113_stops_inside",
    "Verif.Loc.C113_found_inside",
    "Verif.Loc.C113_centroid_lost"
   ],
   "note": ""
  },
  {
   "property": "C114",
   "status": "proved",
   "theorems": [
    "Verif.Th.C114_exponential_memory",
    "Verif.Th.C114_first_step",
    "Verif.Th.C114_no_history",
    "Verif.Th.C114_full_kernel",
    "Verif.Th.C114_full_kernel_step0",
    "Verif.Th.C114_exponential_is_full"
   ],
   "note": ""
  },
  {
   "property": "C115",
   "status": "proved",
   "theorems": [
    "Verif.Ls.C115_bytes_injective",
    "Verif.Ls.C115_direct",
    "Verif.Ls.C115_cholesky",
    "Verif.Ls.C115_other_format",
    "Verif.Ls.C115_stale",
    "Verif.Ls.C115_no_digest",
    "Verif.Ls.C115_mixed_fails",
    "Verif.Ls.C115_amg"
   ],
   "note": ""
  },
  {
   "property": "C116",
   "status": "proved",
   "theorems": [
    "Verif.Ls.C116_symmetric_pattern",
    "Verif.Ls.C116_diagonal",
    "Verif.Ls.C116_positions_ignored",
    "Verif.Ls.C116_counts",
    "Verif.Ls.C116_flag_of_first"
   ],
   "note": ""
  },
  {
   "property": "C117",
   "status": "proved",
   "theorems": [
    "Verif.Opt.C117_result",
    "Verif.Opt.C117_decrease",
    "Verif.Opt.C117_terminates",
    "Verif.Opt.C117_negative_increase",
    "Verif.Opt.C117_zero_gradient"
   ],
   "note": ""
  },
  {
   "property": "C118",
   "status": "proved",
   "theorems": [
    "Verif.Opt.C118_complementarity",
    "Verif.Opt.C118_nonactive_row",
    "Verif.Opt.C118_brute_row",
    "Verif.Opt.C118_active_multipliers"
   ],
   "note": ""
  },
  {
   "property": "C119",
   "status": "proved",
   "theorems": [
    "Verif.Opt.C119_result",
    "Verif.Opt.C119_monotone",
    "Verif.Opt.C119_stale_direction",
    "Verif.Opt.C119_terminates"
   ],
   "note": ""
  },
  {
   "property": "C120",
   "status": "proved",
   "theorems": [
    "Verif.Lin.C120_covered",
    "Verif.Lin.C120_in_range",
    "Verif.Lin.C120_exactly_once",
    "Verif.Lin.C120_exactly_once_default",
    "Verif.Lin.C120_overlap_counterexample",
    "Verif.Lin.C120_connectivity"
   ],
   "note": ""
  },
  {
   "property": "C121",
   "status": "proved",
   "theorems": [
    "Verif.Cond.C121_kept",
    "Verif.Cond.C121_kept_epbc",
    "Verif.Cond.C121_short",
    "Verif.Cond.C121_attributes",
    "Verif.Cond.C121_attributes_epbc",
    "Verif.Cond.C121_same_name_lost"
   ],
   "note": ""
  },
  {
   "property": "C122",
   "status": "proved",
   "theorems": [
    "Verif.Cond.C122_dispatch",
    "Verif.Cond.C122_ic_anywhere"
   ],
   "note": ""
  },
  {
   "property": "C123",
   "status": "proved",
   "theorems": [
    "Verif.Cond.C123_grouping",
    "Verif.Cond.C123_plain",
    "Verif.Cond.C123_grad",
    "Verif.Cond.C123_grad_in_name",
    "Verif.Cond.C123_canonize_all",
    "Verif.Cond.C123_canonize_one",
    "Verif.Cond.C123_canonize_list"
   ],
   "note": ""
  },
  {
   "property": "C124",
   "status": "proved",
   "theorems": [
    "Verif.Cond.C124_sorted",
    "Verif.Cond.C124_stable",
    "Verif.Cond.C124_by_name",
    "Verif.Cond.C124_ebc_first",
    "Verif.Cond.C124_prefix_counterexample"
   ],
   "note": ""
  },
  {
   "property": "C125",
   "status": "proved",
   "theorems": [
    "Verif.Hang.C125_coarse_keep",
    "Verif.Hang.C125_sub_rows",
    "Verif.Hang.C125_tiling"
   ],
   "note": ""
  },
  {
   "property": "C126",
   "status": "proved",
   "theorems": [
    "Verif.Hang.C126_fine_first",
    "Verif.Hang.C126_sub",
    "Verif.Hang.C126_halves24",
    "Verif.Hang.C126_halves38",
    "Verif.Hang.C126_quarters38"
   ],
   "note": ""
  },
  {
   "property": "C127",
   "status": "proved",
   "theorems": [
    "Verif.Hang.C127_two_levels_fail",
    "Verif.Hang.C127_continuous",
    "Verif.Hang.C127_restored",
    "Verif.Hang.C127_fine_fine"
   ],
   "note": ""
  },
  {
   "property": "C128",
   "status": "proved",
   "theorems": [
    "Verif.Spl.C128_cox_de_boor",
    "Verif.Spl.C128_local",
    "Verif.Spl.C128_partition",
    "Verif.Spl.C128_clamped",
    "Verif.Spl.C128_ends",
    "Verif.Spl.C128_cyclic_closed",
    "Verif.Spl.C128_cyclic_range_fails"
   ],
   "note": ""
  },
  {
   "property": "C129",
   "status": "proved",
   "theorems": [
    "Verif.Spl.C129_insert_knot",
    "Verif.Spl.C129_inserted"
   ],
   "note": ""
  },
  {
   "property": "C130",
   "status": "proved",
   "theorems": [
    "Verif.Spl.C130_least_squares",
    "Verif.Spl.C130_cyclic",
    "Verif.Spl.C130_surface",
    "Verif.Spl.C130_surface_bounds"
   ],
   "note": ""
  },
  {
   "property": "C131",
   "status": "proved",
   "theorems": [
    "Verif.Prb.C131_line_adaptive",
    "Verif.Prb.C131_refine_pars",
    "Verif.Prb.C131_refine_pars_cyclic",
    "Verif.Prb.C131_line_fixed",
    "Verif.Prb.C131_circle_fixed",
    "Verif.Prb.C131_circle_adaptive"
   ],
   "note": ""
  },
  {
   "property": "C132",
   "status": "proved",
   "theorems": [
    "Verif.Prb.C132_line",
    "Verif.Prb.C132_ray",
    "Verif.Prb.C132_circle_plane",
    "Verif.Prb.C132_circle_radius",
    "Verif.Prb.C132_circle_normal",
    "Verif.Prb.C132_circle_tilted_counterexample"
   ],
   "note": ""
  },
  {
   "property": "C133",
   "status": "proved",
   "theorems": [
    "Verif.Box.C133_identity",
    "Verif.Box.C133_end_collapse"
   ],
   "note": ""
  },
  {
   "property": "C134",
   "status": "proved",
   "theorems": [
    "Verif.Box.C134_move",
    "Verif.Box.C134_indices",
    "Verif.Box.C134_affine",
    "Verif.Box.C134_bounds",
    "Verif.Box.C134_local"
   ],
   "note": ""
  },
  {
   "property": "C135",
   "status": "proved",
   "theorems": [
    "Verif.Prj.C135_facets"
   ],
   "note": ""
  },
  {
   "property": "C136",
   "status": "proved",
   "theorems": [
    "Verif.Prj.C136_projection",
    "Verif.Prj.C136_by_component"
   ],
   "note": ""
  },
  {
   "property": "C137",
   "status": "proved",
   "theorems": [
    "Verif.Cfg.C137_step",
    "Verif.Cfg.C137_history",
    "Verif.Cfg.C137_get_name",
    "Verif.Cfg.C137_get_index",
    "Verif.Cfg.C137_has_key",
    "Verif.Cfg.C137_set_get",
    "Verif.Cfg.C137_set_other"
   ],
   "note": ""
  },
  {
   "property": "C138",
   "status": "proved",
   "theorems": [
    "Verif.Cfg.C138_keys",
    "Verif.Cfg.C138_left",
    "Verif.Cfg.C138_origin",
    "Verif.Cfg.C138_right",
    "Verif.Cfg.C138_both",
    "Verif.Cfg.C138_idem",
    "Verif.Cfg.C138_empty",
    "Verif.Cfg.C138_again",
    "Verif.Cfg.C138_not_assoc"
   ],
   "note": ""
  },
  {
   "property": "C139",
   "status": "proved",
   "theorems": [
    "Verif.Cfg.C139_options",
    "Verif.Cfg.C139_error",
    "Verif.Cfg.C139_declared",
    "Verif.Cfg.C139_undeclared",
    "Verif.Cfg.C139_required_kwargs",
    "Verif.Cfg.C139_first",
    "Verif.Cfg.C139_none",
    "Verif.Cfg.C139_interrupted",
    "Verif.Cfg.C139_auto"
   ],
   "note": ""
  },
  {
   "property": "C140",
   "status": "proved",
   "theorems": [
    "Verif.Coef.C140_iter_sym",
    "Verif.Coef.C140_iter_sym_normal",
    "Verif.Coef.C140_iter_nonsym",
    "Verif.Coef.C140_coor_to_sym",
    "Verif.Coef.C140_sum",
    "Verif.Coef.C140_entries",
    "Verif.Coef.C140_bilinear",
    "Verif.Coef.C140_succeeds",
    "Verif.Coef.C140_correctors",
    "Verif.Coef.C140_correctors_history",
    "Verif.Coef.C140_pis"
   ],
   "note": ""
  },
  {
   "property": "C141",
   "status": "proved",
   "theorems": [
    "Verif.Coef.C141_symmetric",
    "Verif.Coef.C141_nonneg",
    "Verif.Coef.C141_posdef",
    "Verif.Coef.C141_one_sided",
    "Verif.Coef.C141_unique",
    "Verif.Coef.C141_minimum",
    "Verif.Coef.C141_voigt",
    "Verif.Coef.C141_monotone",
    "Verif.Coef.C141_minor",
    "Verif.Coef.C141_reuss",
    "Verif.Coef.C141_voigt_mean",
    "Verif.Coef.C141_homogeneous",
    "Verif.Coef.C141_computed"
   ],
   "note": ""
  },
  {
   "property": "C142",
   "status": "proved",
   "theorems": [
    "Verif.Conv.C142_mean_decay",
    "Verif.Conv.C142_decay_start",
    "Verif.Conv.C142_diff_int",
    "Verif.Conv.C142_diff_affine",
    "Verif.Conv.C142_integral_exact",
    "Verif.Conv.C142_forward_bound",
    "Verif.Conv.C142_exp_diff",
    "Verif.Conv.C142_exp_int",
    "Verif.Conv.C142_guess",
    "Verif.Conv.C142_guess_shifted"
   ],
   "note": ""
  },
  {
   "property": "C143",
   "status": "proved",
   "theorems": [
    "Verif.Conv.C143_interpolation",
    "Verif.Conv.C143_unique",
    "Verif.Conv.C143_past_end",
    "Verif.Conv.C143_history",
    "Verif.Conv.C143_affine"
   ],
   "note": ""
  },
  {
   "property": "C144",
   "status": "proved",
   "theorems": [
    "Verif.Sens.C144_grad_op",
    "Verif.Sens.C144_elastic",
    "Verif.Sens.C144_diffusion",
    "Verif.Sens.C144_diffusion_nonsymmetric",
    "Verif.Sens.C144_div_grad",
    "Verif.Sens.C144_piezo",
    "Verif.Sens.C144_stokes",
    "Verif.Sens.C144_v_dot_grad_s",
    "Verif.Sens.C144_dot",
    "Verif.Sens.C144_traction",
    "Verif.Sens.C144_integral",
    "Verif.Sens.C144_sym2nonsym",
    "Verif.Sens.C144_tables"
   ],
   "note": ""
  },
  {
   "property": "C145",
   "status": "proved",
   "theorems": [
    "Verif.Ct.C145_force_law",
    "Verif.Ct.C145_force_nonneg",
    "Verif.Ct.C145_force_monotone",
    "Verif.Ct.C145_force_deriv",
    "Verif.Ct.C145_kink",
    "Verif.Ct.C145_plane_normal_unit",
    "Verif.Ct.C145_plane_distance",
    "Verif.Ct.C145_plane_projection",
    "Verif.Ct.C145_sphere_normals",
    "Verif.Ct.C145_sphere_normal_unit",
    "Verif.Ct.C145_sphere_centre_error",
    "Verif.Ct.C145_sphere_centre_wrong",
    "Verif.Ct.C145_sphere_mask",
    "Verif.Ct.C145_sphere_mask_small"
   ],
   "note": ""
  },
  {
   "property": "C146",
   "status": "proved",
   "theorems": [
    "Verif.Ct.C146_plane_tangent",
    "Verif.Ct.C146_sphere_vec",
    "Verif.Ct.C146_plane_vec",
    "Verif.Ct.C146_sphere_tangent"
   ],
   "note": ""
  },
  {
   "property": "C147",
   "status": "proved",
   "theorems": [
    "Verif.Srf.C147_value",
    "Verif.Srf.C147_non_penetration_grad",
    "Verif.Srf.C147_non_penetration_div",
    "Verif.Srf.C147_saddle_point",
    "Verif.Srf.C147_non_penetration_matrices",
    "Verif.Srf.C147_penalty",
    "Verif.Srf.C147_penalty_psd",
    "Verif.Srf.C147_jump",
    "Verif.Srf.C147_ndot"
   ],
   "note": ""
  },
  {
   "property": "C148",
   "status": "proved",
   "theorems": [
    "Verif.Srf.C148_eval",
    "Verif.Srf.C148_eval_full",
    "Verif.Srf.C148_eval_full_transposed",
    "Verif.Srf.C148_sensitivity",
    "Verif.Srf.C148_sensitivity_vector",
    "Verif.Srf.C148_sensitivity_vector_differs"
   ],
   "note": ""
  },
  {
   "property": "C149",
   "status": "proved",
   "theorems": [
    "Verif.Mem.C149_orthonormal",
    "Verif.Mem.C149_in_plane",
    "Verif.Mem.C149_invariants",
    "Verif.Mem.C149_stress",
    "Verif.Mem.C149_tangent",
    "Verif.Mem.C149_reference",
    "Verif.Mem.C149_green_strain"
   ],
   "note": ""
  },
  {
   "property": "C150",
   "status": "proved",
   "theorems": [
    "Verif.Mem.C150_strain_operator",
    "Verif.Mem.C150_gradient",
    "Verif.Mem.C150_tangent",
    "Verif.Mem.C150_symmetric"
   ],
   "note": ""
  }
 ]
}