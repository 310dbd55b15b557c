{"Detran.Mesh.C01_index_roundtrip": ["Quot.sound", "propext"], "Detran.Mesh.C01_index_bijective": ["Quot.sound", "propext"], "Detran.Mesh.C01_overflow_collision": [], "Detran.Mesh.C02_coarse_cells_partition": ["Classical.choice", "Quot.sound", "propext"], "Detran.Mesh.C02_fine_cell_gets_coarse_material": ["Classical.choice", "Quot.sound", "propext"], "Detran.Mesh.C02_short_map_undefined": ["Classical.choice", "Quot.sound", "propext"], "Detran.Mesh.C02_mesh_map_is_last_added": ["Quot.sound", "propext"], "Detran.Mesh.C03_widths_fill_domain": ["Classical.choice", "Quot.sound", "propext"], "Detran.Mesh.C03_volumes_fill_domain": ["Classical.choice", "Quot.sound", "propext"], "Detran.Mesh.C04_find_cell_contains": ["Classical.choice", "Quot.sound", "propext"], "Detran.Mesh.C04_cell_unique": ["Classical.choice", "Quot.sound", "propext"], "Detran.Mesh.C04_offset_mesh_mislocates": ["Classical.choice", "Quot.sound", "propext"], "Detran.Util.C05_get_is_last_put": ["Quot.sound", "propext"], "Detran.Util.C05_check_iff_put": ["Quot.sound", "propext"], "Detran.Util.C05_put_isolated": ["propext"], "Detran.Util.C05_check_does_not_guard_get": ["Quot.sound", "propext"], "Detran.Util.C05_size_counts_keys": ["Quot.sound", "propext"], "Detran.Util.C05_keysOf_spec": ["Quot.sound", "propext"], "Detran.Util.C06_lookup_is_first": ["propext"], "Detran.Util.C06_register_result": ["Quot.sound", "propext"], "Detran.Util.C06_isRegistered": ["Quot.sound", "propext"], "Detran.Util.C07_range_ascending": ["Classical.choice", "Quot.sound", "propext"], "Detran.Util.C07_range_descending": ["Classical.choice", "Quot.sound", "propext"], "Detran.Util.C07_range_self": ["Classical.choice", "Quot.sound", "propext"], "Detran.Util.C07_range_reversed_not_empty": ["Quot.sound", "propext"], "Detran.Matrix.C08_multiply": ["Classical.choice", "Quot.sound", "propext"], "Detran.Matrix.C08_multiply_all": ["Classical.choice", "Quot.sound", "propext"], "Detran.Matrix.C09_assemble_defined_iff": ["Classical.choice", "Quot.sound", "propext"], "Detran.Matrix.C09_shape": ["Classical.choice", "Quot.sound", "propext"], "Detran.Matrix.C09_no_diagonal_below_square": ["Classical.choice", "Quot.sound", "propext"], "Detran.Matrix.C09_strict_columns": ["Classical.choice", "Quot.sound", "propext"], "Detran.Matrix.C09_add_only_nodup": ["Quot.sound", "propext"], "Detran.Matrix.C09_empty_row_undefined": ["Classical.choice", "Quot.sound", "propext"], "Detran.Matrix.C09_clear": ["Classical.choice", "Quot.sound", "propext"], "Detran.Matrix.C09_refill": ["Classical.choice", "Quot.sound", "propext"], "Detran.Dense.C10_dense_adjoint": ["Classical.choice", "Quot.sound", "propext"], "Detran.Matrix.C10_adjoint_of_columns": ["Classical.choice", "Quot.sound", "propext"], "Detran.Matrix.C10_transpose_adjoint": ["Classical.choice", "Quot.sound", "propext"], "Detran.Matrix.C10_transpose_entries": ["Classical.choice", "Quot.sound", "propext"], "Detran.Matrix.C11_offdiagonal_always_zero": ["Classical.choice", "Quot.sound", "propext"], "Detran.Matrix.C11_diagonal_partial": ["Classical.choice", "Quot.sound", "propext"], "Detran.Matrix.C11_counterexample": ["Classical.choice", "Quot.sound", "propext"], "Detran.Matrix.C11_copy": ["Quot.sound", "propext"], "Detran.Matrix.C12_return_values": ["Classical.choice", "Quot.sound", "propext"], "Detran.Matrix.C12_failed_insert_no_change": ["Classical.choice", "Quot.sound", "propext"], "Detran.Matrix.C12_capacity_respected": ["Classical.choice", "Quot.sound", "propext"], "Detran.Matrix.C12_preallocate_const": ["Quot.sound", "propext"], "Detran.Matrix.C12_insert_row": ["Quot.sound", "propext"], "Detran.Matrix.C12_add_row": ["Quot.sound", "propext"], "Detran.Matrix.C12_insert_triplets": ["Quot.sound", "propext"], "Detran.Matrix.C12_insert_column": ["Quot.sound", "propext"], "Detran.Matrix.C12_triplets_overflow": ["Classical.choice", "Quot.sound", "propext"], "Detran.Matrix.C12_add_row_not_atomic": ["Classical.choice", "Quot.sound", "propext"], "Detran.Dense.C13_storage": ["Classical.choice", "Quot.sound", "propext"], "Detran.Dense.C13_multiply": ["Classical.choice", "Quot.sound", "propext"], "Detran.Dense.C13_copy": ["Classical.choice", "Quot.sound", "propext"], "Detran.Dense.C13_row_overflow_aliases": ["Classical.choice", "Quot.sound", "propext"], "Detran.Dense.C14_sorted": ["Quot.sound", "propext"], "Detran.Dense.C14_verify": ["Quot.sound", "propext"], "Detran.Dense.C14_insert_effect": ["Quot.sound", "propext"], "Detran.Dense.C14_insert_return": ["Quot.sound", "propext"], "Detran.Dense.C14_map_partial": ["Quot.sound", "propext"], "Detran.Dense.C14_insert_zero_ignored": ["Classical.choice", "Quot.sound", "propext"], "Detran.Dense.C14_read": ["Classical.choice", "Quot.sound", "propext"], "Detran.Dense.C14_range": ["Classical.choice", "Quot.sound", "propext"], "Detran.Dense.C14_range_inconsistent": ["Quot.sound", "propext"], "Detran.Dense.C14_add_range": ["Classical.choice", "Quot.sound", "propext"], "Detran.Dense.C14_range_return": ["Classical.choice", "Quot.sound", "propext"], "Detran.Dense.C14_of_array": ["Classical.choice", "Quot.sound", "propext"], "Detran.Solver.C15_ilut_apply": ["Classical.choice", "Quot.sound", "propext"], "Detran.Solver.C15_ilu0_apply_exact": ["Classical.choice", "Quot.sound", "propext"], "Detran.Solver.C15_ilu0_never_solves": ["Classical.choice", "Quot.sound", "propext"], "Detran.Solver.C16_upper_never_updated": ["Classical.choice", "Quot.sound", "propext"], "Detran.Solver.C16_zero_pivot_test": ["Classical.choice", "Quot.sound", "propext"], "Detran.Solver.C16_tridiagonal_factors": ["Classical.choice", "Quot.sound", "propext"], "Detran.Solver.C16_tridiagonal_diagonal": ["Classical.choice", "Quot.sound", "propext"], "Detran.Solver.C16_tridiagonal_only_if_uncoupled": ["Classical.choice", "Quot.sound", "propext"], "Detran.Solver.C16_upper_triangular_partial": ["Classical.choice", "Quot.sound", "propext"], "Detran.Solver.C17_jacobi_apply": ["Classical.choice", "Quot.sound", "propext"], "Detran.Solver.C17_jacobi_injective": ["Classical.choice", "Quot.sound", "propext"], "Detran.Solver.C18_jacobi_difference": ["Classical.choice", "Quot.sound", "propext"], "Detran.Solver.C18_jacobi_fixed": ["Classical.choice", "Quot.sound", "propext"], "Detran.Solver.C18_gauss_seidel_difference": ["Classical.choice", "Quot.sound", "propext"], "Detran.Solver.C18_gauss_seidel_fixed": ["Classical.choice", "Quot.sound", "propext"], "Detran.Solver.C18_richardson_fixed": ["Classical.choice", "Quot.sound", "propext"], "Detran.Solver.C18_richardson_preconditioned": ["Quot.sound", "propext"], "Detran.Solver.C18_richardson_jacobi": ["Classical.choice", "Quot.sound", "propext"], "Detran.Solver.C19_success_truthful": ["Classical.choice", "Quot.sound", "propext"], "Detran.Solver.C19_iteration_bound": ["Classical.choice", "Quot.sound", "propext"], "Detran.Solver.C19_definite_status_partial": ["Classical.choice", "Quot.sound", "propext"], "Detran.Solver.C19_earliest_stop": ["Classical.choice", "Quot.sound", "propext"], "Detran.Solver.C19_limit_one_unreported": ["Classical.choice", "Quot.sound", "propext"], "Detran.Solver.C19_reported_count": ["Classical.choice", "Quot.sound", "propext"], "Detran.Solver.C19_stale_count": ["Classical.choice", "Quot.sound", "propext"], "Detran.Util.C20_normLinf_partial": ["Classical.choice", "Quot.sound", "propext"], "Detran.Util.C20_normLinf_counterexample": ["Classical.choice", "Quot.sound", "propext"], "Detran.Util.C20_normLinf_fails_iff": ["Classical.choice", "Quot.sound", "propext"], "Detran.Util.C20_normResLinf": ["Quot.sound", "propext"], "Detran.Util.C20_normL1": ["Quot.sound", "propext"], "Detran.Util.C20_normL2sq": ["Quot.sound", "propext"], "Detran.Util.C20_normResL1_is_sum": ["Quot.sound", "propext"], "Detran.Util.C20_normResL1_eq_zero_iff": ["Classical.choice", "Quot.sound", "propext"], "Detran.Util.C20_relative_residual_not_relative": ["Classical.choice", "Quot.sound", "propext"], "Detran.Util.C20_normL2_zero_iff": ["Classical.choice", "Quot.sound", "propext"], "Detran.Util.C20_vecMax_int": ["Quot.sound", "propext"], "Detran.Util.C20_vecMax_double_wrong": ["Classical.choice", "Quot.sound", "propext"], "Detran.Util.C20_vecMin": ["Quot.sound", "propext"], "Detran.Material.C21_bounds_forward": ["Classical.choice", "Quot.sound", "propext"], "Detran.Material.C21_bounds_adjoint": ["Classical.choice", "Quot.sound", "propext"], "Detran.Material.C22_bounds_history_independent": ["Classical.choice", "Quot.sound", "propext"], "Detran.Material.C22_cutoff_with_upscatter": ["Classical.choice", "Quot.sound", "propext"], "Detran.Material.C22_cutoff_without_upscatter": ["Classical.choice", "Quot.sound", "propext"], "Detran.Material.C22_adjoint_cutoff": ["Classical.choice", "Quot.sound", "propext"], "Detran.Material.C22_first_finalize_partial": ["Classical.choice", "Quot.sound", "propext"], "Detran.Material.C22_stale_cutoff_counterexample": ["Classical.choice", "Quot.sound", "propext"], "Detran.Material.C22_finalize_idempotent": ["Classical.choice", "Quot.sound", "propext"], "Detran.Material.C22_adjoint_flag_never_set": ["Classical.choice", "Quot.sound", "propext"], "Detran.Material.C22_set_downscatter_tran_changes_forward": ["Quot.sound", "propext"], "Detran.Material.C23_in_scatter": ["Classical.choice", "Quot.sound", "propext"], "Detran.Material.C23_within_group": ["Quot.sound", "propext"], "Detran.Material.C24_forward_partial": ["Classical.choice", "Quot.sound", "propext"], "Detran.Material.C24_adjoint_partial": ["Classical.choice", "Quot.sound", "propext"], "Detran.Material.C24_double_count": ["Classical.choice", "Quot.sound", "propext"], "Detran.Material.C24_counterexample": ["Classical.choice", "Quot.sound", "propext"], "Detran.Material.C25_density": ["Classical.choice", "Quot.sound", "propext"], "Detran.Material.C25_sources_sum": ["Classical.choice", "Quot.sound", "propext"], "Detran.Material.C25_outer_eq_total": ["Classical.choice", "Quot.sound", "propext"], "Detran.Material.C25_within_plus_in": ["Classical.choice", "Quot.sound", "propext"], "Detran.Material.C25_adjoint_transpose": ["Classical.choice", "Quot.sound", "propext"], "Detran.Material.C25_scatter_transpose": ["Classical.choice", "Quot.sound", "propext"], "Detran.Material.C25_initialize": ["Classical.choice", "Quot.sound", "propext"], "Detran.Sweep.C26_dd1_cell": ["Classical.choice", "Quot.sound", "propext"], "Detran.Sweep.C26_sd1_cell": ["Classical.choice", "Quot.sound", "propext"], "Detran.Sweep.C26_sc1_cell": ["Classical.choice", "Quot.sound", "propext"], "Detran.Sweep.C26_dd2_cell": ["Classical.choice", "Quot.sound", "propext"], "Detran.Sweep.C26_sd2_cell": ["Classical.choice", "Quot.sound", "propext"], "Detran.Sweep.C26_sc2_cell": ["Classical.choice", "Quot.sound", "propext"], "Detran.Sweep.C26_dd3_cell": ["Classical.choice", "Quot.sound", "propext"], "Detran.Sweep.C26_sweep_balance_1D": ["Classical.choice", "Quot.sound", "propext"], "Detran.Sweep.C26_sweep_balance_sc1": ["Classical.choice", "Quot.sound", "propext"], "Detran.Sweep.C26_sweep_balance_2D": ["Classical.choice", "Quot.sound", "propext"], "Detran.Sweep.C26_sweep_balance_sc2": ["Classical.choice", "Quot.sound", "propext"], "Detran.Sweep.C26_sweep_balance_3D": ["Classical.choice", "Quot.sound", "propext"], "Detran.Boundary.C27_boundary_linear": ["Quot.sound", "propext"], "Detran.Boundary.C27_boundary_nonneg": ["Quot.sound", "propext"], "Detran.Sweep.C27_schemes_linear": ["Classical.choice", "Quot.sound", "propext"], "Detran.Sweep.C27_sweep_linear_1D": ["Quot.sound", "propext"], "Detran.Sweep.C27_sweep_linear_2D": ["Quot.sound", "propext"], "Detran.Sweep.C27_sweep_linear_3D": ["Quot.sound", "propext"], "Detran.Sweep.C27_sd1_cell": ["Classical.choice", "Quot.sound", "propext"], "Detran.Sweep.C27_sd2_cell": ["Classical.choice", "Quot.sound", "propext"], "Detran.Sweep.C27_step_positive_1D": ["Classical.choice", "Quot.sound", "propext"], "Detran.Sweep.C27_step_positive_2D": ["Classical.choice", "Quot.sound", "propext"], "Detran.Sweep.C27_diamond_negative": ["Classical.choice", "Quot.sound", "propext"], "Detran.Sweep.C27_diamond_thin_positive": ["Classical.choice", "Quot.sound", "propext"], "Detran.Sweep.C27_sc1_cell": ["Classical.choice", "Quot.sound", "propext"], "Detran.Sweep.C27_sc2_cell": ["Classical.choice", "Quot.sound", "propext"], "Detran.Sweep.C27_sc_positive_1D": ["Classical.choice", "Quot.sound", "propext"], "Detran.Sweep.C27_sc_positive_2D": ["Classical.choice", "Quot.sound", "propext"], "Detran.Sweep.C27_sc1_exact": ["Classical.choice", "Quot.sound", "propext"], "Detran.Sweep.C28_order_1D": ["Classical.choice", "Quot.sound", "propext"], "Detran.Sweep.C28_order_2D": ["Classical.choice", "Quot.sound", "propext"], "Detran.Sweep.C28_order_3D": ["Classical.choice", "Quot.sound", "propext"], "Detran.Sweep.C28_upwind_first": ["Classical.choice", "Quot.sound", "propext"], "Detran.Sweep.C28_sweep_solves_1D": ["Classical.choice", "Quot.sound", "propext"], "Detran.Sweep.C28_sweep_solves_2D": ["Classical.choice", "Quot.sound", "propext"], "Detran.Sweep.C28_sweep_solves_3D": ["Classical.choice", "Quot.sound", "propext"], "Detran.Sweep.C29_exchange_sort": ["Quot.sound", "propext"], "Detran.Sweep.C29_order_permutation": ["Classical.choice", "Quot.sound", "propext"], "Detran.Sweep.C29_vacuum_first": ["Quot.sound", "propext"], "Detran.Sweep.C29_vacuum_only_octants_lead": ["Classical.choice", "Quot.sound", "propext"], "Detran.Sweep.C29_user_order_unchecked": ["Classical.choice", "Quot.sound", "propext"], "Detran.Sweep.C29_user_order": ["propext"], "Detran.Boundary.C30_pairs": ["Quot.sound", "propext"], "Detran.Boundary.C30_mirror_exists": ["Quot.sound", "propext"], "Detran.Boundary.C30_update": ["Quot.sound", "propext"], "Detran.Boundary.C30_update_angle": ["Quot.sound", "propext"], "Detran.Boundary.C30_no_current": ["Classical.choice", "Quot.sound", "propext"], "Detran.Boundary.C30_update_only_incident": ["Quot.sound", "propext"], "Detran.Boundary.C30_boundary_angle": ["Classical.choice", "Quot.sound", "propext"], "Detran.Boundary.C30_boundary_update": ["Classical.choice", "Quot.sound", "propext"], "Detran.Boundary.C31_update_angle": ["Quot.sound", "propext"], "Detran.Boundary.C31_update_group": ["Quot.sound", "propext"], "Detran.Boundary.C31_update_group_witness": ["Quot.sound", "propext"], "Detran.Boundary.C31_boundary_angle": ["Classical.choice", "Quot.sound", "propext"], "Detran.Boundary.C32_flux_size": ["Classical.choice", "Quot.sound", "propext"], "Detran.Boundary.C32_places": ["Quot.sound", "propext"], "Detran.Boundary.C32_nodup": ["Classical.choice", "Quot.sound", "propext"], "Detran.Boundary.C32_length": ["Classical.choice", "Quot.sound", "propext"], "Detran.Boundary.C32_set_get": ["Classical.choice", "Quot.sound", "propext"], "Detran.Boundary.C32_get_set": ["Classical.choice", "Quot.sound", "propext"], "Detran.Boundary.C32_in_out_disjoint": ["propext"], "Detran.Boundary.C32_clear": ["propext"], "Detran.Angle.C33_tables": ["Quot.sound", "propext"], "Detran.Angle.C33_entry": ["Quot.sound", "propext"], "Detran.Angle.C33_adjoint_tables_reversed": ["Quot.sound", "propext"], "Detran.Angle.C34_adjoint_history": ["Quot.sound", "propext"], "Detran.Angle.C34_adjoint_sweep_negative": ["Classical.choice", "Quot.sound", "propext"], "Detran.Angle.C35_moments": ["Classical.choice", "Quot.sound", "propext"], "Detran.Angle.C36_index_bijective": ["Classical.choice", "Quot.sound", "propext"], "Detran.Angle.C36_valid_index": ["propext"], "Detran.Angle.C36_product_bijective": ["Classical.choice", "Quot.sound", "propext"], "Detran.Lattice.C37_assembly_tiles_pins_partial": ["Classical.choice", "Quot.sound", "propext"], "Detran.Lattice.C37_core_tiles_assemblies_partial": ["Classical.choice", "Quot.sound", "propext"], "Detran.Lattice.C37_shared_edges_partial": ["Classical.choice", "Quot.sound", "propext"], "Detran.Lattice.C37_core_pin_numbers_unique": ["Quot.sound", "propext"], "Detran.Lattice.C37_x_edges_wrong_for_mixed_pins": ["Classical.choice", "Quot.sound", "propext"], "Detran.Lattice.C37_rectangular_assembly_wrong": ["Classical.choice", "Quot.sound", "propext"], "Detran.Geom.C38_contains": ["Quot.sound", "propext"], "Detran.Geom.C38_factory": ["Classical.choice", "Quot.sound", "propext"], "Detran.Geom.C39_order": ["Classical.choice", "Quot.sound", "propext"], "Detran.Geom.C39_on_surface": ["Classical.choice", "Quot.sound", "propext"], "Detran.Geom.C39_on_surface_near": ["Classical.choice", "Quot.sound", "propext"], "Detran.Geom.C39_complete": ["Classical.choice", "Quot.sound", "propext"], "Detran.Geom.C39_tangent_missed": ["Classical.choice", "Quot.sound", "propext"], "Detran.Geom.C39_crossing": ["Classical.choice", "Quot.sound", "propext"], "Detran.Geom.C39_tree_order": ["Classical.choice", "Quot.sound", "propext"], "Detran.Geom.C39_tree_crossing": ["Classical.choice", "Quot.sound", "propext"], "Detran.Geom.C40_reverse": ["Quot.sound", "propext"], "Detran.Geom.C40_double_reverse_ends": ["Quot.sound", "propext"], "Detran.Geom.C40_double_reverse_path": ["Quot.sound", "propext"], "Detran.Geom.C40_double_reverse_wrong": ["Quot.sound", "propext"], "Detran.Geom.C40_volume": ["Quot.sound", "propext"], "Detran.Geom.C40_normalize": ["Classical.choice", "Quot.sound", "propext"], "Detran.Geom.C40_normalize_unshared": ["Classical.choice", "Quot.sound", "propext"], "Detran.Geom.C40_normalize_shared": ["Classical.choice", "Quot.sound", "propext"], "Detran.Geom.C40_normalize_wrong": ["Classical.choice", "Quot.sound", "propext"], "Detran.Coarse.C41_axis": ["Classical.choice", "Quot.sound", "propext"], "Detran.Coarse.C41_defined": ["Classical.choice", "Quot.sound", "propext"], "Detran.Coarse.C41_remainder_overflow": ["Classical.choice", "Quot.sound", "propext"], "Detran.Coarse.C41_level_above_size": ["Classical.choice", "Quot.sound", "propext"], "Detran.Coarse.C41_onto": ["Classical.choice", "Quot.sound", "propext"], "Detran.Coarse.C41_widths": ["Classical.choice", "Quot.sound", "propext"], "Detran.Coarse.C41_map": ["Quot.sound", "propext"], "Detran.Coarse.C41_volume": ["Classical.choice", "Quot.sound", "propext"], "Detran.Coarse.C42_index": ["Classical.choice", "Quot.sound", "propext"], "Detran.Coarse.C42_record": ["Classical.choice", "Quot.sound", "propext"], "Detran.Coarse.C42_sweep2": ["Classical.choice", "Quot.sound", "propext"], "Detran.Coarse.C42_sweep2_inside": ["Classical.choice", "Quot.sound", "propext"], "Detran.Coarse.C42_one_cell_ub": ["Quot.sound", "propext"], "Detran.Coarse.C42_sweep1": ["Classical.choice", "Quot.sound", "propext"], "Detran.Coarse.C42_sweep3_nothing": ["Quot.sound", "propext"], "Detran.Homog.C43_moments_partial": ["Quot.sound", "propext"], "Detran.Homog.C43_one_moment": ["Quot.sound", "propext"], "Detran.Homog.C43_angular": ["Quot.sound", "propext"], "Detran.Homog.C43_higher_moments_kept": ["Classical.choice", "Quot.sound", "propext"], "Detran.Homog.C43_current_kept": ["Quot.sound", "propext"], "Detran.Homog.C44_total": ["Classical.choice", "Quot.sound", "propext"], "Detran.Homog.C44_fission": ["Classical.choice", "Quot.sound", "propext"], "Detran.Homog.C44_scatter": ["Classical.choice", "Quot.sound", "propext"], "Detran.Homog.C44_diffusion": ["Classical.choice", "Quot.sound", "propext"], "Detran.Homog.C44_flux_partial": ["Classical.choice", "Quot.sound", "propext"], "Detran.Homog.C44_range": ["Classical.choice", "Quot.sound", "propext"], "Detran.Homog.C44_chi_sum_partial": ["Classical.choice", "Quot.sound", "propext"], "Detran.Homog.C44_chi_wrong": ["Classical.choice", "Quot.sound", "propext"], "Detran.Homog.C44_chi_sum_wrong": ["Classical.choice", "Quot.sound", "propext"], "Detran.Homog.C44_flux_wrong": ["Classical.choice", "Quot.sound", "propext"], "Detran.Homog.C44_subset_wrong": ["Classical.choice", "Quot.sound", "propext"], "Detran.Homog.C44_defaults": ["propext"], "Detran.Homog.C44_first_group": ["Quot.sound", "propext"], "Detran.Kin.C45_defined": ["Classical.choice", "Quot.sound", "propext"], "Detran.Kin.C45_convex": ["Classical.choice", "Quot.sound", "propext"], "Detran.Kin.C45_range": ["Classical.choice", "Quot.sound", "propext"], "Detran.Kin.C45_clamped": ["Quot.sound", "propext"], "Detran.Kin.C45_linear": ["Classical.choice", "Quot.sound", "propext"], "Detran.Kin.C45_tabulated": ["Classical.choice", "Quot.sound", "propext"], "Detran.Kin.C45_continuous": ["Classical.choice", "Quot.sound", "propext"], "Detran.Kin.C45_material": ["Quot.sound", "propext"], "Detran.Kin.C45_production_wrong": ["Classical.choice", "Quot.sound", "propext"], "Detran.Kin.C46_exact": ["Classical.choice", "Quot.sound", "propext"], "Detran.Kin.C46_sharp": ["Classical.choice", "Quot.sound", "propext"], "Detran.Kin.C46_sum": ["Classical.choice", "Quot.sound", "propext"], "Detran.Kin.C47_balance": ["Classical.choice", "Quot.sound", "propext"], "Detran.Kin.C47_unique": ["Classical.choice", "Quot.sound", "propext"], "Detran.Kin.C47_equilibrium": ["Classical.choice", "Quot.sound", "propext"], "Detran.Kin.C47_initial": ["Classical.choice", "Quot.sound", "propext"], "Detran.Kin.C47_nonneg": ["Classical.choice", "Quot.sound", "propext"], "Detran.Kin.C47_second_order_negative": ["Classical.choice", "Quot.sound", "propext"], "Detran.Kin.C48_cycle": ["Classical.choice", "Quot.sound", "propext"], "Detran.Kin.C48_distinct": ["Classical.choice", "Quot.sound", "propext"], "Detran.Kin.C48_order": ["Quot.sound", "propext"], "Detran.Kin.C48_history": ["Classical.choice", "Quot.sound", "propext"], "Detran.Orthog.C49_fold": ["Classical.choice", "Quot.sound", "propext"], "Detran.Orthog.C49_normalise": ["Classical.choice", "Quot.sound", "propext"], "Detran.Orthog.C49_projection": ["Classical.choice", "Quot.sound", "propext"], "Detran.Orthog.C49_roundtrip": ["Classical.choice", "Quot.sound", "propext"], "Detran.Orthog.C49_inverse_ptr_wrong": ["Quot.sound", "propext"], "Detran.Orthog.C49_ddf_inverse_wrong": ["Quot.sound", "propext"], "Detran.Orthog.C49_unfold_wrong": ["Classical.choice", "Quot.sound", "propext"], "Detran.Orthog.C49_ddf": ["Classical.choice", "Quot.sound", "propext"], "Detran.Diffusion.C50_rows": ["Classical.choice", "Quot.sound", "propext"], "Detran.Diffusion.C50_current_unique": ["Classical.choice", "Quot.sound", "propext"], "Detran.Diffusion.C50_faces": ["Classical.choice", "Quot.sound", "propext"], "Detran.Diffusion.C50_symmetric": ["Classical.choice", "Quot.sound", "propext"], "Detran.Diffusion.C50_conservation": ["Classical.choice", "Quot.sound", "propext"], "Detran.Diffusion.C50_reflect": ["Classical.choice", "Quot.sound", "propext"], "Detran.Diffusion.C50_albedo": ["Classical.choice", "Quot.sound", "propext"], "Detran.Diffusion.C50_albedo_entry": ["Quot.sound", "propext"], "Detran.Diffusion.C50_positive": ["Classical.choice", "Quot.sound", "propext"], "Detran.Diffusion.C50_offdiag": ["Classical.choice", "Quot.sound", "propext"], "Detran.Diffusion.C50_within_group": ["Classical.choice", "Quot.sound", "propext"], "Detran.Diffusion.C50_rebuild_undefined": ["Classical.choice", "Quot.sound", "propext"], "Detran.Diffusion.C51_rows": ["Classical.choice", "Quot.sound", "propext"], "Detran.Diffusion.C51_adjoint_transpose": ["Classical.choice", "Quot.sound", "propext"], "Detran.Diffusion.C51_construct": ["Classical.choice", "Quot.sound", "propext"], "Detran.Diffusion.C52_rows": ["Classical.choice", "Quot.sound", "propext"], "Detran.Diffusion.C52_balance": ["Classical.choice", "Quot.sound", "propext"], "Detran.Diffusion.C52_balance_converged": ["Classical.choice", "Quot.sound", "propext"], "Detran.Diffusion.C52_conservation": ["Classical.choice", "Quot.sound", "propext"], "Detran.Diffusion.C52_rebuild": ["Classical.choice", "Quot.sound", "propext"], "Detran.Diffusion.C52_relaxed_counterexample": ["Classical.choice", "Quot.sound", "propext"], "Detran.Diffusion.C52_rebuild_dropped": ["Classical.choice", "Quot.sound", "propext"], "Detran.Restrict.C53_group_map": ["Classical.choice", "Quot.sound", "propext"], "Detran.Restrict.C53_restrict_complete_iff": ["Classical.choice", "Quot.sound", "propext"], "Detran.Restrict.C53_restrict_rows": ["Classical.choice", "Quot.sound", "propext"], "Detran.Restrict.C53_restrict_flat": ["Classical.choice", "Quot.sound", "propext"], "Detran.Restrict.C53_restrict_integral": ["Classical.choice", "Quot.sound", "propext"], "Detran.Restrict.C53_prolong_rows": ["Classical.choice", "Quot.sound", "propext"], "Detran.Restrict.C53_nth_build": ["Classical.choice", "Quot.sound", "propext"], "Detran.Restrict.C53_identity_partial": ["Classical.choice", "Quot.sound", "propext"], "Detran.Restrict.C53_forward_defined": ["Quot.sound", "propext"], "Detran.Restrict.C53_second_build": ["Classical.choice", "Quot.sound", "propext"], "Detran.Restrict.C53_adjoint_undefined": ["Quot.sound", "propext"], "Detran.Restrict.C53_operator_size": ["Classical.choice", "Quot.sound", "propext"], "Detran.Restrict.C53_fits_one_dimensional": ["Classical.choice", "Quot.sound", "propext"], "Detran.Restrict.C53_fits_even": ["Classical.choice", "Quot.sound", "propext"], "Detran.Restrict.C53_dropped_entries": ["Classical.choice", "Quot.sound", "propext"], "Detran.Restrict.C53_adjoint_wrong": ["Classical.choice", "Quot.sound", "propext"], "Detran.Restrict.C53_claim_fails": ["Classical.choice", "Quot.sound", "propext"], "Detran.Parser.C54_one_dimension_partial": ["Classical.choice", "Quot.sound", "propext"], "Detran.Parser.C54_two_dimensions_partial": ["Classical.choice", "Quot.sound", "propext"], "Detran.Parser.C54_fine_rejected": ["Quot.sound", "propext"], "Detran.Parser.C54_three_dimensions_partial": ["Classical.choice", "Quot.sound", "propext"], "Detran.Parser.C54_claim_fails": ["Classical.choice", "Quot.sound", "propext"], "Detran.Parser.C54_wrong_counts": ["Classical.choice", "Quot.sound", "propext"], "Detran.Parser.C54_inconsistent_undefined": ["Classical.choice", "Quot.sound", "propext"], "Detran.Parser.C54_documented_rejected": ["Classical.choice", "Quot.sound", "propext"], "Detran.Rates.C55_region_power": ["Classical.choice", "Quot.sound", "propext"], "Detran.Rates.C55_power_normalised": ["Classical.choice", "Quot.sound", "propext"], "Detran.Rates.C55_edit_sum": ["Classical.choice", "Quot.sound", "propext"], "Detran.Rates.C55_edit_mean_exact": ["Classical.choice", "Quot.sound", "propext"], "Detran.Rates.C55_edit_mean_partial": ["Classical.choice", "Quot.sound", "propext"], "Detran.Rates.C55_mean_wrong": ["Classical.choice", "Quot.sound", "propext"], "Detran.Rates.C55_claim_fails": ["Classical.choice", "Quot.sound", "propext"], "Detran.Rates.C55_mean_undefined": ["Classical.choice", "Quot.sound", "propext"], "Detran.EigenPI.C56_reported": ["Classical.choice", "Quot.sound", "propext"], "Detran.EigenPI.C56_no_iterations": ["Quot.sound", "propext"], "Detran.EigenPI.C56_estimate": ["Classical.choice", "Quot.sound", "propext"], "Detran.EigenPI.C56_norm": ["Classical.choice", "Quot.sound", "propext"], "Detran.EigenPI.C56_power_method": ["Classical.choice", "Quot.sound", "propext"], "Detran.EigenPI.C56_stopped": ["Classical.choice", "Quot.sound", "propext"], "Detran.EigenPI.C56_eigenvalue_error": ["Classical.choice", "Quot.sound", "propext"], "Detran.EigenPI.C56_relaxed_eigenpair": ["Classical.choice", "Quot.sound", "propext"], "Detran.EigenPI.C56_eigenpair": ["Classical.choice", "Quot.sound", "propext"], "Detran.EigenPI.C56_claim_fails": ["Classical.choice", "Quot.sound", "propext"], "Detran.MGSolve.C57_cover_partial": ["Classical.choice", "Quot.sound", "propext"], "Detran.MGSolve.C57_adjoint_cutoff_accepted": ["Classical.choice", "Quot.sound", "propext"], "Detran.MGSolve.C57_claim_fails": ["Classical.choice", "Quot.sound", "propext"], "Detran.MGSolve.C57_default_cutoff": ["Classical.choice", "Quot.sound", "propext"], "Detran.MGSolve.C57_multiply": ["Classical.choice", "Quot.sound", "propext"], "Detran.MGSolve.C57_offsets": ["Classical.choice", "Quot.sound", "propext"], "Detran.MGSolve.C57_layout": ["Classical.choice", "Quot.sound", "propext"], "Detran.MGSolve.C57_scatter_forward": ["Classical.choice", "Quot.sound", "propext"], "Detran.MGSolve.C57_scatter_adjoint_undefined": ["Classical.choice", "Quot.sound", "propext"], "Detran.Geom.C58_contains_partial": ["Quot.sound", "propext"], "Detran.Geom.C58_box_ignored": ["Classical.choice", "Quot.sound", "propext"], "Detran.Geom.C58_contains_in_box": ["Quot.sound", "propext"], "Detran.Geom.C58_box_exact": ["Classical.choice", "Quot.sound", "propext"], "Detran.Geom.C58_face_missed": ["Classical.choice", "Quot.sound", "propext"], "Detran.Geom.C58_no_box_rejected": ["Classical.choice", "Quot.sound", "propext"], "Detran.Kin.C59_equation": ["Classical.choice", "Quot.sound", "propext"], "Detran.Kin.C59_angular": ["Classical.choice", "Quot.sound", "propext"], "Detran.Kin.C59_update": ["Quot.sound", "propext"], "Detran.Util.C60_linspace": ["Classical.choice", "Quot.sound", "propext"], "Detran.Util.C60_linspace_one": ["Quot.sound", "propext"], "Detran.Util.C60_linspaceCenter": ["Classical.choice", "Quot.sound", "propext"], "Detran.Util.C60_vecUnique": ["Quot.sound", "propext"], "Detran.Util.C60_reversible_traverse": ["Quot.sound", "propext"], "Detran.Util.C60_reversible_initial": ["Classical.choice", "Quot.sound", "propext"], "Detran.Util.C60_vector_helpers": ["Quot.sound", "propext"], "Detran.Lattice.C61_uniform_pin_mesh": ["Classical.choice", "Quot.sound", "propext"], "Detran.Lattice.C61_best_fit_count": ["Classical.choice", "Quot.sound", "propext"], "Detran.Lattice.C61_best_fit_edges": ["Classical.choice", "Quot.sound", "propext"], "Detran.Lattice.C61_best_fit_fuel_area": ["Classical.choice", "Quot.sound", "propext"], "Detran.Lattice.C61_best_fit_thin_pin": ["Classical.choice", "Quot.sound", "propext"], "Detran.Material.C62_last_write": ["Quot.sound", "propext"], "Detran.Material.C62_nu_sigma_f": ["Classical.choice", "Quot.sound", "propext"], "Detran.Material.C62_set_nu_sigma_f_lost": ["Classical.choice", "Quot.sound", "propext"], "Detran.Material.C62_compute_sigma_a": ["Classical.choice", "Quot.sound", "propext"], "Detran.Material.C62_compute_diff_coef": ["Classical.choice", "Quot.sound", "propext"], "Detran.Sweep.C63_schemes_flat": ["Classical.choice", "Quot.sound", "propext"], "Detran.Sweep.C63_flat_1D": ["Classical.choice", "Quot.sound", "propext"], "Detran.Sweep.C63_flat_2D": ["Classical.choice", "Quot.sound", "propext"], "Detran.Sweep.C63_flat_3D": ["Classical.choice", "Quot.sound", "propext"], "Detran.Angle.C64_slots_complete": ["Classical.choice", "Quot.sound", "propext"], "Detran.Angle.C64_azimuth_order": ["Classical.choice", "Quot.sound", "propext"], "Detran.Angle.C64_azimuth_order_horizontal": ["Classical.choice", "Quot.sound", "propext"], "Detran.Angle.C64_polar_order": ["Classical.choice", "Quot.sound", "propext"], "Detran.Angle.C65_product_tables": ["Classical.choice", "Quot.sound", "propext"], "Detran.Angle.C65_product_total": ["Classical.choice", "Quot.sound", "propext"], "Detran.Angle.C65_sphere": ["Classical.choice", "Quot.sound", "propext"], "Detran.Angle.C65_unit": ["Classical.choice", "Quot.sound", "propext"], "Detran.Angle.C65_verify": ["Classical.choice", "Quot.sound", "propext"], "Detran.Angle.C65_uniform": ["Classical.choice", "Quot.sound", "propext"], "Detran.Angle.C65_uniform_points": ["Classical.choice", "Quot.sound", "propext"], "Detran.Angle.C65_scale_shift": ["Classical.choice", "Quot.sound", "propext"], "Detran.Angle.C65_simpson_weights": ["Quot.sound", "propext"], "Detran.Angle.C65_simpson_partial": ["Classical.choice", "Quot.sound", "propext"], "Detran.Angle.C65_simpson_quadratic": ["Classical.choice", "Quot.sound", "propext"], "Detran.Angle.C65_simpson_short": ["Classical.choice", "Quot.sound", "propext"], "Detran.Angle.C65_simpson_short_witness": ["Classical.choice", "Quot.sound", "propext"], "Detran.Angle.C65_doubled": ["Classical.choice", "Quot.sound", "propext"], "Detran.Angle.C66_addition": ["Classical.choice", "Quot.sound", "propext"], "Detran.Angle.C66_parity": ["Classical.choice", "Quot.sound", "propext"], "Detran.Angle.C66_flip_z": ["Classical.choice", "Quot.sound", "propext"], "Detran.Angle.C66_legendre": ["Classical.choice", "Quot.sound", "propext"], "Detran.Angle.C66_high_degree": ["Quot.sound", "propext"], "Detran.Angle.C66_round_trip": ["Classical.choice", "Quot.sound", "propext"], "Detran.Angle.C66_decimals": ["Classical.choice", "Quot.sound", "propext"], "Detran.Boundary.C67_set": ["Classical.choice", "Quot.sound", "propext"], "Detran.Boundary.C67_set_covers": ["Quot.sound", "propext"], "Detran.Boundary.C67_fixed_kept": ["Quot.sound", "propext"], "Detran.Boundary.C67_names": ["Classical.choice", "Quot.sound", "propext"], "Detran.Geom.C68_pieces_inside": ["Classical.choice", "Quot.sound", "propext"], "Detran.Geom.C68_pieces_cover": ["Classical.choice", "Quot.sound", "propext"], "Detran.Geom.C68_segments": ["Quot.sound", "propext"], "Detran.Geom.C68_track_ray": ["Classical.choice", "Quot.sound", "propext"], "Detran.Geom.C68_empty_points_ub": ["Classical.choice", "Quot.sound", "propext"], "Detran.Geom.C68_defined": ["Quot.sound", "propext"], "Detran.Geom.C69_pin_partition": ["Classical.choice", "Quot.sound", "propext"], "Detran.Geom.C69_pin_material": ["Classical.choice", "Quot.sound", "propext"], "Detran.Geom.C69_offset_overlap": ["Classical.choice", "Quot.sound", "propext"], "Detran.Geom.C69_planes_misplaced": ["Classical.choice", "Quot.sound", "propext"], "Detran.Geom.C70_find": ["Classical.choice", "Quot.sound", "propext"], "Detran.Geom.C70_outside": ["Classical.choice", "Quot.sound", "propext"], "Detran.Geom.C71_contains": ["Quot.sound", "propext"], "Detran.Geom.C71_box": ["Classical.choice", "Quot.sound", "propext"], "Detran.Geom.C71_box_wrong": ["Classical.choice", "Quot.sound", "propext"], "Detran.Geom.C71_row_segments": ["Classical.choice", "Quot.sound", "propext"], "Detran.Geom.C71_assembly": ["Classical.choice", "Quot.sound", "propext"], "Detran.Kin.C72_steps": ["Classical.choice", "Quot.sound", "propext"], "Detran.Kin.C72_limit": ["Quot.sound", "propext"], "Detran.Kin.C72_time": ["Quot.sound", "propext"], "Detran.Kin.C72_half_steps": ["Classical.choice", "Quot.sound", "propext"], "Detran.Kin.C73_midpoint": ["Classical.choice", "Quot.sound", "propext"], "Detran.Kin.C73_extrapolate": ["Classical.choice", "Quot.sound", "propext"], "Detran.Kin.C73_angular": ["Classical.choice", "Quot.sound", "propext"], "Detran.Kin.C74_balance": ["Classical.choice", "Quot.sound", "propext"], "Detran.Kin.C74_steady": ["Classical.choice", "Quot.sound", "propext"], "Detran.Kin.C75_no_accumulation": ["Quot.sound", "propext"], "Detran.Kin.C75_wrapped": ["Quot.sound", "propext"], "Detran.Kin.C76_shape": ["Classical.choice", "Quot.sound", "propext"], "Detran.Kin.C76_decreasing": ["Classical.choice", "Quot.sound", "propext"], "Detran.Kin.C76_half_maximum": ["Classical.choice", "Quot.sound", "propext"], "Detran.Kin.C77_integral": ["Classical.choice", "Quot.sound", "propext"], "Detran.Kin.C78_iterations": ["Classical.choice", "Quot.sound", "propext"], "Detran.Kin.C78_residual_never_reported": ["Classical.choice", "Quot.sound", "propext"], "Detran.Orthog.C79_orthogonal": ["Classical.choice", "Quot.sound", "propext"], "Detran.Orthog.C79_columns": ["Classical.choice", "Quot.sound", "propext"], "Detran.Orthog.C79_dlp": ["Classical.choice", "Quot.sound", "propext"], "Detran.Orthog.C80_entries": ["Classical.choice", "Quot.sound", "propext"], "Detran.Orthog.C80_norm": ["Classical.choice", "Quot.sound", "propext"], "Detran.Orthog.C80_orthogonal": ["Classical.choice", "Quot.sound", "propext"], "Detran.Orthog.C80_dcp": ["Classical.choice", "Quot.sound", "propext"], "Detran.Orthog.C81_norm": ["Classical.choice", "Quot.sound", "propext"], "Detran.Orthog.C81_orthogonal": ["Classical.choice", "Quot.sound", "propext"], "Detran.Orthog.C81_dct": ["Classical.choice", "Quot.sound", "propext"], "Detran.Orthog.C82_orthonormal": ["Classical.choice", "Quot.sound", "propext"], "Detran.Orthog.C82_shape": ["Classical.choice", "Quot.sound", "propext"], "Detran.Orthog.C82_span": ["Classical.choice", "Quot.sound", "propext"], "Detran.Orthog.C82_weights_wrong": ["Classical.choice", "Quot.sound", "propext"], "Detran.Orthog.C83_legendre": ["Classical.choice", "Quot.sound", "propext"], "Detran.Orthog.C83_clp_partial": ["Classical.choice", "Quot.sound", "propext"], "Detran.Orthog.C83_clp_wrong": ["Classical.choice", "Quot.sound", "propext"], "Detran.Orthog.C83_jacobi": ["Classical.choice", "Quot.sound", "propext"], "Detran.Orthog.C84_recurrence_partial": ["Quot.sound", "propext"], "Detran.Orthog.C84_sine_partial": ["Classical.choice", "Quot.sound", "propext"], "Detran.Orthog.C84_wrong": ["Classical.choice", "Quot.sound", "propext"], "Detran.MGSolve.C85_krylov_partial": ["Classical.choice", "Quot.sound", "propext"], "Detran.MGSolve.C85_single_pass": ["Classical.choice", "Quot.sound", "propext"], "Detran.MGSolve.C85_gauss_seidel": ["Classical.choice", "Quot.sound", "propext"], "Detran.MGSolve.C85_material_cutoff": ["Classical.choice", "Quot.sound", "propext"], "Detran.MGSolve.C85_claim_fails": ["Classical.choice", "Quot.sound", "propext"], "Detran.MGSolve.C86_source_iteration": ["Classical.choice", "Quot.sound", "propext"], "Detran.MGSolve.C86_krylov_system": ["Classical.choice", "Quot.sound", "propext"], "Detran.MGSolve.C86_krylov_partial": ["Classical.choice", "Quot.sound", "propext"], "Detran.MGSolve.C86_operator_affine": ["Classical.choice", "Quot.sound", "propext"], "Detran.MGSolve.C86_discrete_source_wrong": ["Classical.choice", "Quot.sound", "propext"], "Detran.Parser.C87_words": ["Quot.sound", "propext"], "Detran.Parser.C87_line": ["Classical.choice", "Quot.sound", "propext"], "Detran.Parser.C87_ignored": ["Classical.choice", "Quot.sound", "propext"], "Detran.Parser.C87_last_line": ["Classical.choice", "Quot.sound", "propext"], "Detran.Parser.C87_absent": ["Classical.choice", "Quot.sound", "propext"], "Detran.Parser.C88_last_row": ["Classical.choice", "Quot.sound", "propext"], "Detran.Parser.C88_last_scatter": ["Classical.choice", "Quot.sound", "propext"], "Detran.Parser.C88_defaults": ["Classical.choice", "Quot.sound", "propext"], "Detran.Parser.C88_production": ["Classical.choice", "Quot.sound", "propext"], "Detran.Parser.C88_ignored": ["Classical.choice", "Quot.sound", "propext"], "Detran.Parser.C88_wrong_length": ["Classical.choice", "Quot.sound", "propext"], "Detran.Parser.C88_claim_fails": ["Classical.choice", "Quot.sound", "propext"], "Detran.QuadTables.C89_supported": ["Classical.choice", "Quot.sound", "propext"], "Detran.QuadTables.C89_count": ["Classical.choice", "Quot.sound", "propext"], "Detran.QuadTables.C89_unit": ["Classical.choice", "Quot.sound", "propext"], "Detran.QuadTables.C89_symmetric": ["Classical.choice", "Quot.sound", "propext"], "Detran.QuadTables.C89_moments": ["Classical.choice", "Quot.sound", "propext"], "Detran.QuadTables.C89_total": ["Classical.choice", "Quot.sound", "propext"], "Detran.QuadTables.C89_claim_fails": ["Classical.choice", "Quot.sound", "propext"], "Detran.QuadTables.C89_positive_partial": ["Classical.choice", "Quot.sound", "propext"], "Detran.QuadGen.C90_exact_partial": ["Classical.choice", "Quot.sound", "propext"], "Detran.QuadGen.C90_from_roots": ["Classical.choice", "Quot.sound", "propext"], "Detran.QuadGen.C90_symmetric": ["Classical.choice", "Quot.sound", "propext"], "Detran.QuadGen.C90_odd": ["Classical.choice", "Quot.sound", "propext"], "Detran.QuadGen.C90_double": ["Classical.choice", "Quot.sound", "propext"], "Detran.QuadGen.C90_polar_double": ["Classical.choice", "Quot.sound", "propext"], "Detran.QuadGen.C90_interval_partial": ["Classical.choice", "Quot.sound", "propext"], "Detran.QuadGen.C90_positive": ["Classical.choice", "Quot.sound", "propext"], "Detran.QuadGen.C90_polar_gauss": ["Classical.choice", "Quot.sound", "propext"], "Detran.QuadGen.C90_newton": ["Classical.choice", "Quot.sound", "propext"], "Detran.QuadGen.C90_double_set_partial": ["Classical.choice", "Quot.sound", "propext"], "Detran.QuadGen.C91_exact": ["Classical.choice", "Quot.sound", "propext"], "Detran.QuadGen.C91_total": ["Classical.choice", "Quot.sound", "propext"], "Detran.QuadGen.C91_claim_fails": ["Classical.choice", "Quot.sound", "propext"], "Detran.QuadGen.C91_normalised": ["Classical.choice", "Quot.sound", "propext"], "Detran.QuadGen.C91_double_set": ["Classical.choice", "Quot.sound", "propext"], "Detran.QuadGen.C91_polar_normalised": ["Classical.choice", "Quot.sound", "propext"], "Detran.QuadGen.C91_azimuthal_normalised": ["Classical.choice", "Quot.sound", "propext"], "Detran.QuadGen.C92_directions": ["Classical.choice", "Quot.sound", "propext"], "Detran.QuadGen.C92_weights": ["Classical.choice", "Quot.sound", "propext"], "Detran.QuadTables.C93_mirror": ["Classical.choice", "Quot.sound", "propext"], "Detran.QuadTables.C93_mirrorTY": ["Classical.choice", "Quot.sound", "propext"], "Detran.QuadTables.C93_antisymmetric": ["Classical.choice", "Quot.sound", "propext"], "Detran.QuadTables.C93_asdr_supported": ["Classical.choice", "Quot.sound", "propext"], "Detran.QuadTables.C93_asqr_supported": ["Classical.choice", "Quot.sound", "propext"], "Detran.QuadTables.C93_double_range": ["Classical.choice", "Quot.sound", "propext"], "Detran.QuadTables.C93_quadruple_range": ["Classical.choice", "Quot.sound", "propext"], "Detran.QuadTables.C93_ty_partial": ["Classical.choice", "Quot.sound", "propext"], "Detran.QuadTables.C93_claim_fails": ["Classical.choice", "Quot.sound", "propext"], "Detran.QuadTables.C93_tg": ["Classical.choice", "Quot.sound", "propext"], "Detran.QuadTables.C94_product_partial": ["Classical.choice", "Quot.sound", "propext"], "Detran.QuadTables.C94_asqr_tg": ["Classical.choice", "Quot.sound", "propext"], "Detran.QuadTables.C94_norm_ignored": ["Classical.choice", "Quot.sound", "propext"], "Detran.QuadTables.C94_claim_fails": ["Classical.choice", "Quot.sound", "propext"], "Detran.QuadTables.C94_polar": ["Classical.choice", "Quot.sound", "propext"], "Detran.QuadTables.C94_default": ["Classical.choice", "Quot.sound", "propext"], "Detran.QuadTables.C94_other": ["Classical.choice", "Quot.sound", "propext"], "Detran.QuadTables.C94_rejected": ["Classical.choice", "Quot.sound", "propext"], "Detran.QuadTables.C94_user": ["Classical.choice", "Quot.sound", "propext"], "Detran.QuadTables.C94_user_ub": ["Classical.choice", "Quot.sound", "propext"], "Detran.QuadTables.C94_user_missing": ["Classical.choice", "Quot.sound", "propext"], "Detran.Gmres.C95_outcome": ["Classical.choice", "Quot.sound", "propext"], "Detran.Gmres.C95_success": ["Classical.choice", "Quot.sound", "propext"], "Detran.Gmres.C95_no_growth": ["Classical.choice", "Quot.sound", "propext"], "Detran.Gmres.C95_optimal": ["Classical.choice", "Quot.sound", "propext"], "Detran.Gmres.C95_terminates": ["Classical.choice", "Quot.sound", "propext"], "Detran.Gmres.C96_claim_fails": ["Classical.choice", "Quot.sound", "propext"], "Detran.Gmres.C96_status_partial": ["Classical.choice", "Quot.sound", "propext"], "Detran.Gmres.C96_exact_guess": ["Classical.choice", "Quot.sound", "propext"], "Detran.Gmres.C96_database_preconditioner": ["Quot.sound", "propext"], "Detran.Gmres.C96_set_preconditioner": ["propext"], "Detran.Moc.C97_segment_balance": ["Classical.choice", "Quot.sound", "propext"], "Detran.Moc.C97_split": ["Classical.choice", "Quot.sound", "propext"], "Detran.Moc.C97_setup": ["Quot.sound", "propext"], "Detran.Moc.C97_stale_angle": ["Quot.sound", "propext"], "Detran.Moc.C97_void": ["Classical.choice", "Quot.sound", "propext"], "Detran.Moc.C97_flat": ["Classical.choice", "Quot.sound", "propext"], "Detran.Moc.C97_track_balance": ["Classical.choice", "Quot.sound", "propext"], "Detran.Moc.C97_claim_fails": ["Classical.choice", "Quot.sound", "propext"], "Detran.Moc.C97_segment_exact": ["Classical.choice", "Quot.sound", "propext"], "Detran.Moc.C97_solution_exists": ["Classical.choice", "Quot.sound", "propext"], "Detran.Moc.C97_solve": ["Classical.choice", "Quot.sound", "propext"], "Detran.Moc.C97_positive": ["Classical.choice", "Quot.sound", "propext"], "Detran.Moc.C97_void_solution": ["Classical.choice", "Quot.sound", "propext"], "Detran.EigenSolve.C98_outcome": ["Classical.choice", "Quot.sound", "propext"], "Detran.EigenSolve.C98_defined": ["Classical.choice", "Quot.sound", "propext"], "Detran.EigenSolve.C98_success": ["Classical.choice", "Quot.sound", "propext"], "Detran.EigenSolve.C98_eigenvector_partial": ["Classical.choice", "Quot.sound", "propext"], "Detran.EigenSolve.C98_never_negative": ["Classical.choice", "Quot.sound", "propext"], "Detran.EigenSolve.C98_claim_fails": ["Classical.choice", "Quot.sound", "propext"], "Detran.EigenSolve.C98_negative": ["Classical.choice", "Quot.sound", "propext"], "Detran.EigenSolve.C98_raised_limit": ["Classical.choice", "Quot.sound", "propext"], "Detran.EigenSolve.C98_zero": ["Classical.choice", "Quot.sound", "propext"], "Detran.EigenSolve.C98_operator": ["Quot.sound", "propext"], "Detran.EigenSolve.C98_stale_B": [], "Detran.EigenSolve.C98_ops_claim_fails": ["propext"], "Detran.EigenSolve.C98_ops_partial": [], "Detran.EigenSolve.C98_preconditioner_null": [], "Detran.EigenSolve.C98_converges": ["Classical.choice", "Quot.sound", "propext"], "Detran.EigenSolve.C98_dominant": ["Classical.choice", "Quot.sound", "propext"], "Detran.EigenSolve.C99_residual": ["Classical.choice", "Quot.sound", "propext"], "Detran.EigenSolve.C99_galerkin": ["Classical.choice", "Quot.sound", "propext"], "Detran.EigenSolve.C99_direction": ["Classical.choice", "Quot.sound", "propext"], "Detran.EigenSolve.C99_outcome": ["Classical.choice", "Quot.sound", "propext"], "Detran.EigenSolve.C99_defined": ["Classical.choice", "Quot.sound", "propext"], "Detran.EigenSolve.C99_rayleigh_ritz": ["Classical.choice", "Quot.sound", "propext"], "Detran.EigenSolve.C99_rayleigh": ["Classical.choice", "Quot.sound", "propext"], "Detran.EigenSolve.C99_exact_preconditioner": ["Classical.choice", "Quot.sound", "propext"], "Detran.EigenSolve.C99_size_one": ["Classical.choice", "Quot.sound", "propext"], "Detran.EigenSolve.C99_claim_fails": ["Classical.choice", "Quot.sound", "propext"], "Detran.EigenSolve.C99_limit_one": ["Classical.choice", "Quot.sound", "propext"], "Detran.EigenSolve.C99_size_zero": ["Quot.sound", "propext"], "Detran.EigenSolve.C99_pick": ["Classical.choice", "Quot.sound", "propext"], "Detran.EigenSolve.C99_eispack": ["Classical.choice", "Quot.sound", "propext"], "Detran.EigenSolve.C100_defaults": ["Quot.sound", "propext"], "Detran.EigenSolve.C100_linear": ["Classical.choice", "Quot.sound", "propext"], "Detran.EigenSolve.C100_linear_error": ["Classical.choice", "Quot.sound", "propext"], "Detran.EigenSolve.C100_eigen": ["Classical.choice", "Quot.sound", "propext"], "Detran.EigenSolve.C100_claim_fails": ["Classical.choice", "Quot.sound", "propext"], "Detran.Diffusion.C101_flux": ["Classical.choice", "Quot.sound", "propext"], "Detran.Diffusion.C101_source": ["Classical.choice", "Quot.sound", "propext"], "Detran.Diffusion.C101_partial_currents": ["Classical.choice", "Quot.sound", "propext"], "Detran.Diffusion.C101_cell_balance": ["Classical.choice", "Quot.sound", "propext"], "Detran.Diffusion.C101_global_balance": ["Classical.choice", "Quot.sound", "propext"], "Detran.Diffusion.C101_boundary_partial": ["Classical.choice", "Quot.sound", "propext"], "Detran.Diffusion.C101_reflect_outflow": ["Classical.choice", "Quot.sound", "propext"], "Detran.Diffusion.C101_refresh": ["Classical.choice", "Quot.sound", "propext"], "Detran.Diffusion.C101_refresh_adjoint": ["Quot.sound", "propext"], "Detran.Diffusion.C101_current_partial": ["Classical.choice", "Quot.sound", "propext"], "Detran.Diffusion.C101_current_flat": ["Quot.sound", "propext"], "Detran.Diffusion.C101_claim_fails": ["Classical.choice", "Quot.sound", "propext"], "Detran.Diffusion.C101_refresh_claim_fails": ["Classical.choice", "Quot.sound", "propext"], "Detran.Diffusion.C101_current_claim_fails": ["Classical.choice", "Quot.sound", "propext"], "Detran.Sources.C102_integral": ["Classical.choice", "Quot.sound", "propext"], "Detran.Sources.C102_isotropic": ["Quot.sound", "propext"], "Detran.Sources.C102_discrete": ["Quot.sound", "propext"], "Detran.Sources.C102_undefined": ["Quot.sound", "propext"], "Detran.Sources.C102_sweep_total": ["Classical.choice", "Quot.sound", "propext"], "Detran.Sources.C102_flag": ["Quot.sound", "propext"], "Detran.Managers.C103_solve_iff": ["Quot.sound", "propext"], "Detran.Managers.C103_problem": ["Classical.choice", "Quot.sound", "propext"], "Detran.Managers.C103_options": ["Classical.choice", "Quot.sound", "propext"], "Detran.Managers.C103_claim_fails": ["Classical.choice", "Quot.sound", "propext"], "Detran.Managers.C104_direct_partial": ["Quot.sound", "propext"], "Detran.Managers.C104_vanish": ["Quot.sound", "propext"], "Detran.Managers.C104_refreshed": ["Quot.sound", "propext"], "Detran.Managers.C104_series": ["Classical.choice", "Quot.sound", "propext"], "Detran.Managers.C104_claim_fails": ["Classical.choice", "Quot.sound", "propext"], "Detran.Managers.C105_choice": ["Classical.choice", "Quot.sound", "propext"], "Detran.Managers.C105_construct": ["Classical.choice", "Quot.sound", "propext"], "Detran.Managers.C105_ready_partial": ["Classical.choice", "Quot.sound", "propext"], "Detran.Managers.C105_claim_fails": ["Classical.choice", "Quot.sound", "propext"], "Detran.Managers.C105_skipped": ["Classical.choice", "Quot.sound", "propext"], "Detran.Diffusion.C106_equation": ["Classical.choice", "Quot.sound", "propext"], "Detran.Diffusion.C106_loss_transpose": ["Classical.choice", "Quot.sound", "propext"], "Detran.Diffusion.C106_adjoint_partial": ["Classical.choice", "Quot.sound", "propext"], "Detran.Diffusion.C106_forward_gain": ["Classical.choice", "Quot.sound", "propext"], "Detran.Diffusion.C106_claim_fails": ["Classical.choice", "Quot.sound", "propext"], "Detran.CmfdUpd.C107_shape": ["Classical.choice", "Quot.sound", "propext"], "Detran.CmfdUpd.C107_restricted": ["Classical.choice", "Quot.sound", "propext"], "Detran.CmfdUpd.C107_positive": ["Classical.choice", "Quot.sound", "propext"], "Detran.CmfdUpd.C107_identity": ["Classical.choice", "Quot.sound", "propext"], "Detran.CmfdUpd.C107_consistent_partial": ["Classical.choice", "Quot.sound", "propext"], "Detran.CmfdUpd.C107_fixed_point_partial": ["Classical.choice", "Quot.sound", "propext"], "Detran.CmfdUpd.C107_discrete_dropped": ["Quot.sound", "propext"], "Detran.CmfdUpd.C107_keff_ignored": ["Quot.sound", "propext"], "Detran.CmfdUpd.C107_loop": ["Quot.sound", "propext"], "Detran.CmfdUpd.C107_kept": ["Quot.sound", "propext"], "Detran.CmfdUpd.C107_claim_fails": ["Classical.choice", "Quot.sound", "propext"], "Detran.CmfdUpd.C107_wrong_answer": ["Classical.choice", "Quot.sound", "propext"], "Detran.CmfdUpd.C107_current": ["Classical.choice", "Quot.sound", "propext"], "Detran.CmfdUpd.C107_current_partial": ["Classical.choice", "Quot.sound", "propext"], "Detran.CmfdUpd.C107_current_claim_fails": ["Classical.choice", "Quot.sound", "propext"], "Detran.CmfdUpd.C108_pair_partial": ["Classical.choice", "Quot.sound", "propext"], "Detran.CmfdUpd.C108_fixed_point_partial": ["Classical.choice", "Quot.sound", "propext"], "Detran.CmfdUpd.C108_zero_gain": ["Classical.choice", "Quot.sound", "propext"], "Detran.CmfdUpd.C108_wrong_eigenvalue": ["Classical.choice", "Quot.sound", "propext"], "Detran.CmfdUpd.C108_claim_fails": ["Classical.choice", "Quot.sound", "propext"], "Detran.CmfdUpd.C108_loop": ["Quot.sound", "propext"], "Detran.EigenOps.C109_operator": ["Classical.choice", "Quot.sound", "propext"], "Detran.EigenOps.C109_flux_partial": ["Classical.choice", "Quot.sound", "propext"], "Detran.EigenOps.C109_complete": ["Classical.choice", "Quot.sound", "propext"], "Detran.EigenOps.C109_guess": ["Classical.choice", "Quot.sound", "propext"], "Detran.EigenOps.C109_overrun": ["Quot.sound", "propext"], "Detran.EigenOps.C109_claim_fails": ["Classical.choice", "Quot.sound", "propext"], "Detran.EigenOps.C110_pair_partial": ["Classical.choice", "Quot.sound", "propext"], "Detran.EigenOps.C110_setup": ["Classical.choice", "Quot.sound", "propext"], "Detran.EigenOps.C110_override": ["Classical.choice", "Quot.sound", "propext"], "Detran.EigenOps.C110_downscatter_null": ["Classical.choice", "Quot.sound", "propext"], "Detran.EigenOps.C110_claim_fails": ["Classical.choice", "Quot.sound", "propext"], "Detran.Precond.C111_within_group": ["Classical.choice", "Quot.sound", "propext"], "Detran.Precond.C111_multigroup_partial": ["Classical.choice", "Quot.sound", "propext"], "Detran.Precond.C111_within_regular": ["Classical.choice", "Quot.sound", "propext"], "Detran.Precond.C111_multigroup_regular_partial": ["Classical.choice", "Quot.sound", "propext"], "Detran.Precond.C111_same_solutions": ["Quot.sound", "propext"], "Detran.Precond.C111_right_residual": ["Classical.choice", "Quot.sound", "propext"], "Detran.Precond.C111_boundary_zero": ["Quot.sound", "propext"], "Detran.Precond.C111_boundary_frozen": ["Classical.choice", "Quot.sound", "propext"], "Detran.Precond.C111_adjoint_overrun": ["Quot.sound", "propext"], "Detran.Precond.C111_coarse": ["Quot.sound", "propext"], "Detran.Precond.C111_correction_error": ["Classical.choice", "Quot.sound", "propext"], "Detran.Precond.C111_fine_correction": ["Classical.choice", "Quot.sound", "propext"], "Detran.Precond.C111_no_fine_correction": ["Quot.sound", "propext"], "Detran.Precond.C111_corrected_injective": ["Classical.choice", "Quot.sound", "propext"], "Detran.Precond.C111_claim_fails": ["Classical.choice", "Quot.sound", "propext"], "Detran.Precond.C111_scale_singular": ["Classical.choice", "Quot.sound", "propext"], "Detran.Precond.C111_wrong_answer": ["Classical.choice", "Quot.sound", "propext"]}