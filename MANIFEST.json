{
 "claims": [
  {
   "property": "C01",
   "status": "proved",
   "theorems": [
    "Detran.Mesh.C01_index_roundtrip",
    "Detran.Mesh.C01_index_bijective",
    "Detran.Mesh.C01_overflow_collision"
   ],
   "note": "Exact under the hypothesis that the cell count fits 32 bits; collision witness beyond it."
  },
  {
   "property": "C02",
   "status": "proved",
   "theorems": [
    "Detran.Mesh.C02_coarse_cells_partition",
    "Detran.Mesh.C02_fine_cell_gets_coarse_material",
    "Detran.Mesh.C02_short_map_undefined",
    "Detran.Mesh.C02_mesh_map_is_last_added"
   ],
   "note": "Includes the undefined-behaviour outcome for a coarse map that is too short, and the key lookup history."
  },
  {
   "property": "C03",
   "status": "proved",
   "theorems": [
    "Detran.Mesh.C03_widths_fill_domain",
    "Detran.Mesh.C03_volumes_fill_domain"
   ],
   "note": "Exact arithmetic."
  },
  {
   "property": "C04",
   "status": "proved",
   "theorems": [
    "Detran.Mesh.C04_find_cell_contains",
    "Detran.Mesh.C04_cell_unique",
    "Detran.Mesh.C04_offset_mesh_mislocates"
   ],
   "note": "Coordinates are measured from the low corner; a mesh whose first edge is not zero is mislocated (witness)."
  },
  {
   "property": "C05",
   "status": "proved",
   "theorems": [
    "Detran.Util.C05_get_is_last_put",
    "Detran.Util.C05_check_iff_put",
    "Detran.Util.C05_put_isolated",
    "Detran.Util.C05_check_does_not_guard_get",
    "Detran.Util.C05_size_counts_keys",
    "Detran.Util.C05_keysOf_spec"
   ],
   "note": "Six typed maps over arbitrary put histories; get of a key stored only under another type is the undefined-behaviour outcome."
  },
  {
   "property": "C06",
   "status": "proved",
   "theorems": [
    "Detran.Util.C06_lookup_is_first",
    "Detran.Util.C06_register_result",
    "Detran.Util.C06_isRegistered"
   ],
   "note": ""
  },
  {
   "property": "C07",
   "status": "proved",
   "theorems": [
    "Detran.Util.C07_range_ascending",
    "Detran.Util.C07_range_descending",
    "Detran.Util.C07_range_self",
    "Detran.Util.C07_range_reversed_not_empty"
   ],
   "note": ""
  },
  {
   "property": "C08",
   "status": "proved",
   "theorems": [
    "Detran.Matrix.C08_multiply",
    "Detran.Matrix.C08_multiply_all"
   ],
   "note": "Assembled from any history of single insertions with any sort of each row."
  },
  {
   "property": "C09",
   "status": "proved",
   "theorems": [
    "Detran.Matrix.C09_assemble_defined_iff",
    "Detran.Matrix.C09_shape",
    "Detran.Matrix.C09_no_diagonal_below_square",
    "Detran.Matrix.C09_strict_columns",
    "Detran.Matrix.C09_add_only_nodup",
    "Detran.Matrix.C09_empty_row_undefined",
    "Detran.Matrix.C09_clear",
    "Detran.Matrix.C09_refill"
   ],
   "note": "Square rows proved; an empty row makes assembly undefined, rows at or beyond the column count get no diagonal pointer, and a column inserted twice without ADD leaves duplicates (each stated exactly)."
  },
  {
   "property": "C10",
   "status": "proved",
   "theorems": [
    "Detran.Dense.C10_dense_adjoint",
    "Detran.Matrix.C10_adjoint_of_columns",
    "Detran.Matrix.C10_transpose_adjoint",
    "Detran.Matrix.C10_transpose_entries"
   ],
   "note": "Sparse and dense."
  },
  {
   "property": "C11",
   "status": "partial",
   "theorems": [
    "Detran.Matrix.C11_offdiagonal_always_zero",
    "Detran.Matrix.C11_diagonal_partial",
    "Detran.Matrix.C11_counterexample",
    "Detran.Matrix.C11_copy"
   ],
   "note": "Diagonal reads are correct; every off-diagonal read returns 0 (negation proved)."
  },
  {
   "property": "C12",
   "status": "partial",
   "theorems": [
    "Detran.Matrix.C12_return_values",
    "Detran.Matrix.C12_failed_insert_no_change",
    "Detran.Matrix.C12_capacity_respected",
    "Detran.Matrix.C12_preallocate_const",
    "Detran.Matrix.C12_insert_row",
    "Detran.Matrix.C12_add_row",
    "Detran.Matrix.C12_insert_triplets",
    "Detran.Matrix.C12_insert_column",
    "Detran.Matrix.C12_triplets_overflow",
    "Detran.Matrix.C12_add_row_not_atomic"
   ],
   "note": "Single insertions: exact return values, no change on failure, capacity respected. The multi-entry forms are not atomic and triplet insertion overflows the row buffer (witnesses)."
  },
  {
   "property": "C13",
   "status": "proved",
   "theorems": [
    "Detran.Dense.C13_storage",
    "Detran.Dense.C13_multiply",
    "Detran.Dense.C13_copy",
    "Detran.Dense.C13_row_overflow_aliases"
   ],
   "note": "In-range calls; the unchecked row bound aliases into the next column (stated)."
  },
  {
   "property": "C14",
   "status": "partial",
   "theorems": [
    "Detran.Dense.C14_sorted",
    "Detran.Dense.C14_verify",
    "Detran.Dense.C14_insert_effect",
    "Detran.Dense.C14_insert_return",
    "Detran.Dense.C14_map_partial",
    "Detran.Dense.C14_insert_zero_ignored",
    "Detran.Dense.C14_read",
    "Detran.Dense.C14_range",
    "Detran.Dense.C14_range_inconsistent",
    "Detran.Dense.C14_add_range",
    "Detran.Dense.C14_range_return",
    "Detran.Dense.C14_of_array"
   ],
   "note": "Sortedness, return values and exact effect for all histories; INSERT of zero over a stored value is ignored (counterexample), so the plain-map claim is proved for histories without it. range(a,b) is neither closed nor half open (exact description proved)."
  },
  {
   "property": "C15",
   "status": "partial",
   "theorems": [
    "Detran.Solver.C15_ilut_apply",
    "Detran.Solver.C15_ilu0_apply_exact",
    "Detran.Solver.C15_ilu0_never_solves"
   ],
   "note": "PCILUT::apply solves the two systems. PCILU0::apply never does, for any nonzero right-hand side (proved)."
  },
  {
   "property": "C16",
   "status": "partial",
   "theorems": [
    "Detran.Solver.C16_upper_never_updated",
    "Detran.Solver.C16_zero_pivot_test",
    "Detran.Solver.C16_tridiagonal_factors",
    "Detran.Solver.C16_tridiagonal_diagonal",
    "Detran.Solver.C16_tridiagonal_only_if_uncoupled",
    "Detran.Solver.C16_upper_triangular_partial"
   ],
   "note": "ILU(0) never updates diagonal or upper entries; exact factors for tridiagonal matrices, reproduced only if uncoupled (proved both ways); zero first pivot unnoticed."
  },
  {
   "property": "C17",
   "status": "proved",
   "theorems": [
    "Detran.Solver.C17_jacobi_apply",
    "Detran.Solver.C17_jacobi_injective"
   ],
   "note": ""
  },
  {
   "property": "C18",
   "status": "proved",
   "theorems": [
    "Detran.Solver.C18_jacobi_difference",
    "Detran.Solver.C18_jacobi_fixed",
    "Detran.Solver.C18_gauss_seidel_difference",
    "Detran.Solver.C18_gauss_seidel_fixed",
    "Detran.Solver.C18_richardson_fixed",
    "Detran.Solver.C18_richardson_preconditioned",
    "Detran.Solver.C18_richardson_jacobi"
   ],
   "note": "Jacobi, Gauss-Seidel, Richardson with and without preconditioner."
  },
  {
   "property": "C19",
   "status": "partial",
   "theorems": [
    "Detran.Solver.C19_success_truthful",
    "Detran.Solver.C19_iteration_bound",
    "Detran.Solver.C19_definite_status_partial",
    "Detran.Solver.C19_earliest_stop",
    "Detran.Solver.C19_limit_one_unreported",
    "Detran.Solver.C19_reported_count",
    "Detran.Solver.C19_stale_count"
   ],
   "note": "Success truthful, count bounded, definite status for limit >= 2; limit 1 ends in 'running' (proved), early return leaves a stale count (proved). Model covers Jacobi, Gauss-Seidel and Richardson drivers."
  },
  {
   "property": "C20",
   "status": "partial",
   "theorems": [
    "Detran.Util.C20_normLinf_partial",
    "Detran.Util.C20_normLinf_counterexample",
    "Detran.Util.C20_normLinf_fails_iff",
    "Detran.Util.C20_normResLinf",
    "Detran.Util.C20_normL1",
    "Detran.Util.C20_normL2sq",
    "Detran.Util.C20_normResL1_is_sum",
    "Detran.Util.C20_normResL1_eq_zero_iff",
    "Detran.Util.C20_relative_residual_not_relative",
    "Detran.Util.C20_normL2_zero_iff",
    "Detran.Util.C20_vecMax_int",
    "Detran.Util.C20_vecMax_double_wrong",
    "Detran.Util.C20_vecMin"
   ],
   "note": "norm(x,Linf) and vec_max<double> violate the property: negations proved with witnesses and exact failure conditions; relative residual is not relative in its first component. Correct cases proved."
  },
  {
   "property": "C21",
   "status": "proved",
   "theorems": [
    "Detran.Material.C21_bounds_forward",
    "Detran.Material.C21_bounds_adjoint"
   ],
   "note": ""
  },
  {
   "property": "C22",
   "status": "partial",
   "theorems": [
    "Detran.Material.C22_bounds_history_independent",
    "Detran.Material.C22_cutoff_with_upscatter",
    "Detran.Material.C22_cutoff_without_upscatter",
    "Detran.Material.C22_adjoint_cutoff",
    "Detran.Material.C22_first_finalize_partial",
    "Detran.Material.C22_stale_cutoff_counterexample",
    "Detran.Material.C22_finalize_idempotent",
    "Detran.Material.C22_adjoint_flag_never_set",
    "Detran.Material.C22_set_downscatter_tran_changes_forward"
   ],
   "note": "Bounds are history independent. Cutoff is right on a first finalize and whenever upscatter exists; it is stale otherwise (counterexample), and the adjoint downscatter flag is never set."
  },
  {
   "property": "C23",
   "status": "proved",
   "theorems": [
    "Detran.Material.C23_in_scatter",
    "Detran.Material.C23_within_group"
   ],
   "note": ""
  },
  {
   "property": "C24",
   "status": "partial",
   "theorems": [
    "Detran.Material.C24_forward_partial",
    "Detran.Material.C24_adjoint_partial",
    "Detran.Material.C24_double_count",
    "Detran.Material.C24_counterexample"
   ],
   "note": "Exact formula proved; equals the intended sum iff the double-counted groups contribute nothing; counterexample given."
  },
  {
   "property": "C25",
   "status": "proved",
   "theorems": [
    "Detran.Material.C25_density",
    "Detran.Material.C25_sources_sum",
    "Detran.Material.C25_outer_eq_total",
    "Detran.Material.C25_within_plus_in",
    "Detran.Material.C25_adjoint_transpose",
    "Detran.Material.C25_scatter_transpose",
    "Detran.Material.C25_initialize"
   ],
   "note": ""
  },
  {
   "property": "C26",
   "status": "proved",
   "theorems": [
    "Detran.Sweep.C26_dd1_cell",
    "Detran.Sweep.C26_sd1_cell",
    "Detran.Sweep.C26_sc1_cell",
    "Detran.Sweep.C26_dd2_cell",
    "Detran.Sweep.C26_sd2_cell",
    "Detran.Sweep.C26_sc2_cell",
    "Detran.Sweep.C26_dd3_cell",
    "Detran.Sweep.C26_sweep_balance_1D",
    "Detran.Sweep.C26_sweep_balance_sc1",
    "Detran.Sweep.C26_sweep_balance_2D",
    "Detran.Sweep.C26_sweep_balance_sc2",
    "Detran.Sweep.C26_sweep_balance_3D"
   ],
   "note": "Cell identity for all seven schemes and the global balance for whole sweeps in 1-D, 2-D and 3-D, any octant order, any boundary update that only rewrites incident fluxes. Exact arithmetic; step characteristics for any function in place of exp."
  },
  {
   "property": "C27",
   "status": "proved",
   "theorems": [
    "Detran.Boundary.C27_boundary_linear",
    "Detran.Boundary.C27_boundary_nonneg",
    "Detran.Sweep.C27_schemes_linear",
    "Detran.Sweep.C27_sweep_linear_1D",
    "Detran.Sweep.C27_sweep_linear_2D",
    "Detran.Sweep.C27_sweep_linear_3D",
    "Detran.Sweep.C27_sd1_cell",
    "Detran.Sweep.C27_sd2_cell",
    "Detran.Sweep.C27_step_positive_1D",
    "Detran.Sweep.C27_step_positive_2D",
    "Detran.Sweep.C27_diamond_negative",
    "Detran.Sweep.C27_diamond_thin_positive",
    "Detran.Sweep.C27_sc1_cell",
    "Detran.Sweep.C27_sc2_cell",
    "Detran.Sweep.C27_sc_positive_1D",
    "Detran.Sweep.C27_sc_positive_2D",
    "Detran.Sweep.C27_sc1_exact"
   ],
   "note": "Linearity of all schemes and whole sweeps; positivity of step and step-characteristic sweeps (true exponential, non-void cells). Diamond difference is not positive (witness), positive in thin cells."
  },
  {
   "property": "C28",
   "status": "proved",
   "theorems": [
    "Detran.Sweep.C28_order_1D",
    "Detran.Sweep.C28_order_2D",
    "Detran.Sweep.C28_order_3D",
    "Detran.Sweep.C28_upwind_first",
    "Detran.Sweep.C28_sweep_solves_1D",
    "Detran.Sweep.C28_sweep_solves_2D",
    "Detran.Sweep.C28_sweep_solves_3D"
   ],
   "note": ""
  },
  {
   "property": "C29",
   "status": "proved",
   "theorems": [
    "Detran.Sweep.C29_exchange_sort",
    "Detran.Sweep.C29_order_permutation",
    "Detran.Sweep.C29_vacuum_first",
    "Detran.Sweep.C29_vacuum_only_octants_lead",
    "Detran.Sweep.C29_user_order_unchecked",
    "Detran.Sweep.C29_user_order"
   ],
   "note": "Exchange sort, permutation, vacuum-first order proved; a user-supplied order is checked only for its length (witness)."
  },
  {
   "property": "C30",
   "status": "proved",
   "theorems": [
    "Detran.Boundary.C30_pairs",
    "Detran.Boundary.C30_mirror_exists",
    "Detran.Boundary.C30_update",
    "Detran.Boundary.C30_update_angle",
    "Detran.Boundary.C30_no_current",
    "Detran.Boundary.C30_update_only_incident",
    "Detran.Boundary.C30_boundary_angle",
    "Detran.Boundary.C30_boundary_update"
   ],
   "note": "Pair tables, per-group and per-angle updates on one side and on the whole boundary with any mix of conditions (reflecting side facing a periodic one excluded for the per-angle form; no periodic side for the per-group form), zero net current, and the sweep theorems' hypotheses."
  },
  {
   "property": "C31",
   "status": "partial",
   "theorems": [
    "Detran.Boundary.C31_update_angle",
    "Detran.Boundary.C31_update_group",
    "Detran.Boundary.C31_update_group_witness",
    "Detran.Boundary.C31_boundary_angle"
   ],
   "note": "The per-angle update used inside sweeps is right. The per-group update, the only one used by the Krylov solvers, never changes an entering flux (proved for all containers, witness given)."
  },
  {
   "property": "C32",
   "status": "proved",
   "theorems": [
    "Detran.Boundary.C32_flux_size",
    "Detran.Boundary.C32_places",
    "Detran.Boundary.C32_nodup",
    "Detran.Boundary.C32_length",
    "Detran.Boundary.C32_set_get",
    "Detran.Boundary.C32_get_set",
    "Detran.Boundary.C32_in_out_disjoint",
    "Detran.Boundary.C32_clear"
   ],
   "note": ""
  },
  {
   "property": "C33",
   "status": "partial",
   "theorems": [
    "Detran.Angle.C33_tables",
    "Detran.Angle.C33_entry",
    "Detran.Angle.C33_adjoint_tables_reversed"
   ],
   "note": "Tables right in all dimensions. In adjoint mode signs flip but the tables do not, so they are exactly reversed (proved); the library's own code never enables that mode."
  },
  {
   "property": "C34",
   "status": "proved",
   "theorems": [
    "Detran.Angle.C34_adjoint_history",
    "Detran.Angle.C34_adjoint_sweep_negative"
   ],
   "note": "After any call history; consequence for a sweep stated as its own theorem."
  },
  {
   "property": "C35",
   "status": "proved",
   "theorems": [
    "Detran.Angle.C35_moments"
   ],
   "note": ""
  },
  {
   "property": "C36",
   "status": "proved",
   "theorems": [
    "Detran.Angle.C36_index_bijective",
    "Detran.Angle.C36_valid_index",
    "Detran.Angle.C36_product_bijective"
   ],
   "note": ""
  },
  {
   "property": "C37",
   "status": "partial",
   "theorems": [
    "Detran.Lattice.C37_assembly_tiles_pins_partial",
    "Detran.Lattice.C37_core_tiles_assemblies_partial",
    "Detran.Lattice.C37_shared_edges_partial",
    "Detran.Lattice.C37_core_pin_numbers_unique",
    "Detran.Lattice.C37_x_edges_wrong_for_mixed_pins",
    "Detran.Lattice.C37_rectangular_assembly_wrong"
   ],
   "note": "Square lattices of equally meshed square components proved; x edges are wrong when columns hold pins of different widths, and rectangular assemblies are built wrongly (witnesses proved)."
  },
  {
   "property": "C38",
   "status": "proved",
   "theorems": [
    "Detran.Geom.C38_contains",
    "Detran.Geom.C38_factory"
   ],
   "note": ""
  },
  {
   "property": "C39",
   "status": "proved",
   "theorems": [
    "Detran.Geom.C39_order",
    "Detran.Geom.C39_on_surface",
    "Detran.Geom.C39_on_surface_near",
    "Detran.Geom.C39_complete",
    "Detran.Geom.C39_tangent_missed",
    "Detran.Geom.C39_crossing",
    "Detran.Geom.C39_tree_order",
    "Detran.Geom.C39_tree_crossing"
   ],
   "note": "On-surface exactly unless the quadratic coefficient along the ray is nonzero but below 1e-13 (then within 1e-13*t^2/2); tangent points are never returned (proved), transversal ones always. Square root by its defining property at the discriminant."
  },
  {
   "property": "C40",
   "status": "partial",
   "theorems": [
    "Detran.Geom.C40_reverse",
    "Detran.Geom.C40_double_reverse_ends",
    "Detran.Geom.C40_double_reverse_path",
    "Detran.Geom.C40_double_reverse_wrong",
    "Detran.Geom.C40_volume",
    "Detran.Geom.C40_normalize",
    "Detran.Geom.C40_normalize_unshared",
    "Detran.Geom.C40_normalize_shared",
    "Detran.Geom.C40_normalize_wrong"
   ],
   "note": "Reversal right once; reversing twice leaves the segments backwards (proved). Normalisation exact without sharing; in databases holding tracks with their reverses the ratio is applied twice (proved, witness)."
  },
  {
   "property": "C41",
   "status": "partial",
   "theorems": [
    "Detran.Coarse.C41_axis",
    "Detran.Coarse.C41_defined",
    "Detran.Coarse.C41_remainder_overflow",
    "Detran.Coarse.C41_level_above_size",
    "Detran.Coarse.C41_onto",
    "Detran.Coarse.C41_widths",
    "Detran.Coarse.C41_map",
    "Detran.Coarse.C41_volume"
   ],
   "note": "Complete whenever the coarsening is defined, and exactly when that is; some sizes and levels write outside a vector (11 cells at level 4; any level above the mesh size)."
  },
  {
   "property": "C42",
   "status": "partial",
   "theorems": [
    "Detran.Coarse.C42_index",
    "Detran.Coarse.C42_record",
    "Detran.Coarse.C42_sweep2",
    "Detran.Coarse.C42_sweep2_inside",
    "Detran.Coarse.C42_one_cell_ub",
    "Detran.Coarse.C42_sweep1",
    "Detran.Coarse.C42_sweep3_nothing"
   ],
   "note": "Slots distinct and in range; one- and two-dimensional sweeps record exactly the crossings of coarse faces when each direction has at least two cells; one-cell directions index outside (proved); three-dimensional sweeps never tally."
  },
  {
   "property": "C43",
   "status": "partial",
   "theorems": [
    "Detran.Homog.C43_moments_partial",
    "Detran.Homog.C43_one_moment",
    "Detran.Homog.C43_angular",
    "Detran.Homog.C43_higher_moments_kept",
    "Detran.Homog.C43_current_kept"
   ],
   "note": "Complete for one moment per cell and for angular fluxes; with more moments only the first block is scaled or cleared, and a stored current never is (proved)."
  },
  {
   "property": "C44",
   "status": "partial",
   "theorems": [
    "Detran.Homog.C44_total",
    "Detran.Homog.C44_fission",
    "Detran.Homog.C44_scatter",
    "Detran.Homog.C44_diffusion",
    "Detran.Homog.C44_flux_partial",
    "Detran.Homog.C44_range",
    "Detran.Homog.C44_chi_sum_partial",
    "Detran.Homog.C44_chi_wrong",
    "Detran.Homog.C44_chi_sum_wrong",
    "Detran.Homog.C44_flux_wrong",
    "Detran.Homog.C44_subset_wrong",
    "Detran.Homog.C44_defaults",
    "Detran.Homog.C44_first_group"
   ],
   "note": "Rates preserved for total, absorption, fission, production, diffusion and scatter over all groups; the spectrum is weighted by the last group alone, is missing for coarse groups without fission, the reported flux is divided by the volume once per fine group, and group subsets use the wrong weights (negations with witnesses)."
  },
  {
   "property": "C45",
   "status": "partial",
   "theorems": [
    "Detran.Kin.C45_defined",
    "Detran.Kin.C45_convex",
    "Detran.Kin.C45_range",
    "Detran.Kin.C45_clamped",
    "Detran.Kin.C45_linear",
    "Detran.Kin.C45_tabulated",
    "Detran.Kin.C45_continuous",
    "Detran.Kin.C45_material",
    "Detran.Kin.C45_production_wrong"
   ],
   "note": "Every tabulated quantity, for all tables and times, with continuity over the reals; the fission production the solver uses is the product of two interpolations and is not linear between table times (negation with witness)."
  },
  {
   "property": "C46",
   "status": "proved",
   "theorems": [
    "Detran.Kin.C46_exact",
    "Detran.Kin.C46_sharp",
    "Detran.Kin.C46_sum"
   ],
   "note": ""
  },
  {
   "property": "C47",
   "status": "proved",
   "theorems": [
    "Detran.Kin.C47_balance",
    "Detran.Kin.C47_unique",
    "Detran.Kin.C47_equilibrium",
    "Detran.Kin.C47_initial",
    "Detran.Kin.C47_nonneg",
    "Detran.Kin.C47_second_order_negative"
   ],
   "note": ""
  },
  {
   "property": "C48",
   "status": "proved",
   "theorems": [
    "Detran.Kin.C48_cycle",
    "Detran.Kin.C48_distinct",
    "Detran.Kin.C48_order",
    "Detran.Kin.C48_history"
   ],
   "note": ""
  },
  {
   "property": "C49",
   "status": "partial",
   "theorems": [
    "Detran.Orthog.C49_fold",
    "Detran.Orthog.C49_normalise",
    "Detran.Orthog.C49_projection",
    "Detran.Orthog.C49_roundtrip",
    "Detran.Orthog.C49_inverse_ptr_wrong",
    "Detran.Orthog.C49_ddf_inverse_wrong",
    "Detran.Orthog.C49_unfold_wrong",
    "Detran.Orthog.C49_ddf"
   ],
   "note": "Projection and round trip for every normalised basis, any weights; the shared-pointer inverse has its arguments exchanged, unfold uses only the last column, and the delta basis reads a null pointer (proved)."
  },
  {
   "property": "C50",
   "status": "partial",
   "theorems": [
    "Detran.Diffusion.C50_rows",
    "Detran.Diffusion.C50_current_unique",
    "Detran.Diffusion.C50_faces",
    "Detran.Diffusion.C50_symmetric",
    "Detran.Diffusion.C50_conservation",
    "Detran.Diffusion.C50_reflect",
    "Detran.Diffusion.C50_albedo",
    "Detran.Diffusion.C50_albedo_entry",
    "Detran.Diffusion.C50_positive",
    "Detran.Diffusion.C50_offdiag",
    "Detran.Diffusion.C50_within_group",
    "Detran.Diffusion.C50_rebuild_undefined"
   ],
   "note": "Matrix rows are the diffusion currents (defined by Fick's law in both half cells and the albedo relation) plus removal less scatter and fission, for all meshes up to 3-D, all materials, forward and adjoint, any cutoff; symmetric and positive semi-definite per group, conservative, off-diagonals not positive, every insert succeeds; the within-group operator too. Not satisfied: rebuilding a loss operator is undefined (proved for every non-empty one), and an \"albedo\" input entry makes every side reflecting."
  },
  {
   "property": "C51",
   "status": "proved",
   "theorems": [
    "Detran.Diffusion.C51_rows",
    "Detran.Diffusion.C51_adjoint_transpose",
    "Detran.Diffusion.C51_construct"
   ],
   "note": "Construction, rebuilding with a new material, products and transposition."
  },
  {
   "property": "C52",
   "status": "partial",
   "theorems": [
    "Detran.Diffusion.C52_rows",
    "Detran.Diffusion.C52_balance",
    "Detran.Diffusion.C52_balance_converged",
    "Detran.Diffusion.C52_conservation",
    "Detran.Diffusion.C52_rebuild",
    "Detran.Diffusion.C52_relaxed_counterexample",
    "Detran.Diffusion.C52_rebuild_dropped"
   ],
   "note": "Exact balance of the tallied currents for every flux, current, mesh and positivity fix without relaxation, and with relaxation once the factors have settled; global conservation; rebuilding with the same scattering structure. Negations with witnesses: relaxed factors before convergence, and rebuilding after the scattering range grows (the refused insert is ignored)."
  },
  {
   "property": "C53",
   "status": "partial",
   "theorems": [
    "Detran.Restrict.C53_group_map",
    "Detran.Restrict.C53_restrict_complete_iff",
    "Detran.Restrict.C53_restrict_rows",
    "Detran.Restrict.C53_restrict_flat",
    "Detran.Restrict.C53_restrict_integral",
    "Detran.Restrict.C53_prolong_rows",
    "Detran.Restrict.C53_nth_build",
    "Detran.Restrict.C53_identity_partial",
    "Detran.Restrict.C53_forward_defined",
    "Detran.Restrict.C53_second_build",
    "Detran.Restrict.C53_adjoint_undefined",
    "Detran.Restrict.C53_operator_size",
    "Detran.Restrict.C53_fits_one_dimensional",
    "Detran.Restrict.C53_fits_even",
    "Detran.Restrict.C53_dropped_entries",
    "Detran.Restrict.C53_adjoint_wrong",
    "Detran.Restrict.C53_claim_fails"
   ],
   "note": "Restriction and prolongation products for every input; the exact condition under which no restriction entry is dropped (always in 1-D and for even coarsening); restriction after prolongation is the identity at the first forward build and x/n after n builds; flat fluxes and volume integrals are preserved. Negations with witnesses: a 5x5 mesh at level 2 drops entries, the coarse spectrum is never reset between builds, adjoint mode condenses the wrong groups or reads past the spectrum, and the coarse operator has the wrong size whenever the cutoff is positive."
  },
  {
   "property": "C54",
   "status": "partial",
   "theorems": [
    "Detran.Parser.C54_one_dimension_partial",
    "Detran.Parser.C54_two_dimensions_partial",
    "Detran.Parser.C54_fine_rejected",
    "Detran.Parser.C54_three_dimensions_partial",
    "Detran.Parser.C54_claim_fails",
    "Detran.Parser.C54_wrong_counts",
    "Detran.Parser.C54_inconsistent_undefined",
    "Detran.Parser.C54_documented_rejected"
   ],
   "note": "Full statement: C54Claim. One dimension is proved in full; in two dimensions a consistent coarse description is accepted exactly when both directions have the same number of coarse cells; in three dimensions when all counts are equal. Otherwise it fails: rectangles are rejected, three-dimensional counts are shifted (C54_wrong_counts), inconsistent second-direction edges are read out of bounds, fine edges are never accepted beyond one dimension, and the documented example is rejected."
  },
  {
   "property": "C55",
   "status": "partial",
   "theorems": [
    "Detran.Rates.C55_region_power",
    "Detran.Rates.C55_power_normalised",
    "Detran.Rates.C55_edit_sum",
    "Detran.Rates.C55_edit_mean_exact",
    "Detran.Rates.C55_edit_mean_partial",
    "Detran.Rates.C55_mean_wrong",
    "Detran.Rates.C55_claim_fails",
    "Detran.Rates.C55_mean_undefined"
   ],
   "note": "Full statement for the mean: C55Claim. Powers and sums are proved in full, including the normalisation. The mean loop runs over cells instead of regions: exactly what it computes is C55_edit_mean_exact; it is right when the first cells lie in different regions (C55_edit_mean_partial) and wrong or out of bounds otherwise (C55_mean_wrong, C55_mean_undefined, C55_claim_fails)."
  },
  {
   "property": "C56",
   "status": "partial",
   "theorems": [
    "Detran.EigenPI.C56_reported",
    "Detran.EigenPI.C56_no_iterations",
    "Detran.EigenPI.C56_estimate",
    "Detran.EigenPI.C56_norm",
    "Detran.EigenPI.C56_power_method",
    "Detran.EigenPI.C56_stopped",
    "Detran.EigenPI.C56_eigenvalue_error",
    "Detran.EigenPI.C56_relaxed_eigenpair",
    "Detran.EigenPI.C56_eigenpair",
    "Detran.EigenPI.C56_claim_fails"
   ],
   "note": "Full statement: C56Claim. Proved without relaxation for any exact homogeneous multigroup solver: the estimates, power iteration, the meaning of the stopping test, a bound on the distance to the eigenvalue, and reproduction of exact eigenpairs. With relaxation only the estimate is relaxed and an exact eigenpair is not reproduced (C56_relaxed_eigenpair, C56_claim_fails); with no iterations an uninitialised variable is read (C56_no_iterations)."
  },
  {
   "property": "C57",
   "status": "partial",
   "theorems": [
    "Detran.MGSolve.C57_cover_partial",
    "Detran.MGSolve.C57_adjoint_cutoff_accepted",
    "Detran.MGSolve.C57_claim_fails",
    "Detran.MGSolve.C57_default_cutoff",
    "Detran.MGSolve.C57_multiply",
    "Detran.MGSolve.C57_offsets",
    "Detran.MGSolve.C57_layout",
    "Detran.MGSolve.C57_scatter_forward",
    "Detran.MGSolve.C57_scatter_adjoint_undefined"
   ],
   "note": "Full statement: C57Claim. Group blocks, offsets, sizes and the accepted cutoffs are proved for every group count in both modes (C57_cover_partial, C57_offsets, C57_layout). It fails where the constructor accepts a cutoff equal to the number of groups in adjoint mode (C57_adjoint_cutoff_accepted, C57_claim_fails), and the scatter-fission operator of the preconditioner indexes past its vectors in adjoint mode (C57_scatter_adjoint_undefined)."
  },
  {
   "property": "C58",
   "status": "partial",
   "theorems": [
    "Detran.Geom.C58_contains_partial",
    "Detran.Geom.C58_box_ignored",
    "Detran.Geom.C58_contains_in_box",
    "Detran.Geom.C58_box_exact",
    "Detran.Geom.C58_face_missed",
    "Detran.Geom.C58_no_box_rejected"
   ],
   "note": "The box never rejects a point (negation proved); the ray-box test is exact apart from rays running in a face plane (witness); regions without a box are tested against a point box (proved)."
  },
  {
   "property": "C59",
   "status": "proved",
   "theorems": [
    "Detran.Kin.C59_equation",
    "Detran.Kin.C59_angular",
    "Detran.Kin.C59_update"
   ],
   "note": ""
  },
  {
   "property": "C60",
   "status": "proved",
   "theorems": [
    "Detran.Util.C60_linspace",
    "Detran.Util.C60_linspace_one",
    "Detran.Util.C60_linspaceCenter",
    "Detran.Util.C60_vecUnique",
    "Detran.Util.C60_reversible_traverse",
    "Detran.Util.C60_reversible_initial",
    "Detran.Util.C60_vector_helpers"
   ],
   "note": "linspace with n=1 returns only a (stated separately). The reversed iterator compares with begin()-1, which is only an address comparison."
  },
  {
   "property": "C61",
   "status": "partial",
   "theorems": [
    "Detran.Lattice.C61_uniform_pin_mesh",
    "Detran.Lattice.C61_best_fit_count",
    "Detran.Lattice.C61_best_fit_edges",
    "Detran.Lattice.C61_best_fit_fuel_area",
    "Detran.Lattice.C61_best_fit_thin_pin"
   ],
   "note": "Uniform meshing, best-fit edges and fuel area proved. The best-fit count is never below the request and equals it exactly under the stated condition; a thin pin gives a negative count (witness), so the full claim is false."
  },
  {
   "property": "C62",
   "status": "proved",
   "theorems": [
    "Detran.Material.C62_defined",
    "Detran.Material.C62_every_accessor",
    "Detran.Material.C62_every_list",
    "Detran.Material.C62_vector_round_trip",
    "Detran.Material.C62_diffusion_overwritten",
    "Detran.Material.C62_last_write",
    "Detran.Material.C62_nu_sigma_f",
    "Detran.Material.C62_set_nu_sigma_f_lost",
    "Detran.Material.C62_compute_sigma_a",
    "Detran.Material.C62_compute_diff_coef"
   ],
   "note": "A nu*fission value set directly is overwritten by finalize, and by set_downscatter once finalized; the specification of histories says so. Out-of-range indices and vectors shorter than the number of groups are undefined behaviour in release (C62_defined)."
  },
  {
   "property": "C63",
   "status": "proved",
   "theorems": [
    "Detran.Sweep.C63_schemes_flat",
    "Detran.Sweep.C63_flat_1D",
    "Detran.Sweep.C63_flat_2D",
    "Detran.Sweep.C63_flat_3D"
   ],
   "note": "Stated for any per-cell equation that maps the constant to itself; all seven schemes are shown to do so."
  },
  {
   "property": "C64",
   "status": "proved",
   "theorems": [
    "Detran.Angle.C64_slots_complete",
    "Detran.Angle.C64_azimuth_order",
    "Detran.Angle.C64_azimuth_order_horizontal",
    "Detran.Angle.C64_polar_order"
   ],
   "note": "Strictly ordered in-octant angle sets."
  },
  {
   "property": "C65",
   "status": "partial",
   "theorems": [
    "Detran.Angle.C65_product_tables",
    "Detran.Angle.C65_product_total",
    "Detran.Angle.C65_sphere",
    "Detran.Angle.C65_unit",
    "Detran.Angle.C65_verify",
    "Detran.Angle.C65_uniform",
    "Detran.Angle.C65_uniform_points",
    "Detran.Angle.C65_scale_shift",
    "Detran.Angle.C65_simpson_weights",
    "Detran.Angle.C65_simpson_partial",
    "Detran.Angle.C65_simpson_quadratic",
    "Detran.Angle.C65_simpson_short",
    "Detran.Angle.C65_simpson_short_witness",
    "Detran.Angle.C65_doubled"
   ],
   "note": "Exact arithmetic. Simpson sets with 3k+2 points miss one weight (exact sum and witness proved), so the weight-sum claim fails there. Doubling is proved for any given half set; the Gauss-type generators are the subject of C90 and C91."
  },
  {
   "property": "C66",
   "status": "proved",
   "theorems": [
    "Detran.Angle.C66_addition",
    "Detran.Angle.C66_parity",
    "Detran.Angle.C66_flip_z",
    "Detran.Angle.C66_legendre",
    "Detran.Angle.C66_high_degree",
    "Detran.Angle.C66_round_trip",
    "Detran.Angle.C66_decimals"
   ],
   "note": "Exact constants; the decimals meet the exact relations within 2e-14. Degrees above three throw (built without Boost)."
  },
  {
   "property": "C67",
   "status": "proved",
   "theorems": [
    "Detran.Boundary.C67_set",
    "Detran.Boundary.C67_set_covers",
    "Detran.Boundary.C67_fixed_kept",
    "Detran.Boundary.C67_names"
   ],
   "note": ""
  },
  {
   "property": "C68",
   "status": "partial",
   "theorems": [
    "Detran.Geom.C68_pieces_inside",
    "Detran.Geom.C68_pieces_cover",
    "Detran.Geom.C68_segments",
    "Detran.Geom.C68_track_ray",
    "Detran.Geom.C68_empty_points_ub",
    "Detran.Geom.C68_defined"
   ],
   "note": "Pieces inside, covering and ordering proved for rays not tangent at a piece's midpoint; an empty intersection list makes the loop run past the end (witness: a track beside the fuel of a pin cell)."
  },
  {
   "property": "C69",
   "status": "partial",
   "theorems": [
    "Detran.Geom.C69_pin_partition",
    "Detran.Geom.C69_pin_material",
    "Detran.Geom.C69_offset_overlap",
    "Detran.Geom.C69_planes_misplaced"
   ],
   "note": "Any radii and divisions for centred pins, any offset for single divisions; offset pins with both divisions have overlapping regions and misplaced planes (witnesses)."
  },
  {
   "property": "C70",
   "status": "proved",
   "theorems": [
    "Detran.Geom.C70_find",
    "Detran.Geom.C70_outside"
   ],
   "note": "Edges are measured from zero whatever the mesh's own origin."
  },
  {
   "property": "C71",
   "status": "partial",
   "theorems": [
    "Detran.Geom.C71_contains",
    "Detran.Geom.C71_box",
    "Detran.Geom.C71_box_wrong",
    "Detran.Geom.C71_row_segments",
    "Detran.Geom.C71_assembly"
   ],
   "note": "Membership and the region list proved; the bounding box is moved the wrong way (exact statement, negation, and a row of three pins whose third pin gets no segments)."
  },
  {
   "property": "C72",
   "status": "proved",
   "theorems": [
    "Detran.Kin.C72_steps",
    "Detran.Kin.C72_limit",
    "Detran.Kin.C72_time",
    "Detran.Kin.C72_half_steps"
   ],
   "note": ""
  },
  {
   "property": "C73",
   "status": "proved",
   "theorems": [
    "Detran.Kin.C73_midpoint",
    "Detran.Kin.C73_extrapolate",
    "Detran.Kin.C73_angular"
   ],
   "note": ""
  },
  {
   "property": "C74",
   "status": "proved",
   "theorems": [
    "Detran.Kin.C74_balance",
    "Detran.Kin.C74_steady"
   ],
   "note": ""
  },
  {
   "property": "C75",
   "status": "proved",
   "theorems": [
    "Detran.Kin.C75_no_accumulation",
    "Detran.Kin.C75_wrapped"
   ],
   "note": ""
  },
  {
   "property": "C76",
   "status": "proved",
   "theorems": [
    "Detran.Kin.C76_shape",
    "Detran.Kin.C76_decreasing",
    "Detran.Kin.C76_half_maximum"
   ],
   "note": ""
  },
  {
   "property": "C77",
   "status": "proved",
   "theorems": [
    "Detran.Kin.C77_integral"
   ],
   "note": ""
  },
  {
   "property": "C78",
   "status": "partial",
   "theorems": [
    "Detran.Kin.C78_iterations",
    "Detran.Kin.C78_residual_never_reported"
   ],
   "note": "Iteration logic proved; the residual is computed into a local variable that hides the member, so the reported one stays zero (proved)."
  },
  {
   "property": "C79",
   "status": "proved",
   "theorems": [
    "Detran.Orthog.C79_orthogonal",
    "Detran.Orthog.C79_columns",
    "Detran.Orthog.C79_dlp"
   ],
   "note": ""
  },
  {
   "property": "C80",
   "status": "proved",
   "theorems": [
    "Detran.Orthog.C80_entries",
    "Detran.Orthog.C80_norm",
    "Detran.Orthog.C80_orthogonal",
    "Detran.Orthog.C80_dcp"
   ],
   "note": ""
  },
  {
   "property": "C81",
   "status": "proved",
   "theorems": [
    "Detran.Orthog.C81_norm",
    "Detran.Orthog.C81_orthogonal",
    "Detran.Orthog.C81_dct"
   ],
   "note": ""
  },
  {
   "property": "C82",
   "status": "partial",
   "theorems": [
    "Detran.Orthog.C82_orthonormal",
    "Detran.Orthog.C82_shape",
    "Detran.Orthog.C82_span",
    "Detran.Orthog.C82_weights_wrong"
   ],
   "note": "Without weights; with weights the columns are not orthogonal in the weighted product (negation with witness)."
  },
  {
   "property": "C83",
   "status": "partial",
   "theorems": [
    "Detran.Orthog.C83_legendre",
    "Detran.Orthog.C83_clp_partial",
    "Detran.Orthog.C83_clp_wrong",
    "Detran.Orthog.C83_jacobi"
   ],
   "note": "Jacobi complete for orders up to seven (others rejected). Legendre columns orthogonal on every interval, but the fixed coefficients normalise only intervals of length two; otherwise everything is scaled by half the length (proved)."
  },
  {
   "property": "C84",
   "status": "partial",
   "theorems": [
    "Detran.Orthog.C84_recurrence_partial",
    "Detran.Orthog.C84_sine_partial",
    "Detran.Orthog.C84_wrong"
   ],
   "note": "Degrees up to eight; from nine on the recurrence lacks the factor x (negation for every such degree)."
  },
  {
   "property": "C85",
   "status": "partial",
   "theorems": [
    "Detran.MGSolve.C85_krylov_partial",
    "Detran.MGSolve.C85_single_pass",
    "Detran.MGSolve.C85_gauss_seidel",
    "Detran.MGSolve.C85_material_cutoff",
    "Detran.MGSolve.C85_claim_fails"
   ],
   "note": "Full statement: C85Claim. Proved for exact inner and linear solves, both modes, implicit fission included, whenever no group of the Krylov block has its lowest source beyond the cutoff (C85_krylov_partial), and for converged Gauss-Seidel (C85_gauss_seidel, C85_single_pass). Without that hypothesis the result depends on the flux the solve started from (C85_claim_fails). Sweeps enter as arbitrary additive maps; reflecting boundaries are not modelled here."
  },
  {
   "property": "C86",
   "status": "partial",
   "theorems": [
    "Detran.MGSolve.C86_source_iteration",
    "Detran.MGSolve.C86_krylov_system",
    "Detran.MGSolve.C86_krylov_partial",
    "Detran.MGSolve.C86_operator_affine",
    "Detran.MGSolve.C86_discrete_source_wrong"
   ],
   "note": "Source iteration is proved in full (C86_source_iteration); the Krylov solve is proved without discrete external sources (C86_krylov_partial). With them the operator is affine and the discrete source is counted twice (C86_krylov_system, C86_operator_affine, C86_discrete_source_wrong). Reflecting boundaries are not modelled here."
  },
  {
   "property": "C87",
   "status": "proved",
   "theorems": [
    "Detran.Parser.C87_words",
    "Detran.Parser.C87_line",
    "Detran.Parser.C87_ignored",
    "Detran.Parser.C87_last_line",
    "Detran.Parser.C87_absent"
   ],
   "note": "Number conversions of the standard library are parameters."
  },
  {
   "property": "C88",
   "status": "partial",
   "theorems": [
    "Detran.Parser.C88_last_row",
    "Detran.Parser.C88_last_scatter",
    "Detran.Parser.C88_defaults",
    "Detran.Parser.C88_production",
    "Detran.Parser.C88_ignored",
    "Detran.Parser.C88_wrong_length",
    "Detran.Parser.C88_claim_fails"
   ],
   "note": "Full statement: C88Claim. Everything but the production cross section: nu_sigma_f lines, used by the documented example, are silently ignored (C88_ignored, C88_claim_fails)."
  },
  {
   "property": "C89",
   "status": "partial",
   "theorems": [
    "Detran.QuadTables.C89_supported",
    "Detran.QuadTables.C89_count",
    "Detran.QuadTables.C89_unit",
    "Detran.QuadTables.C89_symmetric",
    "Detran.QuadTables.C89_moments",
    "Detran.QuadTables.C89_total",
    "Detran.QuadTables.C89_claim_fails",
    "Detran.QuadTables.C89_positive_partial"
   ],
   "note": "Full statement on positivity: C89Claim; negative weights from order twenty on (C89_claim_fails), positive exactly up to order eighteen (C89_positive_partial). Everything else is proved for every supported size; the tables are the decimal literals, so moments and turned cosines hold up to 1e-23."
  },
  {
   "property": "C90",
   "status": "proved",
   "theorems": [
    "Detran.QuadGen.C90_roots",
    "Detran.QuadGen.C90_generated",
    "Detran.QuadGen.C90_increasing",
    "Detran.QuadGen.C90_integrates",
    "Detran.QuadGen.C90_set",
    "Detran.QuadGen.C90_double_integrates",
    "Detran.QuadGen.C90_polar_integrates",
    "Detran.QuadGen.C90_polar_double_integrates",
    "Detran.QuadGen.C90_exact_if",
    "Detran.QuadGen.C90_from_roots",
    "Detran.QuadGen.C90_symmetric",
    "Detran.QuadGen.C90_odd",
    "Detran.QuadGen.C90_double",
    "Detran.QuadGen.C90_polar_double",
    "Detran.QuadGen.C90_interval_if",
    "Detran.QuadGen.C90_positive",
    "Detran.QuadGen.C90_polar_gauss",
    "Detran.QuadGen.C90_newton",
    "Detran.QuadGen.C90_double_set_if"
   ],
   "note": "Every root and weight for every size: C90_roots, C90_generated, C90_increasing, C90_set; integrals C90_integrates, C90_double_integrates, C90_polar_integrates, C90_polar_double_integrates. The roots are located with the phase of Legendre's equation; Newton's iteration falls monotonically to each root from its guess, at least by a factor 11/2 each time. C90_exact_if, C90_interval_if, C90_double_set_if, C90_from_roots: exactness when the search ends at roots."
  },
  {
   "property": "C91",
   "status": "partial",
   "theorems": [
    "Detran.QuadGen.C91_exact",
    "Detran.QuadGen.C91_total",
    "Detran.QuadGen.C91_claim_fails",
    "Detran.QuadGen.C91_normalised",
    "Detran.QuadGen.C91_double_set",
    "Detran.QuadGen.C91_polar_normalised",
    "Detran.QuadGen.C91_azimuthal_normalised"
   ],
   "note": "Full statement on the total: C91Claim, false for every size (C91_total gives the exact excess, C91_claim_fails). Exactness against the Chebyshev weight and normalisation are proved for every size."
  },
  {
   "property": "C92",
   "status": "proved",
   "theorems": [
    "Detran.QuadGen.C92_directions",
    "Detran.QuadGen.C92_weights"
   ],
   "note": "Exact arithmetic."
  },
  {
   "property": "C93",
   "status": "partial",
   "theorems": [
    "Detran.QuadTables.C93_mirror",
    "Detran.QuadTables.C93_mirrorTY",
    "Detran.QuadTables.C93_antisymmetric",
    "Detran.QuadTables.C93_asdr_supported",
    "Detran.QuadTables.C93_asqr_supported",
    "Detran.QuadTables.C93_double_range",
    "Detran.QuadTables.C93_quadruple_range",
    "Detran.QuadTables.C93_ty_partial",
    "Detran.QuadTables.C93_claim_fails",
    "Detran.QuadTables.C93_tg"
   ],
   "note": "Full statement on the total: C93Claim; the four-angle Tabuchi-Yamamoto weights come to 0.99999998 (C93_ty_partial, C93_claim_fails). Everything else is proved for every supported size, up to 1e-15 in the integrals because the tables are rounded."
  },
  {
   "property": "C94",
   "status": "partial",
   "theorems": [
    "Detran.QuadTables.C94_product_partial",
    "Detran.QuadTables.C94_asqr_tg",
    "Detran.QuadTables.C94_norm_ignored",
    "Detran.QuadTables.C94_claim_fails",
    "Detran.QuadTables.C94_polar",
    "Detran.QuadTables.C94_default",
    "Detran.QuadTables.C94_other",
    "Detran.QuadTables.C94_rejected",
    "Detran.QuadTables.C94_user",
    "Detran.QuadTables.C94_user_ub",
    "Detran.QuadTables.C94_user_missing"
   ],
   "note": "Full statement for pairs: C94Claim. Fails: asqr-tg builds the double-range polar set (C94_asqr_tg) and product sets ignore the normalisation entry (C94_norm_ignored, C94_claim_fails). All other names, defaults, rejection and user sets are proved for every input; a one-dimensional user set reads out of bounds (C94_user_ub). Counts are passed on unchanged; the conversion of negative counts is not modelled."
  },
  {
   "property": "C95",
   "status": "proved",
   "theorems": [
    "Detran.Gmres.C95_outcome",
    "Detran.Gmres.C95_success",
    "Detran.Gmres.C95_no_growth",
    "Detran.Gmres.C95_optimal",
    "Detran.Gmres.C95_terminates"
   ],
   "note": "Exact arithmetic over any ordered field with a square root, any inner product; absolute tolerance positive. Printing not modelled."
  },
  {
   "property": "C96",
   "status": "partial",
   "theorems": [
    "Detran.Gmres.C96_claim_fails",
    "Detran.Gmres.C96_status_partial",
    "Detran.Gmres.C96_exact_guess",
    "Detran.Gmres.C96_database_preconditioner",
    "Detran.Gmres.C96_set_preconditioner"
   ],
   "note": "Full statement: C96Claim, fails (C96_claim_fails): the limit test breaks out before the monitor, so the status stays 'running' and only limit-2 iterations are made (C96_status_partial). An exact guess with zero absolute tolerance divides by zero (C96_exact_guess). A preconditioner named in the database is built but never applied (C96_database_preconditioner); one handed over through set_preconditioner is (C96_set_preconditioner)."
  },
  {
   "property": "C97",
   "status": "partial",
   "theorems": [
    "Detran.Moc.C97_segment_balance",
    "Detran.Moc.C97_split",
    "Detran.Moc.C97_setup",
    "Detran.Moc.C97_stale_angle",
    "Detran.Moc.C97_void",
    "Detran.Moc.C97_flat",
    "Detran.Moc.C97_track_balance",
    "Detran.Moc.C97_claim_fails",
    "Detran.Moc.C97_segment_exact",
    "Detran.Moc.C97_solution_exists",
    "Detran.Moc.C97_solve",
    "Detran.Moc.C97_positive",
    "Detran.Moc.C97_void_solution"
   ],
   "note": "Full statement for the sweep: C97Claim, fails (C97_claim_fails): the body of the MOC sweep is commented out, so it leaves the flux alone. Proved for the segment equation: it is the exact solution of the transport equation along the segment (C97_segment_exact, C97_solution_exists, C97_solve), balance, splitting, flatness, track balance and positivity. A void region divides by zero (C97_void) although the equation has a solution (C97_void_solution); changing the azimuth without the polar angle keeps the weight of the old direction (C97_stale_angle)."
  },
  {
   "property": "C98",
   "status": "partial",
   "theorems": [
    "Detran.EigenSolve.C98_outcome",
    "Detran.EigenSolve.C98_defined",
    "Detran.EigenSolve.C98_success",
    "Detran.EigenSolve.C98_eigenvector_partial",
    "Detran.EigenSolve.C98_never_negative",
    "Detran.EigenSolve.C98_claim_fails",
    "Detran.EigenSolve.C98_negative",
    "Detran.EigenSolve.C98_raised_limit",
    "Detran.EigenSolve.C98_zero",
    "Detran.EigenSolve.C98_operator",
    "Detran.EigenSolve.C98_stale_B",
    "Detran.EigenSolve.C98_ops_claim_fails",
    "Detran.EigenSolve.C98_ops_partial",
    "Detran.EigenSolve.C98_preconditioner_null",
    "Detran.EigenSolve.C98_converges",
    "Detran.EigenSolve.C98_dominant"
   ],
   "note": "Full statements: C98Claim, fails for negative eigenvalues (C98_claim_fails, C98_never_negative, C98_negative: the estimate is a norm and the limit is reported), and C98OpsClaim, fails (C98_ops_claim_fails, C98_stale_B: a new operator without a second one keeps the old second one). Proved for positive ones: C98_outcome, C98_defined, C98_success, C98_eigenvector_partial, C98_converges, C98_dominant. A limit raised through set_tolerances writes past the residual array (C98_raised_limit); a preconditioner for a standard problem goes through a null pointer (C98_preconditioner_null). Norms are any function with the norm laws; inner solves are exact."
  },
  {
   "property": "C99",
   "status": "partial",
   "theorems": [
    "Detran.EigenSolve.C99_residual",
    "Detran.EigenSolve.C99_galerkin",
    "Detran.EigenSolve.C99_direction",
    "Detran.EigenSolve.C99_outcome",
    "Detran.EigenSolve.C99_defined",
    "Detran.EigenSolve.C99_rayleigh_ritz",
    "Detran.EigenSolve.C99_rayleigh",
    "Detran.EigenSolve.C99_exact_preconditioner",
    "Detran.EigenSolve.C99_counts",
    "Detran.EigenSolve.C99_size_one",
    "Detran.EigenSolve.C99_claim_fails",
    "Detran.EigenSolve.C99_limit_one",
    "Detran.EigenSolve.C99_size_zero",
    "Detran.EigenSolve.C99_pick",
    "Detran.EigenSolve.C99_eispack"
   ],
   "note": "Full statement: C99Claim, fails (C99_claim_fails, C99_limit_one): at the limit the limit is tested before the tolerance, so a converged pair is reported as not converged. Otherwise C99_outcome and C99_defined. The dense solver returns the real part of a complex pair with a vector that is no eigenvector and never reports success (C99_eispack). An exact preconditioner breaks down (C99_exact_preconditioner); subspaces of size one never grow (C99_size_one) and of size zero divide by zero. The Fortran routines are a parameter under their documented convention."
  },
  {
   "property": "C100",
   "status": "partial",
   "theorems": [
    "Detran.EigenSolve.C100_defaults",
    "Detran.EigenSolve.C100_linear",
    "Detran.EigenSolve.C100_linear_error",
    "Detran.EigenSolve.C100_eigen",
    "Detran.EigenSolve.C100_claim_fails"
   ],
   "note": "Full statement: C100Claim, fails (C100_claim_fails): the creator turns the divergence check, which solvers have on by default, off unless the entry is present. Everything else holds: C100_defaults, C100_linear, C100_linear_error, C100_eigen. PETSc and SLEPc solvers are not modelled."
  },
  {
   "property": "C101",
   "status": "partial",
   "theorems": [
    "Detran.Diffusion.C101_flux",
    "Detran.Diffusion.C101_source",
    "Detran.Diffusion.C101_partial_currents",
    "Detran.Diffusion.C101_cell_balance",
    "Detran.Diffusion.C101_global_balance",
    "Detran.Diffusion.C101_boundary_partial",
    "Detran.Diffusion.C101_reflect_outflow",
    "Detran.Diffusion.C101_refresh",
    "Detran.Diffusion.C101_refresh_adjoint",
    "Detran.Diffusion.C101_current_partial",
    "Detran.Diffusion.C101_current_flat",
    "Detran.Diffusion.C101_claim_fails",
    "Detran.Diffusion.C101_refresh_claim_fails",
    "Detran.Diffusion.C101_current_claim_fails"
   ],
   "note": "Full statements: C101Claim (partial currents at every boundary face; fails at reflecting sides, where a positive outgoing current is stored with zero incoming: C101_boundary_partial, C101_reflect_outflow, C101_claim_fails), C101RefreshClaim (fails in adjoint mode: refresh always uses cutoff zero, C101_refresh_adjoint, C101_refresh_claim_fails; forward mode proved in C101_refresh), C101CurrentClaim (fails: low faces are ignored and the scale is 6 area/surface, C101_current_partial, C101_current_claim_fails). Flux, source, cell balance and global balance are proved for every mesh and source. The linear solve is exact."
  },
  {
   "property": "C102",
   "status": "proved",
   "theorems": [
    "Detran.Sources.C102_norm",
    "Detran.Sources.C102_integral",
    "Detran.Sources.C102_isotropic",
    "Detran.Sources.C102_discrete",
    "Detran.Sources.C102_undefined",
    "Detran.Sources.C102_sweep_total",
    "Detran.Sources.C102_flag"
   ],
   "note": "Exact arithmetic; null pointers in the source list are skipped. Tables of sources are functions of group, cell and angle."
  },
  {
   "property": "C103",
   "status": "partial",
   "theorems": [
    "Detran.Managers.C103_solve_iff",
    "Detran.Managers.C103_problem",
    "Detran.Managers.C103_clean",
    "Detran.Managers.C103_options",
    "Detran.Managers.C103_claim_fails"
   ],
   "note": "Full statement: C103Claim, fails (C103_claim_fails): a set_solver that is refused leaves the old solver in force and solve runs it and answers true. Proved over all sequences of calls: C103_solve_iff, C103_problem, C103_options. The multigroup solve is a parameter."
  },
  {
   "property": "C104",
   "status": "partial",
   "theorems": [
    "Detran.Managers.C104_direct_partial",
    "Detran.Managers.C104_vanish",
    "Detran.Managers.C104_guess",
    "Detran.Managers.C104_refreshed",
    "Detran.Managers.C104_series",
    "Detran.Managers.C104_claim_fails"
   ],
   "note": "Full statement: C104Claim, fails (C104_claim_fails): iterate updates the density but never the group sources, so every generation after the first vanishes (C104_vanish). Proved: the first generation (C104_direct_partial), and that generations and their sum are right if the client updates the fission source itself (C104_refreshed, C104_series). Solves are exact and linear."
  },
  {
   "property": "C105",
   "status": "partial",
   "theorems": [
    "Detran.Managers.C105_choice",
    "Detran.Managers.C105_construct",
    "Detran.Managers.C105_ready_partial",
    "Detran.Managers.C105_claim_fails",
    "Detran.Managers.C105_skipped"
   ],
   "note": "Full statement: C105Claim, fails (C105_claim_fails, C105_skipped): with an unknown multigroup solver every multigroup solve is skipped and solve still answers true, with eigenvalue zero. Proved: C105_choice, C105_construct, C105_ready_partial."
  },
  {
   "property": "C106",
   "status": "partial",
   "theorems": [
    "Detran.Diffusion.C106_equation",
    "Detran.Diffusion.C106_loss_transpose",
    "Detran.Diffusion.C106_adjoint_partial",
    "Detran.Diffusion.C106_forward_gain",
    "Detran.Diffusion.C106_claim_fails"
   ],
   "note": "Full statement: C106Claim, fails (C106_claim_fails): the eigenvalue solver never reads the entry adjoint, so in adjoint mode the forward gain operator (C106_forward_gain) is paired with the transposed loss operator (C106_loss_transpose). Proved: the forward problem (C106_equation), the transposition of the loss operator, and biorthogonality with the transposed gain (C106_adjoint_partial). The eigenvalue solver of callow is a parameter returning an eigenpair."
  },
  {
   "property": "C107",
   "status": "partial",
   "theorems": [
    "Detran.CmfdUpd.C107_shape",
    "Detran.CmfdUpd.C107_restricted",
    "Detran.CmfdUpd.C107_diffusion",
    "Detran.CmfdUpd.C107_positive",
    "Detran.CmfdUpd.C107_identity",
    "Detran.CmfdUpd.C107_consistent_partial",
    "Detran.CmfdUpd.C107_fixed_point_partial",
    "Detran.CmfdUpd.C107_discrete_dropped",
    "Detran.CmfdUpd.C107_keff_ignored",
    "Detran.CmfdUpd.C107_loop",
    "Detran.CmfdUpd.C107_kept",
    "Detran.CmfdUpd.C107_claim_fails",
    "Detran.CmfdUpd.C107_wrong_answer",
    "Detran.CmfdUpd.C107_current",
    "Detran.CmfdUpd.C107_current_partial",
    "Detran.CmfdUpd.C107_current_claim_fails"
   ],
   "note": "Full statement: C107Claim, fails (C107_claim_fails): the operator is rebuilt without the multiplication factor, so with another factor than one the solution is changed and the loop never ends at it (C107_keff_ignored, C107_wrong_answer); discrete sources are not restricted (C107_discrete_dropped); the homogenised spectrum is wrong when a group has no fission or spectra are mixed. Proved for the remaining cases: C107_consistent_partial, C107_fixed_point_partial; for all cases: C107_shape, C107_restricted, C107_positive, C107_identity, C107_loop, C107_kept. The weighting current ignores the signs of the octants: C107CurrentClaim fails (C107_current_claim_fails), C107_current_partial. Sweep, current tally and linear solver are parameters."
  },
  {
   "property": "C108",
   "status": "partial",
   "theorems": [
    "Detran.CmfdUpd.C108_pair_partial",
    "Detran.CmfdUpd.C108_fixed_point_partial",
    "Detran.CmfdUpd.C108_zero_gain",
    "Detran.CmfdUpd.C108_wrong_eigenvalue",
    "Detran.CmfdUpd.C108_claim_fails",
    "Detran.CmfdUpd.C108_loop"
   ],
   "note": "Full statement: C108Claim, fails (C108_claim_fails): a problem with fission only in groups without emission gets a zero gain operator (C108_zero_gain) and the eigenvalue zero (C108_wrong_eigenvalue). Proved where every group has fission and each coarse cell one spectrum: C108_pair_partial, C108_fixed_point_partial. The loop: C108_loop; it tests the density only. Sweep, norm and the eigenvalue solver of callow are parameters."
  },
  {
   "property": "C109",
   "status": "partial",
   "theorems": [
    "Detran.EigenOps.C109_operator",
    "Detran.EigenOps.C109_flux_partial",
    "Detran.EigenOps.C109_complete",
    "Detran.EigenOps.C109_guess",
    "Detran.EigenOps.C109_overrun",
    "Detran.EigenOps.C109_claim_fails"
   ],
   "note": "Full statement fails twice: the stored density is the eigenvector, which is the production of the stored flux divided by k (C109Claim, C109_claim_fails); with more than one moment per cell every copy between vector and density is out of bounds (C109_overrun). Proved for one moment per cell: C109_operator, C109_flux_partial, C109_complete, C109_guess. The multigroup solver is a parameter that solves the fixed source problem; callow's eigensolvers are C98, C99; reflecting sides are not modelled."
  },
  {
   "property": "C110",
   "status": "partial",
   "theorems": [
    "Detran.EigenOps.C110_pair_partial",
    "Detran.EigenOps.C110_setup",
    "Detran.EigenOps.C110_override",
    "Detran.EigenOps.C110_downscatter_null",
    "Detran.EigenOps.C110_claim_fails"
   ],
   "note": "Full statement: C110Claim, fails (C110_claim_fails): without up-scatter the multigroup operator is a null pointer (C110_downscatter_null), with up-scatter only below some group the two operators differ in size (C110_setup); overriding the cutoff with the whole range is the only remedy (C110_override). Proved there: C110_pair_partial. Reflecting sides and preconditioners are not modelled."
  },
  {
   "property": "C111",
   "status": "partial",
   "theorems": [
    "Detran.Precond.C111_within_group",
    "Detran.Precond.C111_multigroup_partial",
    "Detran.Precond.C111_within_regular",
    "Detran.Precond.C111_multigroup_regular_partial",
    "Detran.Precond.C111_same_solutions",
    "Detran.Precond.C111_right_residual",
    "Detran.Precond.C111_boundary_zero",
    "Detran.Precond.C111_boundary_frozen",
    "Detran.Precond.C111_adjoint_overrun",
    "Detran.Precond.C111_coarse",
    "Detran.Precond.C111_correction_error",
    "Detran.Precond.C111_fine_correction",
    "Detran.Precond.C111_no_fine_correction",
    "Detran.Precond.C111_corrected_injective",
    "Detran.Precond.C111_claim_fails",
    "Detran.Precond.C111_scale_singular",
    "Detran.Precond.C111_wrong_answer"
   ],
   "note": "Within one group proved for all meshes and boundary values (C111_within_group, C111_within_regular, C111_right_residual); coarse mesh C111_coarse (no smoothing); transport correction C111_correction_error, C111_fine_correction, C111_corrected_injective. Over all groups (C111Claim) it fails: boundary values are set to zero (C111_claim_fails, C111_boundary_frozen, C111_wrong_answer), a fission factor other than the one built in can make it singular (C111_scale_singular), adjoint indices run past the vectors (C111_adjoint_overrun); proved for forward problems without boundary unknowns and with matching factor (C111_multigroup_partial, C111_multigroup_regular_partial). The diffusion solver is a parameter that solves its problem exactly; Jacobi smoothing is not analysed."
  },
  {
   "property": "C112",
   "status": "partial",
   "theorems": [
    "Detran.CallowVector.C112_values_partial",
    "Detran.CallowVector.C112_no_leak_partial",
    "Detran.CallowVector.C112_assign_twice",
    "Detran.CallowVector.C112_assign_shared",
    "Detran.CallowVector.C112_assign_leak",
    "Detran.CallowVector.C112_claim_fails"
   ],
   "note": "Full statement: C112Claim, fails (C112_claim_fails): the class has a destructor and a copy constructor but no assignment operator, so assignment copies the pointer: a double free (C112_assign_twice), shared elements (C112_assign_shared) and a leak (C112_assign_leak). Proved for every program without assignment: C112_values_partial, C112_no_leak_partial. Allocation never fails and hands out fresh addresses; a call whose sizes do not match is outside the claim, as its checks are compiled out."
  },
  {
   "property": "C113",
   "status": "partial",
   "theorems": [
    "Detran.CallowNorm.C113_norm",
    "Detran.CallowNorm.C113_zero",
    "Detran.CallowNorm.C113_scale",
    "Detran.CallowNorm.C113_cauchy",
    "Detran.CallowNorm.C113_triangle",
    "Detran.CallowNorm.C113_residual",
    "Detran.CallowNorm.C113_relative_partial",
    "Detran.CallowNorm.C113_relative_scale_partial",
    "Detran.CallowNorm.C113_linfrel",
    "Detran.CallowNorm.C113_linfrel_unit",
    "Detran.CallowNorm.C113_grid_residual",
    "Detran.CallowNorm.C113_relative_norm",
    "Detran.CallowNorm.C113_claim_fails"
   ],
   "note": "Full statement for residuals: C113Claim, fails (C113_claim_fails): the relative largest difference is not relative (C113_linfrel, C113_linfrel_unit) and the mean kinds throw (C113_grid_residual); the norm of a single vector of a relative kind is silently zero (C113_relative_norm). Proved: C113_norm, C113_zero, C113_scale, C113_triangle, C113_cauchy, C113_residual, C113_relative_partial, C113_relative_scale_partial. Real arithmetic; elements divided by are not zero."
  },
  {
   "property": "C114",
   "status": "partial",
   "theorems": [
    "Detran.Hdf5.C114_faithful_partial",
    "Detran.Hdf5.C114_diff",
    "Detran.Hdf5.C114_second_write",
    "Detran.Hdf5.C114_rewrite_refused",
    "Detran.Hdf5.C114_truncates",
    "Detran.Hdf5.C114_readonly",
    "Detran.Hdf5.C114_missing",
    "Detran.Hdf5.C114_read_keeps",
    "Detran.Hdf5.C114_claim_fails",
    "Detran.Hdf5.C114_nested_lost",
    "Detran.Hdf5.C114_nested_same",
    "Detran.Hdf5.C114_foreign"
   ],
   "note": "Full statement: C114Claim, fails (C114_claim_fails): diffusion coefficients come back as absorption cross sections (C114_diff), a second write of a kind is silently ignored (C114_second_write), writes after an input or mesh was written and the file closed throw (C114_rewrite_refused), writes after closing otherwise empty the file (C114_truncates), writes to a file opened by reading are silently ignored (C114_readonly), nested databases with a slash in their name are lost (C114_nested_lost), as is the second of two whose names stand for one link (C114_nested_same), incomplete files are undefined behaviour (C114_foreign). Proved: C114_faithful_partial, for programs that write each kind once before the first close. The HDF5 library is modelled by its documentation."
  },
  {
   "property": "C115",
   "status": "partial",
   "theorems": [
    "Detran.Exec.C115_fixed_unsolved",
    "Detran.Exec.C115_exit_zero",
    "Detran.Exec.C115_unknown_type",
    "Detran.Exec.C115_no_source",
    "Detran.Exec.C115_scaling",
    "Detran.Exec.C115_strength",
    "Detran.Exec.C115_source_partial",
    "Detran.Exec.C115_eigen_partial",
    "Detran.Exec.C115_claim_fails"
   ],
   "note": "Full statement: C115Claim, fails (C115_claim_fails): the executable never chooses a solver, so that no fixed-source problem is solved: every such run ends with a message, a zero flux and exit code zero (C115_fixed_unsolved); the exit code is zero after exceptions, too (C115_exit_zero); unknown problem types are taken for fixed (C115_unknown_type); a missing source type is announced as a skipped solve and is undefined behaviour (C115_no_source); the default strength is never used (C115_strength). Proved: C115_source_partial, C115_eigen_partial. Parser results are the input; Silo output is not modelled."
  },
  {
   "property": "C116",
   "status": "partial",
   "theorems": [
    "Detran.Ppm.C116_fill_square",
    "Detran.Ppm.C116_fill_tall",
    "Detran.Ppm.C116_fill_wide",
    "Detran.Ppm.C116_default",
    "Detran.Ppm.C116_default_ends",
    "Detran.Ppm.C116_default_monotone",
    "Detran.Ppm.C116_default_negative",
    "Detran.Ppm.C116_flat",
    "Detran.Ppm.C116_zeros",
    "Detran.Ppm.C116_square_partial",
    "Detran.Ppm.C116_tall",
    "Detran.Ppm.C116_every_cell",
    "Detran.Ppm.C116_cell_missed",
    "Detran.Ppm.C116_geometry",
    "Detran.Ppm.C116_orientation",
    "Detran.Ppm.C116_nodes",
    "Detran.Ppm.C116_interp",
    "Detran.Ppm.C116_interp_ends",
    "Detran.Ppm.C116_interp_range",
    "Detran.Ppm.C116_hex",
    "Detran.Ppm.C116_maps",
    "Detran.Ppm.C116_random",
    "Detran.Ppm.C116_claim_fails"
   ],
   "note": "Full statement: C116Claim, fails (C116_claim_fails): rows are stored ny entries apart, so pictures with more rows than columns are written out of bounds (C116_tall, C116_fill_tall) and those with fewer are scrambled (C116_fill_wide); equal values have no colour (C116_flat). Proved for square pictures: C116_square_partial (row 0 is the bottom of a mesh), C116_geometry (row 0 is the top of a geometry), C116_every_cell; with one point to the smallest cell cells can be missed (C116_cell_missed). Map COOLWARM not modelled."
  },
  {
   "property": "C117",
   "status": "partial",
   "theorems": [
    "Detran.Lra.C117_update",
    "Detran.Lra.C117_claim_fails",
    "Detran.Lra.C117_balance_partial",
    "Detran.Lra.C117_fission",
    "Detran.Lra.C117_steady",
    "Detran.Lra.C117_ramp",
    "Detran.Lra.C117_ramp_jump",
    "Detran.Lra.C117_positive",
    "Detran.Lra.C117_feedback",
    "Detran.Lra.C117_power",
    "Detran.Lra.C117_state",
    "Detran.Lra.C117_T_stale",
    "Detran.Lra.C117_area"
   ],
   "note": "Full statement on balance: C117Claim, fails in the fast group of the reflector by 9e-15 (C117_claim_fails); everywhere else it holds (C117_balance_partial). The rod's absorption jumps by 2e-7 at two seconds (C117_ramp_jump) and the temperatures reported are always 300 (C117_T_stale). Everything else is proved over all sequences of calls. Tables are the decimal literals; regions outside 0 to 5 excluded."
  },
  {
   "property": "C118",
   "status": "partial",
   "theorems": [
    "Detran.Spectrum.C118_gs_partial",
    "Detran.Spectrum.C118_gs_others",
    "Detran.Spectrum.C118_gs_divides",
    "Detran.Spectrum.C118_fs_missing",
    "Detran.Spectrum.C118_fs_partial",
    "Detran.Spectrum.C118_fs_unit",
    "Detran.Spectrum.C118_claim_fails",
    "Detran.Spectrum.C118_pincell",
    "Detran.Spectrum.C118_pincell_keff",
    "Detran.Spectrum.C118_pincell_finalized"
   ],
   "note": "Full statement for the fixed-source spectrum: C118Claim, fails (C118_claim_fails): the fission cross section is used in place of production. Proved with that cross section (C118_fs_partial) and where they agree (C118_fs_unit). The Gauss-Seidel spectrum is right, in the same sense, for the first material (C118_gs_partial); those of all others are zero (C118_gs_others) and the preconditioner divides by them (C118_gs_divides). Pin cells: C118_pincell; the eigenvalue given has no effect (C118_pincell_keff). Solvers exact; pin cell calculations are a parameter."
  },
  {
   "property": "C119",
   "status": "partial",
   "theorems": [
    "Detran.Rom.C119_basis",
    "Detran.Rom.C119_basis_missing",
    "Detran.Rom.C119_basis_short",
    "Detran.Rom.C119_project",
    "Detran.Rom.C119_generalized",
    "Detran.Rom.C119_standard",
    "Detran.Rom.C119_exact",
    "Detran.Rom.C119_solution_partial",
    "Detran.Rom.C119_claim_fails",
    "Detran.Rom.C119_kind",
    "Detran.Rom.C119_keys"
   ],
   "note": "Full statement on the vector: C119Claim, fails (C119_claim_fails): negative entries are reversed one by one, so that a vector with both signs is spoilt; proved for vectors of one sign (C119_solution_partial). A missing file leaves the basis as it was (C119_basis_missing), a short one leaves undefined numbers (C119_basis_short), and the energy-dependent kind overwrites three entries of the user's input (C119_keys). Proved: C119_basis, C119_project, C119_generalized, C119_standard, C119_exact, C119_kind. The eigenvalue solver is a parameter; the full operators are matrices."
  },
  {
   "property": "C120",
   "status": "partial",
   "theorems": [
    "Detran.Ilut.C120_factors_partial",
    "Detran.Ilut.C120_solves_partial",
    "Detran.Ilut.C120_sparse_undefined",
    "Detran.Ilut.C120_keeps_smallest",
    "Detran.Ilut.C120_claim_fails",
    "Detran.Ilut.C120_threshold",
    "Detran.Ilut.C120_defaults"
   ],
   "note": "Full statement on dropping: C120Claim, fails (C120_claim_fails): sorting is by decreasing size and the first values are removed, so that the smallest are kept (C120_keeps_smallest). The threshold looks at the column with the number of the position and skips the value after a dropped one (C120_threshold), may read outside the row (C120_sparse_undefined), and with default options drops the diagonal and then reads outside (C120_defaults). Proved for complete factorizations: C120_factors_partial, C120_solves_partial, under the hypothesis that the stray reads are harmless or do not occur."
  },
  {
   "property": "C121",
   "status": "partial",
   "theorems": [
    "Detran.Tracker.C121_defined",
    "Detran.Tracker.C121_tracks",
    "Detran.Tracker.C121_entries",
    "Detran.Tracker.C121_segments",
    "Detran.Tracker.C121_weights",
    "Detran.Tracker.C121_width_partial",
    "Detran.Tracker.C121_width_wrong",
    "Detran.Tracker.C121_spacing",
    "Detran.Tracker.C121_again",
    "Detran.Tracker.C121_no_3D",
    "Detran.Tracker.C121_defaults",
    "Detran.Tracker.C121_claim_fails",
    "Detran.Tracker.C121_spacing_claim_fails"
   ],
   "note": "Full statements: C121Claim (widths) and C121SpacingClaim, both fail (C121_claim_fails, C121_spacing_claim_fails): sine and cosine are interchanged in the weights and in the numbers of points, so that the weights add up to Y sin + X cos (C121_weights) and the spacing is off by the tangent or cotangent (C121_spacing); right for squares (C121_width_partial), wrong for all other rectangles except at 45 degrees (C121_width_wrong). A tracker used again keeps the tracks of the first geometry in three octants, appends segments to them, and leaves reversed tracks whose segments belong to no track (C121_again). Proved: C121_defined, C121_tracks, C121_entries, C121_segments, C121_no_3D, C121_defaults. What segments lie between two points is a parameter here (segmentize has its own property); vectors of segments do not die in the model."
  },
  {
   "property": "C122",
   "status": "partial",
   "theorems": [
    "Detran.Random.C122_sequence_partial",
    "Detran.Random.C122_range",
    "Detran.Random.C122_period",
    "Detran.Random.C122_uniform",
    "Detran.Random.C122_positive",
    "Detran.Random.C122_zero_seed",
    "Detran.Random.C122_arguments",
    "Detran.Random.C122_claim_fails",
    "Detran.Random.C122_wide",
    "Detran.Random.C122_overflow"
   ],
   "note": "Full statement: C122Claim, fails (C122_claim_fails): the constructor ignores the multiplier and the increment it is given (C122_arguments). Proved for the built-in multiplier without increment and up to 53 bits: C122_sequence_partial, C122_range, C122_period, C122_uniform, C122_positive; seeds that are multiples of the modulus give only zeros (C122_zero_seed). From 54 to 62 bits every number is zero or one (C122_wide). Signed overflow is modelled as keeping the low 64 bits; by the language the second call of the default generator is already undefined (C122_overflow)."
  },
  {
   "property": "C123",
   "status": "partial",
   "theorems": [
    "Detran.Threads.C123_2D",
    "Detran.Threads.C123_fluxes_1D",
    "Detran.Threads.C123_fluxes_3D",
    "Detran.Threads.C123_one_thread_1D_partial",
    "Detran.Threads.C123_one_thread_3D_partial",
    "Detran.Threads.C123_runs",
    "Detran.Threads.C123_claim_fails",
    "Detran.Threads.C123_3D_claim_fails",
    "Detran.Threads.C123_tally"
   ],
   "note": "Proved in two dimensions (C123_2D), for boundary and angular fluxes in all dimensions (C123_fluxes_1D, C123_fluxes_3D), and that threads can always finish (C123_runs). The full statements for the moments, C123Claim and C123Claim3D, fail (C123_claim_fails, C123_3D_claim_fails): in one and three dimensions all threads add to the moments of the caller, and contributions are lost; with one thread they hold (C123_one_thread_1D_partial, C123_one_thread_3D_partial). The tally is reset by every thread as it begins, so that contributions of others are wiped out (C123_tally). Steps are begin, load, store and finish with sequentially consistent memory; what else a data race may do is not modelled."
  },
  {
   "property": "C124",
   "status": "partial",
   "theorems": [
    "Detran.WGReflect.C124_residual",
    "Detran.WGReflect.C124_solution",
    "Detran.WGReflect.C124_complete",
    "Detran.WGReflect.C124_unique",
    "Detran.WGReflect.C124_operator_pure",
    "Detran.WGReflect.C124_operator_linear",
    "Detran.WGReflect.C124_settled",
    "Detran.WGReflect.C124_mismatch",
    "Detran.WGReflect.C124_finish",
    "Detran.WGReflect.C124_boundary_partial",
    "Detran.WGReflect.C124_si_sides",
    "Detran.WGReflect.C124_si",
    "Detran.WGReflect.C124_solvers_agree",
    "Detran.WGReflect.C124_1D",
    "Detran.WGReflect.C124_2D",
    "Detran.WGReflect.C124_3D",
    "Detran.WGReflect.C124_claim_fails",
    "Detran.WGReflect.C124_periodic_fails"
   ],
   "note": "Proved for the exact solution of the linear system and settled uncollided reflection (C124_solution; C124_1D, C124_2D, C124_3D), for any vector with its residual (C124_residual), conversely (C124_complete, C124_unique), for source iteration (C124_si, C124_si_sides) and its agreement (C124_solvers_agree), for the operator (C124_operator_pure, C124_operator_linear), and for the fluxes after the solve with the boundary option (C124_finish, with C124_settled and C124_mismatch for the reflection). The full statements about boundary fluxes without the option, C124Claim, and about periodic sides, C124PeriodicClaim, fail (C124_claim_fails, C124_periodic_fails): only the collided part of the entering flux is stored (C124_boundary_partial), and periodic sides count as vacuum. One flux moment, no discrete sources (their contribution stays on in the operator); what residual GMRES leaves is C95."
  },
  {
   "property": "C125",
   "status": "partial",
   "theorems": [
    "Detran.MGReflect.C125_residual",
    "Detran.MGReflect.C125_solution",
    "Detran.MGReflect.C125_group",
    "Detran.MGReflect.C125_balanced",
    "Detran.MGReflect.C125_operator_pure",
    "Detran.MGReflect.C125_operator_linear",
    "Detran.MGReflect.C125_complete",
    "Detran.MGReflect.C125_unique",
    "Detran.MGReflect.C125_finish",
    "Detran.MGReflect.C125_si",
    "Detran.MGReflect.C125_frozen",
    "Detran.MGReflect.C125_flag",
    "Detran.MGReflect.C125_ok1",
    "Detran.MGReflect.C125_ok2",
    "Detran.MGReflect.C125_ok3",
    "Detran.MGReflect.C125_repeat_fails"
   ],
   "note": "Proved for one solve with an exact linear solve and settled uncollided reflection: the block (C125_solution), all groups when those outside the block receive nothing from later ones and no group of the block from before its cutoff (C125_balanced, with C125_group and C125_si for the groups solved one at a time), any vector with its residual (C125_residual), the converse (C125_complete, C125_unique), the operator (C125_operator_pure, C125_operator_linear), the fluxes after the solve with the angular option (C125_finish); hypotheses discharged for the three geometries (C125_ok1, C125_ok2, C125_ok3). The full statement for a second solve, C125RepeatClaim, fails (C125_repeat_fails): the block's solve leaves the boundary updates of the shared sweeper off (C125_flag), so source iteration in the other groups never changes what enters at reflecting sides again (C125_frozen). One flux moment; periodic sides and boundary fluxes without the option as in C124."
  },
  {
   "property": "C126",
   "status": "partial",
   "theorems": [
    "Detran.Kin.C126_transient",
    "Detran.Kin.C126_steady_partial",
    "Detran.Kin.C126_repeat_partial",
    "Detran.Kin.C126_moments_drift",
    "Detran.Kin.C126_spectrum_drift",
    "Detran.Kin.C126_claim_fails",
    "Detran.Kin.C126_midpoint_fails",
    "Detran.Kin.C126_repeat_fails"
   ],
   "note": "Every step and the whole sequence for any solver residual (C126_transient, which also says the stepper never throws and remains usable). Steady states are kept (C126_steady_partial) if angular fluxes are stored or the flux is isotropic, the steady equation uses the delayed spectra, and the spatial closure does not depend on the total cross section (not so for step characteristics). The full statement, C126Claim, fails (C126_claim_fails): with flux moments only, the default, a transport steady state drifts (C126_moments_drift), and the library's own critical state drifts when delayed neutrons have another spectrum (C126_spectrum_drift). Solving again gives the same transient without physics variables (C126_repeat_partial), not with them (C126RepeatClaim, C126_repeat_fails). With feedback, passes of a midpoint step settle on the material at the end-of-step physics (C126MidpointClaim, C126_midpoint_fails). The multigroup solve is a function of material, source and current solution; one flux moment."
  },
  {
   "property": "C127",
   "status": "partial",
   "theorems": [
    "Detran.SolverDb.C127_made",
    "Detran.SolverDb.C127_defaults",
    "Detran.SolverDb.C127_transport_defaults",
    "Detran.SolverDb.C127_input_kept",
    "Detran.SolverDb.C127_history_partial",
    "Detran.SolverDb.C127_eigen_history_partial",
    "Detran.SolverDb.C127_frozen",
    "Detran.SolverDb.C127_tolerance_fails",
    "Detran.SolverDb.C127_gd_fails",
    "Detran.SolverDb.C127_rom_fails",
    "Detran.SolverDb.C127_claim_fails"
   ],
   "note": "For every database state the solvers made are those the input asks for as it then is (C127_made, C127_defaults, C127_transport_defaults), and only solver databases are added (C127_input_kept). The history does not matter as long as settings are put before the first solver and no reduced-order solver is made (C127_history_partial), and for eigenvalue solvers if EigenGD was not used (C127_eigen_history_partial). The full statement, C127Claim, fails (C127_claim_fails): the first solver writes a database with the tolerances of that time into the client's input, so tolerances put later are ignored (C127_tolerance_fails, and for all histories C127_frozen); EigenGD overwrites the method in the client's database (C127_gd_fails); a reduced-order solver overwrites the solver kind (C127_rom_fails). Operators, vectors and preconditioner databases are left out."
  },
  {
   "property": "C128",
   "status": "partial",
   "theorems": [
    "Detran.WGReflect.C128_unique",
    "Detran.WGReflect.C128_exists",
    "Detran.WGReflect.C128_total",
    "Detran.WGReflect.C128_converges",
    "Detran.WGReflect.C128_test",
    "Detran.WGReflect.C128_stops",
    "Detran.WGReflect.C128_contract",
    "Detran.WGReflect.C128_accuracy_partial",
    "Detran.WGReflect.C128_system",
    "Detran.WGReflect.C128_gmres",
    "Detran.WGReflect.C128_1D",
    "Detran.WGReflect.C128_1D_sc",
    "Detran.WGReflect.C128_2D",
    "Detran.WGReflect.C128_2D_sc",
    "Detran.WGReflect.C128_3D",
    "Detran.WGReflect.C128_claim_fails",
    "Detran.WGReflect.C128_singular"
   ],
   "note": "Proved: one flux (C128_exists, C128_unique), convergence from any start, with reflecting sides (C128_converges, C128_total), the end of the iteration (C128_stops, C128_test), the linear system of GMRES (C128_system, C128_gmres), all of it with hypotheses discharged for the schemes and geometries (C128_1D, C128_1D_sc, C128_2D, C128_2D_sc, C128_3D). Without reflecting sides each pass shrinks the error by the scattering ratio (C128_contract) and the stopping test bounds it (C128_accuracy_partial). With reflecting sides the bound, C128Claim, fails (C128_claim_fails): in a thin box between mirrors the first pass from zero changes the flux by less than the tolerance and the iteration stops at nearly zero flux. The boundary unknowns of GMRES need not be determined: its matrix is singular for a cell with four reflecting sides (C128_singular). Exact arithmetic, one flux moment, no discrete sources, no periodic sides."
  },
  {
   "property": "C129",
   "status": "partial",
   "theorems": [
    "Detran.MGReflect.C129_unique",
    "Detran.MGReflect.C129_exists",
    "Detran.MGReflect.C129_exists_block",
    "Detran.MGReflect.C129_exact",
    "Detran.MGReflect.C129_block",
    "Detran.MGReflect.C129_inexact",
    "Detran.MGReflect.C129_converges",
    "Detran.MGReflect.C129_total",
    "Detran.MGReflect.C129_reflect",
    "Detran.MGReflect.C129_test",
    "Detran.MGReflect.C129_accuracy_partial",
    "Detran.MGReflect.C129_loop",
    "Detran.MGReflect.C129_stops",
    "Detran.MGReflect.C129_solve",
    "Detran.MGReflect.C129_gmres",
    "Detran.MGReflect.C129_downscatter",
    "Detran.MGReflect.C129_conserving",
    "Detran.MGReflect.C129_1D",
    "Detran.MGReflect.C129_1D_sc",
    "Detran.MGReflect.C129_2D",
    "Detran.MGReflect.C129_2D_sc",
    "Detran.MGReflect.C129_3D",
    "Detran.MGReflect.C129_claim_fails"
   ],
   "note": "Proved: one set of fluxes (C129_unique, C129_exists, C129_exists_block), contraction with exact group solvers and any sides (C129_exact), with any number of inner passes and no reflecting side (C129_block, C129_inexact, C129_converges), with one inner pass per group and any sides but periodic (C129_total, C129_reflect), the outer test and loop (C129_test, C129_loop, C129_stops), the whole solve when every group is in the block (C129_solve), agreement with the Krylov solver (C129_gmres), the conditions on the coupling (C129_downscatter, C129_conserving) and the schemes and geometries (C129_1D, C129_1D_sc, C129_2D, C129_2D_sc, C129_3D). The error bound of the outer test is proved without reflecting sides only (C129_accuracy_partial). That a solve without a warning is accurate, C129Claim, fails (C129_claim_fails): a problem that is not iterated is one group solve each, whose limit is checked nowhere. Not shown: convergence with reflecting sides and two or more but inexact inner passes per group. Exact arithmetic, one flux moment, no discrete sources, no periodic sides, norm Linf."
  },
  {
   "property": "C130",
   "status": "partial",
   "theorems": [
    "Detran.WGReflect.C130_reciprocity",
    "Detran.WGReflect.C130_exchange",
    "Detran.WGReflect.C130_boundary",
    "Detran.MGReflect.C130_directional",
    "Detran.MGReflect.C130_adjoint",
    "Detran.MGReflect.C130_eigenvalue",
    "Detran.MGReflect.C130_keff",
    "Detran.MGReflect.C130_krylov",
    "Detran.MGReflect.C130_near",
    "Detran.MGReflect.C130_passes",
    "Detran.MGReflect.C130_passes_reflect",
    "Detran.MGReflect.C130_1D",
    "Detran.MGReflect.C130_2D",
    "Detran.MGReflect.C130_3D",
    "Detran.MGReflect.C130_claim_fails"
   ],
   "note": "Proved: reciprocity in one group (C130_reciprocity, C130_exchange, with differing sides C130_boundary), the adjoint mode's response with isotropic sources (C130_adjoint) and with directional sources weighted with the opposite direction (C130_directional), equal eigenvalues (C130_eigenvalue, C130_keff), the Krylov solver's fluxes (C130_krylov), approximate fluxes and the Gauss-Seidel passes (C130_near, C130_passes without reflecting sides, C130_passes_reflect with one inner pass), every scheme and geometry (C130_1D, C130_2D, C130_3D). That the adjoint angular flux stored for a direction is the importance of that direction, C130Claim, fails (C130_claim_fails): the sweeps ignore the mode. Exact arithmetic, one flux moment, vacuum and reflecting sides."
  },
  {
   "property": "C131",
   "status": "proved",
   "theorems": [
    "Detran.MGReflect.C131_flat",
    "Detran.MGReflect.C131_passes",
    "Detran.MGReflect.C131_krylov",
    "Detran.MGReflect.C131_medium",
    "Detran.MGReflect.C131_one_group",
    "Detran.MGReflect.C131_kinf",
    "Detran.MGReflect.C131_keff",
    "Detran.MGReflect.C131_1D",
    "Detran.MGReflect.C131_2D",
    "Detran.MGReflect.C131_3D",
    "Detran.Diffusion.C131_diffusion",
    "Detran.Diffusion.C131_diffusion_only",
    "Detran.Diffusion.C131_agree"
   ],
   "note": "Flat fluxes that balance at every cell solve the transport equations (C131_flat), with the hypotheses on the cells discharged for every scheme and geometry (C131_1D, C131_2D, C131_3D); Gauss-Seidel goes there and nothing else solves the equations if the coupling is weak in the sense of C129 (C131_passes), the Krylov solver returns them (C131_krylov), they exist and are unique (C131_medium), in one group source over absorption (C131_one_group). Eigenvalues: C131_kinf, C131_keff. Diffusion: C131_diffusion, only solution with weak coupling C131_diffusion_only, agreement of both C131_agree. Exact arithmetic, one flux moment, no discrete sources, no periodic sides."
  },
  {
   "property": "C132",
   "status": "partial",
   "theorems": [
    "Detran.Diffusion.C132_diffusion_positive",
    "Detran.Diffusion.C132_diffusion_out_partial",
    "Detran.Diffusion.C132_diffusion_one",
    "Detran.Diffusion.C132_diffusion_floor",
    "Detran.Diffusion.C132_diffusion_ceiling",
    "Detran.Diffusion.C132_diffusion_more",
    "Detran.Diffusion.C132_current_fails",
    "Detran.MGReflect.C132_floor",
    "Detran.MGReflect.C132_ceiling",
    "Detran.MGReflect.C132_positive_partial",
    "Detran.MGReflect.C132_unique",
    "Detran.MGReflect.C132_exists",
    "Detran.MGReflect.C132_more",
    "Detran.MGReflect.C132_rate",
    "Detran.MGReflect.C132_converges",
    "Detran.MGReflect.C132_iterates",
    "Detran.MGReflect.C132_returned",
    "Detran.MGReflect.C132_1D",
    "Detran.MGReflect.C132_2D",
    "Detran.MGReflect.C132_settles_1D",
    "Detran.MGReflect.C132_settles_2D",
    "Detran.MGReflect.C132_claim_fails"
   ],
   "note": "Proved for step differencing and step characteristics in one and two dimensions and for diamond differencing in thin cells of a slab (C132_1D, C132_2D discharge the hypotheses on the cells): no negative fluxes (C132_positive_partial), bounds (C132_floor, C132_ceiling), comparison (C132_more), one solution (C132_unique, C132_exists), Gauss-Seidel at a geometric rate with any inner iterations and sides (C132_rate, C132_converges, C132_settles_1D, C132_settles_2D; C129 needed one inner iteration or no reflecting sides), rising iterates (C132_iterates), the returned flux (C132_returned). Diffusion: C132_diffusion_positive, _floor, _ceiling, _more, _one and currents where none comes in (C132_diffusion_out_partial). Diamond differencing in thick cells gives negative fluxes (C132Claim, C132_claim_fails), and the diffusion solver stores negative outgoing currents next to incident ones (C132CurrentClaim, C132_current_fails). Diamond differencing in two and three dimensions is not covered: its cells are not positive for any thickness. Exact arithmetic, one flux moment, no discrete sources, no periodic sides."
  },
  {
   "property": "C133",
   "status": "proved",
   "theorems": [
    "Detran.EigenPI.C133_upper",
    "Detran.EigenPI.C133_lower",
    "Detran.EigenPI.C133_dominant",
    "Detran.EigenPI.C133_one",
    "Detran.EigenPI.C133_quotients",
    "Detran.EigenPI.C133_more",
    "Detran.EigenPI.C133_above",
    "Detran.EigenPI.C133_under",
    "Detran.EigenPI.C133_positive",
    "Detran.EigenPI.C133_shape",
    "Detran.EigenPI.C133_exists",
    "Detran.Diffusion.C133_diffusion_fluxes",
    "Detran.Diffusion.C133_diffusion_solver",
    "Detran.Diffusion.C133_diffusion_mode",
    "Detran.Diffusion.C133_diffusion_eigen",
    "Detran.Diffusion.C133_diffusion_matrices",
    "Detran.Diffusion.C133_diffusion_ceiling",
    "Detran.Diffusion.C133_diffusion_floor",
    "Detran.Diffusion.C133_diffusion_mixing",
    "Detran.Diffusion.C133_diffusion_more",
    "Detran.MGReflect.C133_fluxes",
    "Detran.MGReflect.C133_flux_solver",
    "Detran.MGReflect.C133_eigen_mode",
    "Detran.MGReflect.C133_mode_eigen",
    "Detran.MGReflect.C133_ceiling",
    "Detran.MGReflect.C133_floor",
    "Detran.MGReflect.C133_flux_below",
    "Detran.MGReflect.C133_flux_more",
    "Detran.MGReflect.C133_flux_mixing"
   ],
   "note": "For any linear solver without negative fluxes: C133_dominant, C133_one, C133_positive, C133_shape, C133_quotients, C133_upper, C133_lower, C133_above, C133_under, C133_more, and over the reals C133_exists (the fissile cells must reach each other). For transport: the solver exists and is such a solver (C133_fluxes, C133_flux_solver), its modes are the fluxes of the eigenvalue problem (C133_eigen_mode, C133_mode_eigen), bounds by the infinite medium (C133_ceiling, C133_floor), comparison (C133_flux_below, C133_flux_more), and fissile cells reach each other if scattering links the groups that fission neutrons are born in to those that fission (C133_flux_mixing, with the cells' hypotheses discharged in C134_slab and C134_rectangle). For diffusion (any dimension, forward and adjoint, fission as a source): C133_diffusion_fluxes, C133_diffusion_solver, C133_diffusion_mode, C133_diffusion_eigen, C133_diffusion_matrices (it is the problem F x = k C x of the loss and gain matrices), C133_diffusion_ceiling, C133_diffusion_floor, C133_diffusion_more, C133_diffusion_mixing. Other real modes are compared; complex ones are not modelled. Diamond differencing in two and three dimensions and in thick cells is not a positive scheme (C132) and is outside."
  },
  {
   "property": "C134",
   "status": "proved",
   "theorems": [
    "Detran.EigenPI.C134_densities",
    "Detran.EigenPI.C134_enclosed",
    "Detran.EigenPI.C134_converges",
    "Detran.EigenPI.C134_nested",
    "Detran.EigenPI.C134_stopped",
    "Detran.EigenPI.C134_error",
    "Detran.EigenPI.C134_returned",
    "Detran.Diffusion.C134_diffusion_sound",
    "Detran.Diffusion.C134_diffusion",
    "Detran.MGReflect.C134_transport",
    "Detran.MGReflect.C134_slab",
    "Detran.MGReflect.C134_rectangle"
   ],
   "note": "C134_densities, C134_enclosed, C134_nested, C134_converges, C134_stopped, C134_error, C134_returned for any linear solver without negative fluxes whose fissile cells reach each other; C134_transport for transport; C134_slab and C134_rectangle for concrete geometries and schemes, existence of the factor included; C134_diffusion for diffusion on any mesh. The statement assumes that the multigroup solver returns the exact fluxes of each fission source (C129 and C132 say how far Gauss-Seidel gets); C143 treats inexact inner solves. Below which tolerance the bound holds depends on the problem: C134_returned gives no number. Relaxation is off (the default)."
  },
  {
   "property": "C135",
   "status": "proved",
   "theorems": [
    "Detran.Kin.C135_diffusion_nonneg",
    "Detran.Kin.C135_diffusion_above",
    "Detran.Kin.C135_diffusion_below",
    "Detran.Kin.C135_transport_nonneg",
    "Detran.Kin.C135_transport_above",
    "Detran.Kin.C135_transport_below",
    "Detran.Kin.C135_transport_1D",
    "Detran.Kin.C135_transport_2D",
    "Detran.Kin.C135_scheme",
    "Detran.Kin.C135_long_step",
    "Detran.Kin.C135_nonneg",
    "Detran.Kin.C135_above",
    "Detran.Kin.C135_below"
   ],
   "note": "C135_nonneg, C135_above and C135_below for any multigroup solver with the comparison property (angular fluxes stored or not); C135_diffusion_nonneg/_above/_below and C135_transport_nonneg/_above/_below discharge it for MGDiffusionSolver and for transport with isotropic synthetic sources; C135_transport_1D and C135_transport_2D say which schemes qualify. C135_scheme: of the seven schemes only backward Euler has the property; C135_long_step: the restriction of the step is needed. Multigroup solves are assumed exact. Fluxes given at sides are outside."
  },
  {
   "property": "C136",
   "status": "proved",
   "theorems": [
    "Detran.MGReflect.Slab.C136_error",
    "Detran.MGReflect.Slab.C136_rate",
    "Detran.MGReflect.Slab.C136_converges",
    "Detran.MGReflect.Slab.C136_passes",
    "Detran.MGReflect.Slab.C136_second",
    "Detran.MGReflect.Slab.C136_step_first_order"
   ],
   "note": "C136_error bounds the error of every mesh by the change of the exact angular fluxes across a cell, with the constant spelt out; C136_rate, C136_converges and C136_passes follow; C136_second is the second order of diamond differencing and step characteristics in any mixture and C136_step_first_order shows that step differencing has no second order (a beam in an absorber). The transport equations are stated as differential equations with side conditions, apart from the code; that they have a solution is assumed (two exact solutions are given as cases). Diamond cells must be no thicker than twice the cosine, which fine meshes ensure.  Exact arithmetic, one flux moment, no discrete sources, no periodic sides."
  },
  {
   "property": "C137",
   "status": "proved",
   "theorems": [
    "Detran.MGReflect.Slab.C137_rate",
    "Detran.MGReflect.Slab.C137_second",
    "Detran.MGReflect.Slab.C137_converges"
   ],
   "note": "C137_rate (all schemes), C137_second (diamond and step characteristics) and C137_converges (power iteration). The eigenvalue problem of the slab is stated as differential equations with side conditions, apart from the code; that it has a solution with positive scalar fluxes is assumed (a bare slab with sine and cosine angular fluxes and factor two is given as a case). The factor of the mesh is the one with positive fission density, which C134 shows to be the largest. Group solves are exact; nothing is said about fluxes of the mode. Exact arithmetic, one flux moment, no periodic sides."
  },
  {
   "property": "C138",
   "status": "proved",
   "theorems": [
    "Detran.Diffusion.Rod.C138_solution",
    "Detran.Diffusion.Rod.C138_second",
    "Detran.Diffusion.Rod.C138_converges"
   ],
   "note": "C138_solution (the mesh has one set of fluxes), C138_second and C138_converges. The diffusion equations are stated as first order differential equations for fluxes and currents with side conditions (partial currents or none), apart from the code; that they have a solution is assumed (a wall with a hyperbolic cosine is given as a case). Exact arithmetic and exact linear solves; one dimension only."
  },
  {
   "property": "C139",
   "status": "proved",
   "theorems": [
    "Detran.Diffusion.Rod.C139_second",
    "Detran.Diffusion.Rod.C139_converges"
   ],
   "note": "C139_second and C139_converges (power iteration, via C134). The eigenvalue problem of the slab is stated as differential equations with side conditions, apart from the code; that it has a solution with positive fluxes is assumed (a critical quarter wave of fuel in front of a mirror is given as a case). The factor of the mesh is the one with positive fission density. Nothing is said about fluxes of the mode. Exact arithmetic and exact linear solves; one dimension only."
  },
  {
   "property": "C140",
   "status": "proved",
   "theorems": [
    "Detran.MGReflect.C140_mirror_slab",
    "Detran.MGReflect.C140_half_slab",
    "Detran.MGReflect.C140_mirror_rectangle",
    "Detran.MGReflect.C140_turned_rectangle",
    "Detran.MGReflect.C140_half_rectangle",
    "Detran.MGReflect.C140_quarter_rectangle",
    "Detran.MGReflect.C140_half_slab_fluxes",
    "Detran.MGReflect.C140_symmetric_slab",
    "Detran.MGReflect.C140_quarter_fluxes",
    "Detran.MGReflect.C140_quarter_fluxes_sc",
    "Detran.MGReflect.C140_half_slab_factor",
    "Detran.MGReflect.C140_quarter_factor"
   ],
   "note": "Unfolding of fluxes and modes for arbitrary cell equations; agreement of fluxes and of Gauss-Seidel iterates under the hypotheses of C129 and of factors under those of C134. Three dimensions are not covered."
  },
  {
   "property": "C141",
   "status": "proved",
   "theorems": [
    "Detran.MGReflect.C141_rectangle_slab",
    "Detran.MGReflect.C141_block_rectangle",
    "Detran.MGReflect.C141_schemes",
    "Detran.MGReflect.C141_rectangle_fluxes",
    "Detran.MGReflect.C141_block_fluxes",
    "Detran.MGReflect.C141_redrawn",
    "Detran.MGReflect.C141_characteristics_fails"
   ],
   "note": "C141_characteristics_fails is the statement about step characteristics: two columns that differ only in height have different fluxes."
  },
  {
   "property": "C142",
   "status": "partial",
   "theorems": [
    "Detran.Kin.C142_order_partial",
    "Detran.Kin.C142_exactly_partial",
    "Detran.Kin.C142_nominal_partial",
    "Detran.Kin.C142_claim_fails"
   ],
   "note": "Full statement: C142Claim (every scheme has the order it is named after). It fails (C142_claim_fails) for backward differences of order four to six, whose first steps limit it to three, and without extrapolation for order three to six, limited to two. Proved: C142_order_partial, convergence at the order attained, for all systems with bounded data and bounded streaming operator whose material depends on time only (no physics feedback), and every solver with a residual bound; C142_exactly_partial, an order holds for all smooth solutions exactly up to the one attained; C142_nominal_partial, which schemes have the order they are named after. The constants depend on the mesh."
  },
  {
   "property": "C143",
   "status": "proved",
   "theorems": [
    "Detran.MGReflect.C143_within",
    "Detran.MGReflect.C143_solves",
    "Detran.MGReflect.C143_gauss_seidel",
    "Detran.EigenPI.C143_densities",
    "Detran.EigenPI.C143_converges",
    "Detran.EigenPI.C143_stopped",
    "Detran.EigenPI.C143_error",
    "Detran.EigenPI.C143_returned",
    "Detran.EigenPI.C143_biased"
   ],
   "note": "C143_densities, C143_converges, C143_stopped, C143_error, C143_returned for any linear nonnegative solver with fissile cells that reach each other (Regular) and any sequence of solves within an absolute error of it; C143_biased shows that accuracy of the solves is needed; C143_within, C143_solves, C143_gauss_seidel link it to Gauss-Seidel (MGSolverGS) with its own tolerances on problems with open sides. The constants depend on the problem: the theorems give no numbers. Relaxation is off (the default). The other multigroup solvers are covered as far as their errors are bounded; no bound is proved for GMRES with a tolerance."
  },
  {
   "property": "C144",
   "status": "proved",
   "theorems": [
    "Detran.Matlab.C144_vector",
    "Detran.Matlab.C144_matrix",
    "Detran.Matlab.C144_assembled",
    "Detran.Matlab.C144_dense",
    "Detran.Matlab.C144_operator",
    "Detran.Matlab.C144_width_lost"
   ],
   "note": "C144_matrix for every CSR matrix without negative columns, C144_assembled from insertions through assembly to the file, C144_dense, C144_operator and C144_vector. The specification is a reader of lines and words that knows nothing of the writer. C144_width_lost: the number of columns is not in the file. That 17 significant digits give a double back is the hypothesis Writes (writes_pq shows that it can be met); opening the file is assumed to succeed (the code does not check), and the operator is taken as a function of its input that fills its whole output."
  },
  {
   "property": "C145",
   "status": "proved",
   "theorems": [
    "Detran.MGReflect.C145_more",
    "Detran.MGReflect.C145_flux_below",
    "Detran.MGReflect.C145_keff",
    "Detran.MGReflect.C145_absorbs_1D",
    "Detran.MGReflect.C145_absorbs_2D",
    "Detran.MGReflect.C145_1D",
    "Detran.MGReflect.C145_2D",
    "Detran.MGReflect.C145_keff_1D",
    "Detran.MGReflect.C145_keff_2D",
    "Detran.MGReflect.C145_thick",
    "Detran.Diffusion.C145_diffusion"
   ],
   "note": "Slabs and rectangles with given sources: C145_1D, C145_2D; multiplication factors: C145_keff_1D, C145_keff_2D. They rest on C145_more, C145_flux_below and C145_keff for any schemes that keep fluxes down as totals go up, which C145_absorbs_1D and C145_absorbs_2D show of the schemes. Diffusion with given sources: C145_diffusion; factors of diffusion: C133_diffusion_more, whose hypotheses allow larger totals. The restriction of diamond differencing is part of the statement and C145_thick shows the need for it."
  },
  {
   "property": "C146",
   "status": "proved",
   "theorems": [
    "Detran.Diffusion.C146_same",
    "Detran.Diffusion.C146_mirror",
    "Detran.Diffusion.C146_half",
    "Detran.Diffusion.C146_flat",
    "Detran.Diffusion.C146_lattice",
    "Detran.Diffusion.C146_unfolds",
    "Detran.Diffusion.C146_fluxes",
    "Detran.Diffusion.C146_currents",
    "Detran.Diffusion.C146_modes",
    "Detran.Diffusion.C146_factor"
   ],
   "note": "One relation between problems (Folds, axis by axis Over) covers all the cases; C146_same, _mirror, _half, _flat and _lattice give the axes. Sides with albedo -1 (zero flux) are not covered."
  },
  {
   "property": "C147",
   "status": "proved",
   "theorems": [
    "Detran.Diffusion.C147_importance",
    "Detran.Diffusion.C147_orthogonal",
    "Detran.Diffusion.C147_keff",
    "Detran.Diffusion.C147_exact",
    "Detran.Diffusion.C147_second",
    "Detran.Diffusion.C147_worse",
    "Detran.MGReflect.C147_transport",
    "Detran.MGReflect.C147_transport_worse",
    "Detran.MGReflect.C147_1D",
    "Detran.MGReflect.C147_2D",
    "Detran.MGReflect.C147_3D"
   ],
   "note": "Diffusion: C147_importance, _orthogonal, _keff, _exact, _second and _worse, about the matrices the code assembles. Transport: C147_transport and _transport_worse for problems with the pairing of opposite sweeps, C147_1D, _2D and _3D for the schemes. Step characteristics is not covered: its closure depends on the total cross section."
  },
  {
   "property": "C148",
   "status": "partial",
   "theorems": [
    "Detran.Homog.C148_medium_partial",
    "Detran.MGReflect.C148_conserved",
    "Detran.MGReflect.C148_mode",
    "Detran.MGReflect.C148_filled",
    "Detran.MGReflect.C148_transport_partial",
    "Detran.MGReflect.C148_1D",
    "Detran.MGReflect.C148_2D",
    "Detran.MGReflect.C148_3D",
    "Detran.Diffusion.C148_diffusion_mode",
    "Detran.Diffusion.C148_diffusion_filled",
    "Detran.Diffusion.C148_diffusion_partial",
    "Detran.Diffusion.C148_two_step_partial",
    "Detran.Homog.C148_births_lost",
    "Detran.Homog.C148_claim_fails",
    "Detran.Homog.C148_thermal",
    "Detran.Homog.C148_spectra",
    "Detran.Homog.C148_last_group"
   ],
   "note": "The full statement fails (C148_claim_fails): where no fission takes place in a coarse group homogenize sets no spectrum, so that fuel with fast births and slow fissions gets constants without births and without any mode (C148_births_lost, C148_thermal); spectra are averaged with the neutrons made in the last fine group alone (C148_spectra), zero by zero if there are none (C148_last_group). Proved for one common spectrum, production in the last group and fissions in every coarse group that emits: C148_medium_partial, C148_transport_partial, C148_diffusion_partial and C148_two_step_partial, with the balance of the cell from C148_conserved, C148_mode, C148_1D, _2D, _3D and C148_diffusion_mode, and the filled domain from C148_filled and C148_diffusion_filled."
  },
  {
   "property": "C149",
   "status": "partial",
   "theorems": [
    "Detran.WGReflect.C149_kept",
    "Detran.WGReflect.C149_open_sides",
    "Detran.WGReflect.C149_1D",
    "Detran.WGReflect.C149_1D_sc",
    "Detran.WGReflect.C149_2D_step",
    "Detran.WGReflect.C149_2D_sc",
    "Detran.WGReflect.C149_2D_partial",
    "Detran.WGReflect.C149_mirrors",
    "Detran.WGReflect.C149_undetermined",
    "Detran.WGReflect.C149_silent",
    "Detran.WGReflect.C149_3D_partial",
    "Detran.WGReflect.C149_layers",
    "Detran.WGReflect.C149_claim_fails"
   ],
   "note": "The full statement fails (C149_claim_fails): a rectangle with four reflecting sides and diamond differencing has, for every angle, a pattern of alternating signs at the sides that any solution can be changed by (C149_undetermined), and nothing else (C149_mirrors); a box whose sides across two directions reflect has one such pattern for every layer (C149_layers). Such a pattern put on the boundary before a solve is still there after any number of passes of source iteration, which find the same fluxes in the cells (C149_kept, C149_silent). Proved: cells and sides that do not reflect always (C149_open_sides), slabs (C149_1D, C149_1D_sc), step differencing and step characteristics on rectangles (C149_2D_step, C149_2D_sc), diamond differencing on rectangles with a side that does not reflect (C149_2D_partial) and in boxes with such sides across two directions (C149_3D_partial)."
  },
  {
   "property": "C150",
   "status": "partial",
   "theorems": [
    "Detran.WGReflect.C150_kernel",
    "Detran.WGReflect.C150_solvable",
    "Detran.WGReflect.C150_singular",
    "Detran.WGReflect.C150_1D",
    "Detran.WGReflect.C150_1D_sc",
    "Detran.WGReflect.C150_2D_step",
    "Detran.WGReflect.C150_2D_sc",
    "Detran.WGReflect.C150_2D_partial",
    "Detran.WGReflect.C150_mirrors",
    "Detran.WGReflect.C150_four_mirrors",
    "Detran.WGReflect.C150_3D_partial",
    "Detran.WGReflect.C150_tube",
    "Detran.WGReflect.C150_claim_fails"
   ],
   "note": "The full statement fails (C150_claim_fails): with diamond differencing a rectangle with four reflecting sides has a singular operator (C150_four_mirrors), whose null vectors are exactly the alternating patterns, one for every angle (C150_mirrors); so has a box with mirrors across y and z, whatever its sides across x are (C150_tube). Proved: the null vectors of any group that scatters less than it collides have no flux in the cells and at the sides only fluxes that go with none (C150_kernel), so without such fluxes every right-hand side has exactly one solution (C150_solvable) and with them not (C150_singular); slabs (C150_1D, C150_1D_sc), rectangles with step differencing and step characteristics (C150_2D_step, C150_2D_sc), with diamond differencing if a side does not reflect (C150_2D_partial), boxes if sides across two directions do not (C150_3D_partial)."
  },
  {
   "property": "C151",
   "status": "partial",
   "theorems": [
    "Detran.MGReflect.C151_kernel",
    "Detran.MGReflect.C151_solvable",
    "Detran.MGReflect.C151_singular",
    "Detran.MGReflect.C151_1D",
    "Detran.MGReflect.C151_1D_sc",
    "Detran.MGReflect.C151_2D_step",
    "Detran.MGReflect.C151_2D_sc",
    "Detran.MGReflect.C151_2D_partial",
    "Detran.MGReflect.C151_four_mirrors",
    "Detran.MGReflect.C151_3D_partial",
    "Detran.MGReflect.C151_tube",
    "Detran.MGReflect.C151_claim_fails"
   ],
   "note": "The full statement fails (C151_claim_fails): with diamond differencing a rectangle with four reflecting sides has a singular operator as soon as there is one group in the block and one angle (C151_four_mirrors), and so has a box with mirrors across y and z (C151_tube). Proved: the null vectors of any coupled groups have no flux in the cells and in every group only fluxes at the sides that go with none (C151_kernel), so without such fluxes every right-hand side has exactly one solution (C151_solvable) and with them in a single group not (C151_singular); slabs (C151_1D, C151_1D_sc), rectangles with step differencing and step characteristics (C151_2D_step, C151_2D_sc), with diamond differencing if a side does not reflect (C151_2D_partial), boxes if sides across two directions do not (C151_3D_partial)."
  },
  {
   "property": "C152",
   "status": "proved",
   "theorems": [
    "Detran.WGReflect.C152_group",
    "Detran.WGReflect.C152_open",
    "Detran.WGReflect.C152_1D",
    "Detran.WGReflect.C152_1D_sc",
    "Detran.WGReflect.C152_2D_step",
    "Detran.WGReflect.C152_2D_sc",
    "Detran.WGReflect.C152_2D",
    "Detran.WGReflect.C152_3D",
    "Detran.MGReflect.C152_groups",
    "Detran.MGReflect.C152_groups_1D",
    "Detran.MGReflect.C152_groups_2D_step",
    "Detran.MGReflect.C152_groups_2D_sc",
    "Detran.MGReflect.C152_groups_2D",
    "Detran.MGReflect.C152_groups_3D"
   ],
   "note": "C152_group and C152_groups, run on the operators of C124 and C125 with the solver of C95: hypotheses discharged by C150 and C151 in C152_1D, _1D_sc, _2D, _2D_step, _2D_sc, _3D and C152_groups_1D, _2D, _2D_step, _2D_sc, _3D; C152_open adds that there is a flux to find. Exact arithmetic over any ordered field with a square root; positive absolute tolerance. Where mirrors make the operator singular (C150, C151) nothing is claimed. The multigroup diffusion preconditioner is singular if a side reflects (C111_boundary_zero), so it is not among the preconditioners meant then."
  },
  {
   "property": "C153",
   "status": "proved",
   "theorems": [
    "Detran.WGReflect.C153_group",
    "Detran.WGReflect.C153_2D",
    "Detran.WGReflect.C153_3D",
    "Detran.MGReflect.C153_groups",
    "Detran.MGReflect.C153_groups_2D",
    "Detran.MGReflect.C153_groups_3D"
   ],
   "note": "C153_group and C153_groups from the energy balance of C150 and C151 (no flux leaves a null vector of the operator behind, so null space and range meet only in zero and every right-hand side the solvers build is in the range), discharged for diamond differencing in C153_2D, _3D, _groups_2D, _groups_3D; slabs and step schemes are never singular (C150, C152). Exact arithmetic over any ordered field with a square root; positive absolute tolerance. With a preconditioner nothing is claimed for singular systems."
  },
  {
   "property": "C154",
   "status": "partial",
   "theorems": [
    "Detran.MGReflect.C154_open_sides",
    "Detran.MGReflect.C154_1D",
    "Detran.MGReflect.C154_1D_sc",
    "Detran.MGReflect.C154_2D_step",
    "Detran.MGReflect.C154_2D_sc",
    "Detran.MGReflect.C154_2D_partial",
    "Detran.MGReflect.C154_mirrors",
    "Detran.MGReflect.C154_3D_partial",
    "Detran.MGReflect.C154_claim_fails"
   ],
   "note": "The full statement fails (C154_claim_fails): between four mirrors diamond differencing leaves one amount of an alternating pattern per group and angle open; any amounts are possible, and nothing else (C154_mirrors). Proved: cells and sides that do not reflect always (C154_open_sides), slabs (C154_1D, C154_1D_sc), step differencing and step characteristics on rectangles (C154_2D_step, C154_2D_sc), diamond differencing on rectangles with a side that does not reflect (C154_2D_partial) and in boxes with such sides across two directions (C154_3D_partial)."
  },
  {
   "property": "C155",
   "status": "proved",
   "theorems": [
    "Detran.Diffusion.C155_jacobi",
    "Detran.Diffusion.C155_diffusion"
   ],
   "note": "C155_diffusion from the uniqueness of C132 and the GMRES theorems of C95; C155_jacobi shows that no preconditioner and the Jacobi preconditioner on either side meet its hypotheses. Exact arithmetic over any ordered field with a square root; positive absolute tolerance. The incomplete factorizations are covered where they are nonsingular, which is not shown here."
  },
  {
   "property": "C156",
   "status": "proved",
   "theorems": [
    "Detran.Solver.C156_wellformed",
    "Detran.Diffusion.C156_dominant",
    "Detran.Diffusion.C156_diffusion",
    "Detran.Solver.C156_jacobi",
    "Detran.Solver.C156_gauss_seidel",
    "Detran.Solver.C156_sweeps",
    "Detran.Solver.C156_residual",
    "Detran.Solver.C156_successive",
    "Detran.Solver.C156_solves",
    "Detran.Solver.C156_norms"
   ],
   "note": "C156_jacobi, C156_gauss_seidel (one sweep), C156_sweeps, C156_residual, C156_successive (what the monitored norms say about the error), C156_solves (whole solves), C156_norms (the absolute norms of the vector class meet its hypotheses, over the reals), C156_wellformed (assembled matrices), C156_dominant and C156_diffusion (the diffusion operator). Exact arithmetic; C156_solves over any Archimedean ordered field. The relative kinds of norm are not covered."
  },
  {
   "property": "C157",
   "status": "proved",
   "theorems": [
    "Detran.Solver.C157_monotone",
    "Detran.Solver.C157_side",
    "Detran.Solver.C157_positive",
    "Detran.Solver.C157_rising",
    "Detran.Solver.C157_falling",
    "Detran.Solver.C157_enclosure",
    "Detran.Diffusion.C157_diffusion"
   ],
   "note": "C157_monotone, C157_side, C157_positive, C157_rising, C157_falling (one sweep), C157_enclosure (whole solves), C157_diffusion (the diffusion operator). Exact arithmetic over any ordered field."
  },
  {
   "property": "C158",
   "status": "partial",
   "theorems": [
    "Detran.Solver.C158_step",
    "Detran.Solver.C158_jacobi_step",
    "Detran.Solver.C158_plain_partial",
    "Detran.Solver.C158_jacobi_partial",
    "Detran.Solver.C158_zero_partial",
    "Detran.Solver.C158_succeeds",
    "Detran.Solver.C158_false_success",
    "Detran.Solver.C158_claim_fails"
   ],
   "note": "The full statement is C158Claim; it is false (C158_claim_fails): with a left preconditioner the first residual compares the unpreconditioned product with the preconditioned right-hand side, so success can be reported at once for a wrong vector whatever the tolerance (C158_false_success). Proved: C158_plain_partial (no preconditioner, everything claimed) and C158_jacobi_partial (Jacobi preconditioner, success after at least one iteration; the threshold is then still relative to the wrong first residual) and C158_zero_partial (Jacobi preconditioner, started from zero: everything claimed), from C158_step and C158_jacobi_step; C158_succeeds: with enough iterations allowed every solve reports success. Exact arithmetic over any ordered field."
  }
 ]
}