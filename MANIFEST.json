{
 "claims": [
  {
   "property": "C01",
   "status": "partial",
   "theorems": [
    "Serac.C01.C01_roundtrip_partial",
    "Serac.C01.C01_no_aliasing",
    "Serac.C01.C01_index_wrong",
    "Serac.C01.C01_sign_flag_lost",
    "Serac.C01.C01_wide_index_leaks"
   ],
   "note": "The sign flag is never stored (operator precedence in the constructor), and the index mask covers the whole word, so every orientation but 0 leaks into the index; both proved for every index. The orientation and the low 32 bits of the index, which all users cast to, survive."
  },
  {
   "property": "C02",
   "status": "proved",
   "theorems": [
    "Serac.C02.C02_decode_pack",
    "Serac.C02.C02_pack_decode",
    "Serac.C02.C02_injective"
   ],
   "note": ""
  },
  {
   "property": "C03",
   "status": "proved",
   "theorems": [
    "Serac.C03.C03_triangle",
    "Serac.C03.C03_quadrilateral",
    "Serac.C03.C03_tetrahedron",
    "Serac.C03.C03_hexahedron",
    "Serac.C03.C03_lexicographic_tri",
    "Serac.C03.C03_lexicographic_quad",
    "Serac.C03.C03_lexicographic_tet",
    "Serac.C03.C03_lexicographic_hex"
   ],
   "note": ""
  },
  {
   "property": "C04",
   "status": "proved",
   "theorems": [
    "Serac.C04.C04_segment",
    "Serac.C04.C04_triangle",
    "Serac.C04.C04_square",
    "Serac.C04.C04_triangle_group",
    "Serac.C04.C04_square_group",
    "Serac.C04.C04_triangle_vertices",
    "Serac.C04.C04_square_vertices"
   ],
   "note": "MFEM's orientation codes are taken from the comments in the source."
  },
  {
   "property": "C05",
   "status": "proved",
   "theorems": [
    "Serac.C05.C05_tri",
    "Serac.C05.C05_quad",
    "Serac.C05.C05_tet_position",
    "Serac.C05.C05_hex_position",
    "Serac.C05.C05_tet",
    "Serac.C05.C05_hex"
   ],
   "note": "MFEM's face vertex lists are taken from the comments in the source."
  },
  {
   "property": "C06",
   "status": "partial",
   "theorems": [
    "Serac.C06.C06_bijection",
    "Serac.C06.C06_position",
    "Serac.C06.C06_vdof_partial",
    "Serac.C06.C06_injective",
    "Serac.C06.C06_word",
    "Serac.C06.C06_orientation_wrong",
    "Serac.C06.C06_sign_wrong"
   ],
   "note": "Positions (the 32 bits that are used) are right for every sign and orientation. Orientation and sign are multiplied along with the index, because the index mask does not remove them: wrong for every orientation but 0 with nodes first, and the sign is lost for an even number of components; proved."
  },
  {
   "property": "C07",
   "status": "proved",
   "theorems": [
    "Serac.C07.C07_gather",
    "Serac.C07.C07_scatterAdd",
    "Serac.C07.C07_transpose",
    "Serac.C07.C07_out_of_range",
    "Serac.C07.C07_multiplicity",
    "Serac.C07.C07_positions"
   ],
   "note": ""
  },
  {
   "property": "C08",
   "status": "partial",
   "theorems": [
    "Serac.C08.C08_offsets",
    "Serac.C08.C08_partition",
    "Serac.C08.C08_gather",
    "Serac.C08.C08_scatterAdd",
    "Serac.C08.C08_transpose",
    "Serac.C08.C08_lsize",
    "Serac.C08.C08_esize_wrong",
    "Serac.C08.C08_esize_partial"
   ],
   "note": "BlockElementRestriction::ESize returns something other than the total block size; negation proved."
  },
  {
   "property": "C09",
   "status": "partial",
   "theorems": [
    "Serac.C09.C09_valid_partial",
    "Serac.C09.C09_lookup",
    "Serac.C09.C09_trailing_row_wrong",
    "Serac.C09.C09_empty_is_undefined",
    "Serac.C09.C09_action_partial",
    "Serac.C09.C09_assembled_eq_matrix_free_partial"
   ],
   "note": "Row pointers of untouched trailing rows stay 0 and an empty table is dereferenced; both negations proved. The matrix-free agreement is proved for one geometry and one integral here and for whole meshes in C53."
  },
  {
   "property": "C10",
   "status": "partial",
   "theorems": [
    "Serac.C10.C10_vertices",
    "Serac.C10.C10_edges3",
    "Serac.C10.C10_edges2_partial",
    "Serac.C10.C10_edges2_wrong",
    "Serac.C10.C10_faces2",
    "Serac.C10.C10_faces3",
    "Serac.C10.C10_elements",
    "Serac.C10.C10_elements_unsupported",
    "Serac.C10.C10_boundary_elements",
    "Serac.C10.C10_entire_domain",
    "Serac.C10.C10_entire_boundary"
   ],
   "note": "Fails for 2D edges: the edge that is boundary element 0 is given attribute -1 (C10_edges2_wrong)."
  },
  {
   "property": "C11",
   "status": "partial",
   "theorems": [
    "Serac.C11.C11_union_partial",
    "Serac.C11.C11_intersection_partial",
    "Serac.C11.C11_difference_partial",
    "Serac.C11.C11_partition_partial",
    "Serac.C11.C11_element_dofs_partial",
    "Serac.C11.C11_boundary_dofs_partial",
    "Serac.C11.C11_combined_dofs_lost",
    "Serac.C11.C11_entire_domain_dofs_lost",
    "Serac.C11.C11_faces3_dofs_wrong"
   ],
   "note": "The set part holds; dofs of combined and entire domains are lost and 3D face domains report element dofs (negations proved)."
  },
  {
   "property": "C12",
   "status": "proved",
   "theorems": [
    "Serac.C12.C12_derivative",
    "Serac.C12.C12_value",
    "Serac.C12.C12_make_dual",
    "Serac.C12.C12_partial_derivatives"
   ],
   "note": "Over the reals. At kinks of abs/max/min only the value is claimed."
  },
  {
   "property": "C13",
   "status": "proved",
   "theorems": [
    "Serac.C13.C13_products",
    "Serac.C13.C13_structure",
    "Serac.C13.C13_det",
    "Serac.C13.C13_detApIm1",
    "Serac.C13.C13_I2",
    "Serac.C13.C13_inv2",
    "Serac.C13.C13_inv3",
    "Serac.C13.C13_dev",
    "Serac.C13.C13_sym",
    "Serac.C13.C13_cross",
    "Serac.C13.C13_inv_dual",
    "Serac.C13.C13_inv_dual_small"
   ],
   "note": "Over a field (the reals for derivatives); rounding is not modelled."
  },
  {
   "property": "C14",
   "status": "partial",
   "theorems": [
    "Serac.C14.C14_factors_partial",
    "Serac.C14.C14_solve_partial",
    "Serac.C14.C14_two",
    "Serac.C14.C14_zero_pivot",
    "Serac.C14.C14_derivative_partial"
   ],
   "note": "Row exchanges are done for all columns before any elimination, so an exactly zero pivot can be met on an invertible 3x3 matrix (C14_zero_pivot, for every scale). Otherwise factors, solution and derivative are right for every size; sizes 1 and 2 are always solved."
  },
  {
   "property": "C15",
   "status": "partial",
   "theorems": [
    "Serac.C15.C15_not_bracketed",
    "Serac.C15.C15_iterates_partial",
    "Serac.C15.C15_shrinks_partial",
    "Serac.C15.C15_result_partial",
    "Serac.C15.C15_root_enclosed",
    "Serac.C15.C15_undefined_only",
    "Serac.C15.C15_stationary_root",
    "Serac.C15.C15_root_gradient"
   ],
   "note": "At an iterate with f = 0 and df_dx = 0 exactly the Newton branch divides 0 by 0 (C15_stationary_root); that is the only way a run is undefined (C15_undefined_only)."
  },
  {
   "property": "C16",
   "status": "partial",
   "theorems": [
    "Serac.C16.C16_powers",
    "Serac.C16.C16_chebyshevT",
    "Serac.C16.C16_chebyshevU",
    "Serac.C16.C16_chebyshev_trig",
    "Serac.C16.C16_legendre",
    "Serac.C16.C16_factorial_partial",
    "Serac.C16.C16_factorial_overflow",
    "Serac.C16.C16_bernstein_partial",
    "Serac.C16.C16_bernstein_sum_partial",
    "Serac.C16.C16_bernstein_overflow"
   ],
   "note": "factorial multiplies 32-bit ints, so Bernstein is undefined for more than 13 polynomials (C16_bernstein_overflow, for every n >= 14); the other families are proved for every length."
  },
  {
   "property": "C17",
   "status": "partial",
   "theorems": [
    "Serac.C17.C17_lobatto_delta",
    "Serac.C17.C17_lobatto_sum",
    "Serac.C17.C17_lobatto_derivative",
    "Serac.C17.C17_lobatto_nodes",
    "Serac.C17.C17_sqrt5_literal",
    "Serac.C17.C17_legendre_delta_partial",
    "Serac.C17.C17_legendre_sum_partial",
    "Serac.C17.C17_legendre_derivative_partial",
    "Serac.C17.C17_quad_delta",
    "Serac.C17.C17_quad_sum_grad",
    "Serac.C17.C17_hex_delta",
    "Serac.C17.C17_hex_sum_grad",
    "Serac.C17.C17_triangle",
    "Serac.C17.C17_tetrahedron"
   ],
   "note": "Gauss-Lobatto based elements: exact for the true square root of five, the effect of the literal is bounded (C17_sqrt5_literal). Gauss-Legendre bases use decimal literals, so their identities hold to within stated bounds only."
  },
  {
   "property": "C18",
   "status": "partial",
   "theorems": [
    "Serac.C18.C18_H1_pull",
    "Serac.C18.C18_H1_push",
    "Serac.C18.C18_weak_form_H1",
    "Serac.C18.C18_weak_form_QOI",
    "Serac.C18.C18_negative_partial",
    "Serac.C18.C18_curl2_pull",
    "Serac.C18.C18_curl3_pull",
    "Serac.C18.C18_curl2_push",
    "Serac.C18.C18_curl3_push",
    "Serac.C18.C18_weak_form_curl3",
    "Serac.C18.C18_weak_form_curl2"
   ],
   "note": "Full for Jacobians of positive determinant. For negative determinant the measure is signed, so the code's integral is minus the physical one (C18_negative_partial). Integrals are exact integrals, quadrature error is not considered."
  },
  {
   "property": "C19",
   "status": "partial",
   "theorems": [
    "Serac.C19.C19_displaced_map",
    "Serac.C19.C19_position",
    "Serac.C19.C19_H1_trial",
    "Serac.C19.C19_H1_test",
    "Serac.C19.C19_QOI_test",
    "Serac.C19.C19_curl2_trial",
    "Serac.C19.C19_curl2_test",
    "Serac.C19.C19_curl3_test",
    "Serac.C19.C19_curl3_trial_partial",
    "Serac.C19.C19_curl3_wrong",
    "Serac.C19.C19_kernel",
    "Serac.C19.C19_weak_form_H1",
    "Serac.C19.C19_boundary3",
    "Serac.C19.C19_boundary2",
    "Serac.C19.C19_area"
   ],
   "note": "Holds for every supported space except three-dimensional Hcurl trial functions, where the code omits the division by det J (C19_curl3_wrong gives the exact set of inputs on which it is right)."
  },
  {
   "property": "C20",
   "status": "partial",
   "theorems": [
    "Serac.C20.C20_direct",
    "Serac.C20.C20_rate",
    "Serac.C20.C20_rate_displacement_wrong",
    "Serac.C20.C20_full",
    "Serac.C20.C20_full_acceleration_wrong",
    "Serac.C20.C20_explicit",
    "Serac.C20.C20_free",
    "Serac.C20.C20_newmark_direct",
    "Serac.C20.C20_newmark_rate",
    "Serac.C20.C20_backward_euler",
    "Serac.C20.C20_step_full_wrong",
    "Serac.C20.C20_step_full_hits_free_dof",
    "Serac.C20.C20_step_full_partial"
   ],
   "note": "Fails as stated: RateControl does not prescribe the displacement, FullControl's acceleration is not the documented one, and FullControl's post-step correction writes the wrong dofs (all proved). DirectControl is proved for every stage and every run of Newmark and backward Euler; mfem's integrator formulas and the solver leaving constrained entries alone are assumptions."
  },
  {
   "property": "C21",
   "status": "partial",
   "theorems": [
    "Serac.C21.C21_stage",
    "Serac.C21.C21_explicit",
    "Serac.C21.C21_free",
    "Serac.C21.C21_direct_run",
    "Serac.C21.C21_rate_run",
    "Serac.C21.C21_full_value_wrong",
    "Serac.C21.C21_full_value_square"
   ],
   "note": "Stage values and rates are proved for every integrator and method; after a backward Euler step FullControl does not give the documented end value (C21_full_value_wrong). Whole runs here are for backward Euler, whose formula is an assumption about mfem; the other Runge-Kutta methods are in C91."
  },
  {
   "property": "C22",
   "status": "partial",
   "theorems": [
    "Serac.C22.C22_second_order_partial",
    "Serac.C22.C22_backward_euler_partial",
    "Serac.C22.C22_backward_euler_after_wrong",
    "Serac.C22.C22_backward_euler_twice_wrong",
    "Serac.C22.C22_second_after_backward_euler_wrong",
    "Serac.C22.C22_second_order_abort",
    "Serac.C22.C22_first_order"
   ],
   "note": "Holds for FirstOrderODE on every sequence. For SecondOrderODE it fails whenever backward Euler is mixed with other selections or selected twice (proved for all such sequences)."
  },
  {
   "property": "C23",
   "status": "partial",
   "theorems": [
    "Serac.C23.C23_iteration",
    "Serac.C23.C23_budget",
    "Serac.C23.C23_accepted_is_evaluated",
    "Serac.C23.C23_report_partial",
    "Serac.C23.C23_nan_report_stale",
    "Serac.C23.C23_nan_reports_converged_wrong",
    "Serac.C23.C23_throw_wrong"
   ],
   "note": "Work bound and acceptance are proved for every residual. The report is right unless the last norm is NaN, in which case it is left over from the previous call, and a residual that throws at the initial guess makes the relative tolerance meaningless (both proved)."
  },
  {
   "property": "C24",
   "status": "partial",
   "theorems": [
    "Serac.C24.C24_project",
    "Serac.C24.C24_project_between",
    "Serac.C24.C24_dogleg",
    "Serac.C24.C24_cg",
    "Serac.C24.C24_cg_decrease",
    "Serac.C24.C24_cg_defined",
    "Serac.C24.C24_dogleg_decrease",
    "Serac.C24.C24_model_step_decrease",
    "Serac.C24.C24_attempt_decrease",
    "Serac.C24.C24_run_partial",
    "Serac.C24.C24_radius",
    "Serac.C24.C24_accept_partial",
    "Serac.C24.C24_zero_model_wrong",
    "Serac.C24.C24_nan_report_stale_wrong"
   ],
   "note": "Step lengths, radius changes and work bound hold for every problem. The report is right unless the residual at the initial guess is NaN (stale report) or throws (exception leaves the solver); acceptance is reversed when the model objective is exactly zero (proved)."
  },
  {
   "property": "C25",
   "status": "partial",
   "theorems": [
    "Serac.C25.C25_query",
    "Serac.C25.C25_granted",
    "Serac.C25.C25_requested_partial",
    "Serac.C25.C25_second_component_wrong",
    "Serac.C25.C25_undefined"
   ],
   "note": "Cache, sorting and union hold after every call sequence. Not every requested condition is registered: attributes named before are dropped whatever the component (C25_second_component_wrong)."
  },
  {
   "property": "C26",
   "status": "proved",
   "theorems": [
    "Serac.C26.C26_sum",
    "Serac.C26.C26_apply",
    "Serac.C26.C26_once",
    "Serac.C26.C26_symmetric",
    "Serac.C26.C26_invariant",
    "Serac.C26.C26_exact_correction",
    "Serac.C26.C26_krylov_correction",
    "Serac.C26.C26_jacobi",
    "Serac.C26.C26_newton",
    "Serac.C26.C26_keeps",
    "Serac.C26.C26_trust_region",
    "Serac.C26.C26_warm_start"
   ],
   "note": "mfem's EliminateRowsCols/EliminateBC are transcribed from their documentation. Keeping the values needs the linear solve to map vectors that vanish on the constrained dofs to such vectors; proved for exact solves and for Krylov methods whose preconditioner does."
  },
  {
   "property": "C27",
   "status": "partial",
   "theorems": [
    "Serac.C27.C27_history_partial",
    "Serac.C27.C27_disk_query_wrong",
    "Serac.C27.C27_disk_query_iff",
    "Serac.C27.C27_disk_reverse_wrong",
    "Serac.C27.C27_disk_cache_wrong",
    "Serac.C27.C27_readvance_wrong",
    "Serac.C27.C27_offset_wrong",
    "Serac.C27.C27_offset_reverse_wrong"
   ],
   "note": "Proved for memory checkpoints, start cycle 0 and forward steps taken from the latest cycle, for every such call sequence. In the other three situations the code is wrong; the theorems named _wrong show how, for all inputs."
  },
  {
   "property": "C28",
   "status": "partial",
   "theorems": [
    "Serac.C28.C28_manager",
    "Serac.C28.C28_parameters_partial",
    "Serac.C28.C28_fields_wrong",
    "Serac.C28.C28_shape_wrong",
    "Serac.C28.C28_solid_wrong",
    "Serac.C28.C28_heat_wrong",
    "Serac.C28.C28_overwrite_wrong"
   ],
   "note": "The state manager returns what was saved; parameters and time are restored. The module constructors zero all primal fields after reading them, so a restart continues from zero fields; with disk checkpoints the restart file is overwritten."
  },
  {
   "property": "C29",
   "status": "partial",
   "theorems": [
    "Serac.C29.C29_gradient_partial",
    "Serac.C29.C29_first_step",
    "Serac.C29.C29_first_step_wrong",
    "Serac.C29.C29_velocity_load",
    "Serac.C29.C29_velocity_load_wrong",
    "Serac.C29.C29_stale_load_wrong",
    "Serac.C29.C29_second_pass_wrong",
    "Serac.C29.C29_quasistatic"
   ],
   "note": "Any number of steps and step sizes, any nonlinear residual in (u, a, parameter), any differentiable objective; gives initial displacement, initial velocity and parameter gradients. Proved when no velocity loads are used, acceleration loads are given always or never, and the first step has size zero. The code violates the claim otherwise: the _wrong theorems show it for a non-zero first step, velocity loads, a load left out after being given, and a second pass after resetAdjointStates. quasistatic: the static branch is exact. Linear solver assumed exact."
  },
  {
   "property": "C30",
   "status": "partial",
   "theorems": [
    "Serac.C30.C30_gradient_partial",
    "Serac.C30.C30_zero_step_wrong",
    "Serac.C30.C30_stale_load_wrong",
    "Serac.C30.C30_second_pass_wrong",
    "Serac.C30.C30_nonsymmetric_wrong"
   ],
   "note": "Any number of steps of non-zero size, any nonlinear residual with symmetric capacity matrix, any differentiable objective of temperatures and rates. The code violates the claim for a rate load left out after being given, a second pass after resetAdjointStates, a step of size zero; nonsymmetric_wrong shows symmetry is needed. Linear solver assumed exact."
  },
  {
   "property": "C31",
   "status": "partial",
   "theorems": [
    "Serac.C31.C31_linear",
    "Serac.C31.C31_svk",
    "Serac.C31.C31_neoHookean",
    "Serac.C31.C31_parameterized",
    "Serac.C31.C31_first_order_partial",
    "Serac.C31.C31_svk2",
    "Serac.C31.C31_svk2_wrong",
    "Serac.C31.C31_parameterized3",
    "Serac.C31.C31_parameterized2_wrong"
   ],
   "note": "Stress symmetry, objectivity and zero stress at rest for every material and state; linearisation to the stated moduli in 3D. In 2D the St. Venant-Kirchhoff model and the parameterized models linearise to other moduli (proved), because dev and the bulk correction divide by the dimension."
  },
  {
   "property": "C32",
   "status": "partial",
   "theorems": [
    "Serac.C32.C32_defined",
    "Serac.C32.C32_hooke",
    "Serac.C32.C32_invariants",
    "Serac.C32.C32_elastic",
    "Serac.C32.C32_distance",
    "Serac.C32.C32_yield_partial",
    "Serac.C32.C32_inside_partial",
    "Serac.C32.C32_repeat_partial",
    "Serac.C32.C32_history",
    "Serac.C32.C32_linear",
    "Serac.C32.C32_laws",
    "Serac.C32.C32_softening",
    "Serac.C32.C32_unconverged_wrong"
   ],
   "note": "Every history, hardening law and admissible moduli. The yield condition and repeatability need a converged scalar solve, which is proved for linear hardening; the code ignores the solver status, and C32_unconverged_wrong gives an admissible smooth law for which 25 iterations do not converge and the yield condition fails."
  },
  {
   "property": "C33",
   "status": "proved",
   "theorems": [
    "Serac.C33.C33_kirchhoff",
    "Serac.C33.C33_cauchy",
    "Serac.C33.C33_kirchhoff_iff",
    "Serac.C33.C33_flux_on",
    "Serac.C33.C33_flux_off",
    "Serac.C33.C33_agree",
    "Serac.C33.C33_power",
    "Serac.C33.C33_angular",
    "Serac.C33.C33_frame",
    "Serac.C33.C33_energy"
   ],
   "note": "Symmetric stress for the two conversion functions, which work with the transpose of the stress they are given (C33_kirchhoff_iff: right exactly for symmetric stresses); any stress for the integrand. Also frame indifference, angular momentum and, for the two hyperelastic models, that the flux is the gradient of a stored energy."
  },
  {
   "property": "C34",
   "status": "proved",
   "theorems": [
    "Serac.C34.C34_size",
    "Serac.C34.C34_ranges",
    "Serac.C34.C34_pressures",
    "Serac.C34.C34_gaps",
    "Serac.C34.C34_split",
    "Serac.C34.C34_round_trip",
    "Serac.C34.C34_ranks"
   ],
   "note": "For every sequence of add/query/residual calls.  The size of each interaction's pressure space is constant after it is added; inactive entries are set to zero when pressures are written back.  Hypre vector views are modelled as index ranges; the parallel offsets are the assumed-partition formula."
  },
  {
   "property": "C35",
   "status": "partial",
   "theorems": [
    "Serac.C35.C35_active_set",
    "Serac.C35.C35_gap_rows",
    "Serac.C35.C35_identity_partial",
    "Serac.C35.C35_system_partial",
    "Serac.C35.C35_mixed_wrong",
    "Serac.C35.C35_late_penalty_wrong",
    "Serac.C35.C35_defined",
    "Serac.C35.C35_penalty",
    "Serac.C35.C35_penalty_partial",
    "Serac.C35.C35_penalty_wrong",
    "Serac.C35.C35_repeat"
   ],
   "note": "Every call sequence and interaction data. The identity block is right when penalty interactions with inactive dofs come after all multiplier interactions; otherwise the code puts ones in rows of active multipliers (C35_mixed_wrong) or reads past the offsets (C35_late_penalty_wrong). Penalty pressures are tensile exactly where a closed contact opens, and the residual depends on the previous evaluation there (C35_penalty, C35_repeat). Tribol's data, EliminateRows and block stacking are assumptions."
  },
  {
   "property": "C36",
   "status": "partial",
   "theorems": [
    "Serac.C36.C36_run_partial",
    "Serac.C36.C36_sizes",
    "Serac.C36.C36_zero_step_wrong",
    "Serac.C36.C36_backward_step",
    "Serac.C36.C36_nonpositive_step",
    "Serac.C36.C36_stuck_wrong"
   ],
   "note": "Exact arithmetic: number of steps, all step sizes, cycle and end time for every start, end and step. A run started at its final time takes one step of size zero; under rounding the loop does not end if the step vanishes against the time (both proved)."
  },
  {
   "property": "C37",
   "status": "partial",
   "theorems": [
    "Serac.C37.C37_vector",
    "Serac.C37.C37_accept",
    "Serac.C37.C37_kind",
    "Serac.C37.C37_empty_wrong",
    "Serac.C37.C37_component",
    "Serac.C37.C37_scalar_partial",
    "Serac.C37.C37_above_wrong",
    "Serac.C37.C37_key_wrong",
    "Serac.C37.C37_vector_partial",
    "Serac.C37.C37_length_wrong",
    "Serac.C37.C37_attrs"
   ],
   "note": "Acceptance and kinds hold for every entry with non-empty tables. Piecewise constants are right up to the largest attribute in the table; above it, and for keys below one or vectors of different lengths, the code accesses memory outside its vectors (proved). mfem's PWConstCoefficient and Inlet's contains/get are assumptions."
  },
  {
   "property": "C38",
   "status": "proved",
   "theorems": [
    "Serac.C38.C38_name",
    "Serac.C38.C38_round_trip",
    "Serac.C38.C38_injective",
    "Serac.C38.C38_remove",
    "Serac.C38.C38_parameters",
    "Serac.C38.C38_index",
    "Serac.C38.C38_collision",
    "Serac.C38.C38_modules"
   ],
   "note": "Every string. C38_collision shows that names of different modules can coincide; C38_modules that they cannot if module names contain no underscore."
  },
  {
   "property": "C39",
   "status": "partial",
   "theorems": [
    "Serac.C39.C39_edges",
    "Serac.C39.C39_range",
    "Serac.C39.C39_conforming",
    "Serac.C39.C39_neighbours",
    "Serac.C39.C39_boundary",
    "Serac.C39.C39_sides_wrong",
    "Serac.C39.C39_stretch",
    "Serac.C39.C39_full",
    "Serac.C39.C39_elements_partial",
    "Serac.C39.C39_orientation_partial",
    "Serac.C39.C39_radii_partial",
    "Serac.C39.C39_circle_partial",
    "Serac.C39.C39_angle_wrong",
    "Serac.C39.C39_two_wrong",
    "Serac.C39.C39_one_wrong"
   ],
   "note": "Connectivity of the coarse mesh for every number of sectors; positive orientation at every point of every element, and radii, after any number of refinements, when the sector angle is below pi and divides the full angle (full rings: three or more sectors). Proved to fail otherwise, and the straight sides of partial rings have no boundary elements. mfem's refinement is an assumption; connectivity of refined meshes is not modelled. Inner radius positive; exact arithmetic."
  },
  {
   "property": "C40",
   "status": "partial",
   "theorems": [
    "Serac.C40.C40_clocks_partial",
    "Serac.C40.C40_reset_partial",
    "Serac.C40.C40_step",
    "Serac.C40.C40_paired",
    "Serac.C40.C40_start_wrong",
    "Serac.C40.C40_reset_adjoint_wrong",
    "Serac.C40.C40_stage_wrong",
    "Serac.C40.C40_parameters"
   ],
   "note": "Every sequence of calls, arbitrary sub-solvers, any addition of times. The clocks agree when the module starts at cycle and time zero, resetAdjointStates is not used and the integrators end a step at its end; the _wrong theorems show for all inputs how each of these fails."
  },
  {
   "property": "C45",
   "status": "partial",
   "theorems": [
    "Serac.C45.C45_time",
    "Serac.C45.C45_time_partial",
    "Serac.C45.C45_methods",
    "Serac.C45.C45_time_wrong",
    "Serac.C45.C45_forward_euler_wrong",
    "Serac.C45.C45_midpoint_wrong",
    "Serac.C45.C45_reverse",
    "Serac.C45.C45_second_time",
    "Serac.C45.C45_second",
    "Serac.C45.C45_second_clock"
   ],
   "note": "Every step sequence. Right exactly for backward Euler, SDIRK33 and RK4; for the other seven first-order methods the module's time is wrong after every step, because it is left at the last stage. All eight second-order methods leave the right time, under both enforcement methods (C45_second). Stage times of mfem's integrators are assumptions."
  },
  {
   "property": "C46",
   "status": "partial",
   "theorems": [
    "Serac.C46.C46_times_partial",
    "Serac.C46.C46_time",
    "Serac.C46.C46_equilibrium_partial",
    "Serac.C46.C46_penalty_wrong",
    "Serac.C46.C46_frozen_wrong"
   ],
   "note": "Every step sequence, arbitrary solver and addition of times. Contact without Lagrange multipliers keeps using the loads of the start time (proved for all inputs)."
  },
  {
   "property": "C43",
   "status": "proved",
   "theorems": [
    "Serac.C43.C43_full",
    "Serac.C43.C43_linear",
    "Serac.C43.C43_dot",
    "Serac.C43.C43_functions",
    "Serac.C43.C43_sym",
    "Serac.C43.C43_inv",
    "Serac.C43.C43_norm",
    "Serac.C43.C43_alternating",
    "Serac.C43.C43_linear4",
    "Serac.C43.C43_double_dot",
    "Serac.C43.C43_identities"
   ],
   "note": "Every dimension, coefficient and operand; the inverse for non-zero values. Exact arithmetic."
  },
  {
   "property": "C41",
   "status": "partial",
   "theorems": [
    "Serac.C41.C41_evaluate",
    "Serac.C41.C41_pure",
    "Serac.C41.C41_history_partial",
    "Serac.C41.C41_reset_wrong",
    "Serac.C41.C41_order_wrong",
    "Serac.C41.C41_order",
    "Serac.C41.C41_shared_wrong"
   ],
   "note": "Every interleaving of evaluations and step ends, any materials, elements and points; one element geometry. Needs one buffer per integral with the rule's number of points. The code violates the claim when a buffer is shared between domains, when a field has a higher order than the module (memory past the buffer is accessed) and resetStates keeps the old history; proved for all inputs."
  },
  {
   "property": "C42",
   "status": "proved",
   "theorems": [
    "Serac.C42.C42_quad_interpolate",
    "Serac.C42.C42_quad_integrate",
    "Serac.C42.C42_quad_transpose",
    "Serac.C42.C42_quad_column",
    "Serac.C42.C42_hex_interpolate",
    "Serac.C42.C42_hex_integrate",
    "Serac.C42.C42_hex_transpose",
    "Serac.C42.C42_hex_column",
    "Serac.C42.C42_layout"
   ],
   "note": "H1 quadrilaterals and hexahedra; any number of nodes and points, any 1D functions, points and weights, any data. Exact arithmetic; simplices and Hcurl elements are not covered."
  },
  {
   "property": "C44",
   "status": "partial",
   "theorems": [
    "Serac.C44.C44_accepted_partial",
    "Serac.C44.C44_accepted_nonlinear",
    "Serac.C44.C44_refused",
    "Serac.C44.C44_built",
    "Serac.C44.C44_defined",
    "Serac.C44.C44_record",
    "Serac.C44.C44_unsupported",
    "Serac.C44.C44_minres_wrong",
    "Serac.C44.C44_amg_wrong",
    "Serac.C44.C44_documented_wrong",
    "Serac.C44.C44_undocumented_wrong",
    "Serac.C44.C44_none_wrong",
    "Serac.C44.C44_print_wrong"
   ],
   "note": "The accepted strings are characterised exactly and what is built carries the given numbers, but the documented 'minres' and 'AMG' are refused, undocumented names are accepted, Preconditioner::None is dereferenced, and preconditioner_print_level is ignored (proved)."
  },
  {
   "property": "C47",
   "status": "partial",
   "theorems": [
    "Serac.C47.C47_solid_round_trip",
    "Serac.C47.C47_thermal_round_trip",
    "Serac.C47.C47_injective",
    "Serac.C47.C47_nothing_ignored_partial",
    "Serac.C47.C47_Hk_wrong",
    "Serac.C47.C47_strain_constant_wrong",
    "Serac.C47.C47_linear_wrong",
    "Serac.C47.C47_defined",
    "Serac.C47.C47_models",
    "Serac.C47.C47_thermal"
   ],
   "note": "Every table. Round trips hold for every material with a spelling; but Hk is ignored for elastic models, strain_constant is ignored for power-law hardening (the verifier tests sigma_sat twice), and linear hardening cannot be written (proved). Inlet's contains/get/verify are assumptions."
  },
  {
   "property": "C48",
   "status": "partial",
   "theorems": [
    "Serac.C48.C48_solid_partial",
    "Serac.C48.C48_heat_partial",
    "Serac.C48.C48_heat_order",
    "Serac.C48.C48_solid_order_wrong",
    "Serac.C48.C48_coupled_wrong",
    "Serac.C48.C48_coupled_materials_wrong",
    "Serac.C48.C48_temperature_wrong",
    "Serac.C48.C48_conductor_wrong",
    "Serac.C48.C48_refused",
    "Serac.C48.C48_defined",
    "Serac.C48.C48_solid_methods",
    "Serac.C48.C48_heat_methods_partial",
    "Serac.C48.C48_heat_methods_wrong"
   ],
   "note": "Every file. Solid files are honoured except that unknown boundary condition names are only warned about and the order of conditions is that of a hash map; heat files need conductors of the mesh's dimension. Every coupled file loses all its materials and conditions; a scalar temperature without component is undefined behaviour; 'AverageAcceleration' for heat always stops (all proved)."
  },
  {
   "property": "C49",
   "status": "partial",
   "theorems": [
    "Serac.C49.C49_isotropic",
    "Serac.C49.C49_temperature",
    "Serac.C49.C49_definite2",
    "Serac.C49.C49_definite3",
    "Serac.C49.C49_accepted2_partial",
    "Serac.C49.C49_accepted3_partial",
    "Serac.C49.C49_indefinite2_wrong",
    "Serac.C49.C49_indefinite3_wrong",
    "Serac.C49.C49_tolerance_wrong"
   ],
   "note": "Isotropic conductors: full claim. Anisotropic: definite matrices are accepted and dissipate; an accepted matrix dissipates if it is exactly symmetric with positive leading minors, and the code accepts indefinite matrices (minors compared with < 0) and small asymmetric ones (absolute tolerance), proved. NaN inputs not modelled."
  },
  {
   "property": "C50",
   "status": "partial",
   "theorems": [
    "Serac.C50.C50_segment",
    "Serac.C50.C50_triangle",
    "Serac.C50.C50_tetrahedron",
    "Serac.C50.C50_square",
    "Serac.C50.C50_cube",
    "Serac.C50.C50_mass_partial",
    "Serac.C50.C50_stiffness",
    "Serac.C50.C50_mass_triangle_wrong",
    "Serac.C50.C50_mass_tetrahedron2_wrong",
    "Serac.C50.C50_mass_tetrahedron3_wrong",
    "Serac.C50.C50_points"
   ],
   "note": "All polynomials of the stated degrees, all tables; tolerance 2.5e-15 times the sum of the absolute coefficients for the rounding of the tables. Mass integrals are not exact on triangles of order 3 and tetrahedra of orders 2 and 3 (proved with relative errors); everything else is. Exact arithmetic on the tabulated decimals."
  },
  {
   "property": "C51",
   "status": "proved",
   "theorems": [
    "Serac.C51.C51_quad",
    "Serac.C51.C51_hex",
    "Serac.C51.C51_segment",
    "Serac.C51.C51_simplex",
    "Serac.C51.C51_qoi",
    "Serac.C51.C51_matrix",
    "Serac.C51.C51_derivative",
    "Serac.C51.C51_jacobian"
   ],
   "note": "All orders, rules, weak forms, component counts, states and directions for H1/L2 and quantity-of-interest elements. That the dual numbers and the coordinate maps deliver the point derivative is a hypothesis (IsDerivative; C12 and C18 prove it for the library's dual numbers). Exact arithmetic; Hcurl elements are not covered."
  },
  {
   "property": "C52",
   "status": "partial",
   "theorems": [
    "Serac.C52.C52_value",
    "Serac.C52.C52_state",
    "Serac.C52.C52_pointwise_partial",
    "Serac.C52.C52_gradient_partial",
    "Serac.C52.C52_observable_partial",
    "Serac.C52.C52_undefined",
    "Serac.C52.C52_repeated_wrong"
   ],
   "note": "All integrals, call sequences, arguments and directions. The gradient theorem needs that no integral names an argument twice; with DependsOn<0, 0> the gradient misses one of the two derivatives (proved for every non-zero state and direction). That kernels deliver the derivative of one integral is a hypothesis (C51), linearity of the transfer operators too (C07)."
  },
  {
   "property": "C53",
   "status": "partial",
   "theorems": [
    "Serac.C53.C53_assembled",
    "Serac.C53.C53_hcurl_wrong"
   ],
   "note": "H1 and L2 spaces: all meshes with any mixture of geometries, all sets of integrals over elements and boundary elements, all element matrices and vectors. Hypotheses: boundary element dofs lie in one element, every test dof is in an element, sizes fit an int, records hold node numbers (true for H1 and L2). Hcurl spaces with a reversed edge are out of bounds (proved). Local matrix before the products with the prolongations; exact arithmetic."
  },
  {
   "property": "C54",
   "status": "partial",
   "theorems": [
    "Serac.C54.C54_energy",
    "Serac.C54.C54_capacity",
    "Serac.C54.C54_flux",
    "Serac.C54.C54_heat",
    "Serac.C54.C54_cycle",
    "Serac.C54.C54_stress",
    "Serac.C54.C54_expansion",
    "Serac.C54.C54_parameterized",
    "Serac.C54.C54_mechanical",
    "Serac.C54.C54_coupling_wrong"
   ],
   "note": "All materials, deformations, temperatures, paths and histories. Everything claimed about the material itself is proved; the coupled module's thermal adaptor drops the heat source and uses a fresh state (proved), so the last part of the claim fails. Exact arithmetic."
  },
  {
   "property": "C55",
   "status": "partial",
   "theorems": [
    "Serac.C55.C55_result",
    "Serac.C55.C55_eigenvalues_partial",
    "Serac.C55.C55_exact_partial",
    "Serac.C55.C55_distinct",
    "Serac.C55.C55_repeated",
    "Serac.C55.C55_positive",
    "Serac.C55.C55_wrong",
    "Serac.C55.C55_tie"
   ],
   "note": "All symmetric matrices: result defined, orthonormal, ascending, right trace. Exact when a value is repeated or the returned values are more than 2e-15 apart; closer values give columns with a defect of at most 2e-15. For a matrix whose reduced 2x2 block has equal diagonal entries and a non-zero off-diagonal entry the code returns the mean of two eigenvalues twice (tie: a concrete matrix; wrong: every matrix whose returned squares do not add up). Exact arithmetic, so rounding is not covered."
  },
  {
   "property": "C56",
   "status": "partial",
   "theorems": [
    "Serac.C56.C56_polynomial",
    "Serac.C56.C56_exponential",
    "Serac.C56.C56_logarithm",
    "Serac.C56.C56_log_exp",
    "Serac.C56.C56_root",
    "Serac.C56.C56_isotropic",
    "Serac.C56.C56_merged_wrong",
    "Serac.C56.C56_secants",
    "Serac.C56.C56_root_derivative",
    "Serac.C56.C56_exp_derivative",
    "Serac.C56.C56_log_derivative",
    "Serac.C56.C56_polynomial_derivative"
   ],
   "note": "All matrices that eig_symm decomposes exactly (C55 says which: repeated eigenvalues, or values more than 2e-15 apart that are not merged), all functions, all paths. The logarithms and roots of a differentiable path are proved differentiable. Wherever eigenvalues are merged the exponential and the root are wrong (proved for every such matrix). Exact arithmetic."
  },
  {
   "property": "C57",
   "status": "partial",
   "theorems": [
    "Serac.C57.C57_defined",
    "Serac.C57.C57_invariants",
    "Serac.C57.C57_volume",
    "Serac.C57.C57_history",
    "Serac.C57.C57_singular",
    "Serac.C57.C57_objective",
    "Serac.C57.C57_stress_partial",
    "Serac.C57.C57_symmetric_partial",
    "Serac.C57.C57_distance_partial",
    "Serac.C57.C57_elastic_partial",
    "Serac.C57.C57_yield_partial",
    "Serac.C57.C57_inside_partial",
    "Serac.C57.C57_repeat_partial",
    "Serac.C57.C57_linear_partial",
    "Serac.C57.C57_energy_partial"
   ],
   "note": "Definedness, volume, monotony, histories and objectivity hold without restriction. The others need that eig_symm is exact on the trial strain and the flow direction (C55 says when), and yield and repeat that the scalar solve converged, which is proved for linear hardening only. The gradient carried by dual numbers (the tangent) is the subject of C103. Exact arithmetic. A State declared without braces leaves the accumulated strain uninitialised; the model starts from State{}."
  },
  {
   "property": "C58",
   "status": "partial",
   "theorems": [
    "Serac.C58.C58_quad_interpolate",
    "Serac.C58.C58_quad_integrate",
    "Serac.C58.C58_quad_transpose",
    "Serac.C58.C58_quad_column",
    "Serac.C58.C58_quad_curl",
    "Serac.C58.C58_quad_nodal",
    "Serac.C58.C58_quad_trace",
    "Serac.C58.C58_quad_physical",
    "Serac.C58.C58_quad_read_wrong",
    "Serac.C58.C58_hex_interpolate",
    "Serac.C58.C58_hex_integrate",
    "Serac.C58.C58_hex_transpose",
    "Serac.C58.C58_hex_column",
    "Serac.C58.C58_hex_curl",
    "Serac.C58.C58_hex_nodal",
    "Serac.C58.C58_hex_trace",
    "Serac.C58.C58_hex_physical",
    "Serac.C58.C58_orders"
   ],
   "note": "All orders, point counts, vectors and 1D bases. The last clause fails for quadrilaterals: batch_apply_shape_fn reads one entry past the row, and past the table, for every order (quad_read_wrong); the product with zero hides it unless the memory holds a NaN or infinity. Curl of the field is exact for the exact square root of five; end-point selection holds for the literal too. Gauss-Legendre bases of the code are nodal only to rounding of the literals (C17), so nodal is stated for exact bases. The sharing of dofs between elements is C53."
  },
  {
   "property": "C59",
   "status": "partial",
   "theorems": [
    "Serac.C59.C59_forward",
    "Serac.C59.C59_gradient",
    "Serac.C59.C59_second_pass",
    "Serac.C59.C59_reaction",
    "Serac.C59.C59_stale_wrong",
    "Serac.C59.C59_reaction_earlier_wrong",
    "Serac.C59.C59_second_pass_wrong",
    "Serac.C59.C59_alias_wrong"
   ],
   "note": "Displacement objectives: all steps, and repeated passes. Reactions: the last step of a first pass. For earlier steps and after resetAdjointStates the reaction load is computed with the displacement left over from another step: exact condition proved, with a concrete failing analysis. Materials without internal variables, exact solves, checkpoints in memory, exact arithmetic."
  },
  {
   "property": "C60",
   "status": "partial",
   "theorems": [
    "Serac.C60.C60_value",
    "Serac.C60.C60_exact",
    "Serac.C60.C60_elastic",
    "Serac.C60.C60_tangent_partial",
    "Serac.C60.C60_elastic_form",
    "Serac.C60.C60_plastic_form",
    "Serac.C60.C60_symmetric",
    "Serac.C60.C60_positive",
    "Serac.C60.C60_linear_partial",
    "Serac.C60.C60_band_wrong"
   ],
   "note": "Values, elastic steps, symmetry and positivity hold in full. Plastic steps: the tangent is exactly that of the exact return mapping for a flow stress shifted by the final residual of the scalar solve (below the tolerance); for linear hardening it is also the derivative of the stress the code computes, except in a thin band next to the yield surface, where the solver accepts its first bisection point and the gradient is wrong (exact condition proved). Missing: the derivative of the iteration's own output for nonlinear hardening, and exactness for unconverged solves. Exact arithmetic."
  },
  {
   "property": "C61",
   "status": "partial",
   "theorems": [
    "Serac.C61.C61_value",
    "Serac.C61.C61_pointwise",
    "Serac.C61.C61_gradient",
    "Serac.C61.C61_add",
    "Serac.C61.C61_defined",
    "Serac.C61.C61_alias_wrong"
   ],
   "note": "Values, gradients and added integrals: all meshes, processors and call sequences, with the derivative on one element (C51) as hypothesis. The last clause fails: the value is a double& to output_T_[0], where the action of the gradient stores its result (alias_wrong, with the exact condition). H1 and L2 spaces; for Hcurl the gather fails before anything is computed (C53). Gradient::Mult calls a member that does not exist, so it is not modelled. Exact arithmetic."
  },
  {
   "property": "C62",
   "status": "partial",
   "theorems": [
    "Serac.C62.C62_sqrt",
    "Serac.C62.C62_sqrt_accurate",
    "Serac.C62.C62_sqrt_wrong",
    "Serac.C62.C62_first_wrong",
    "Serac.C62.C62_history",
    "Serac.C62.C62_undefined",
    "Serac.C62.C62_repeat",
    "Serac.C62.C62_thermal",
    "Serac.C62.C62_rotation_wrong",
    "Serac.C62.C62_chain_wrong",
    "Serac.C62.C62_turn",
    "Serac.C62.C62_reference_wrong",
    "Serac.C62.C62_bertoldi_frame",
    "Serac.C62.C62_bertoldi_energy",
    "Serac.C62.C62_bertoldi_rest",
    "Serac.C62.C62_bertoldi_poisson_wrong"
   ],
   "note": "Symmetry, definedness, turning about the third axis, repetition and thermal cycles hold for all histories, and Bertoldi's model is frame-indifferent and derives from its energy. The other parts fail for Brighenti's model and the failures are proved with exact conditions: rigid rotations cause stress, the first call returns a pressure only, any volume-preserving deformation of the reference goes unnoticed, the chain parameter matters. matrix_sqrt is exact only on the identity, with the error in closed form. Gradients of dual numbers are not modelled. Exact arithmetic."
  },
  {
   "property": "C63",
   "status": "partial",
   "theorems": [
    "Serac.C63.C63_value",
    "Serac.C63.C63_defined",
    "Serac.C63.C63_copy",
    "Serac.C63.C63_lifetime",
    "Serac.C63.C63_lifetime_partial",
    "Serac.C63.C63_switch_wrong",
    "Serac.C63.C63_retrieve",
    "Serac.C63.C63_choice_wrong"
   ],
   "note": "Queries, copies and pointers: all types and histories with defined behaviour. Three parts fail, with exact conditions proved: changing the alternative to a type without a trivial assignment operator assigns to a dead object (always so for GeneralCoefficient); construction from a value never destroys the default-constructed first member; a value of the second type that converts to the first is held as the first. The state of moved-from members is not modelled."
  },
  {
   "property": "C64",
   "status": "partial",
   "theorems": [
    "Serac.C64.C64_disk_count",
    "Serac.C64.C64_ball_count",
    "Serac.C64.C64_disk_circle",
    "Serac.C64.C64_ball_sphere",
    "Serac.C64.C64_disk_oriented",
    "Serac.C64.C64_disk_conforming",
    "Serac.C64.C64_disk_area",
    "Serac.C64.C64_ball_volume_partial",
    "Serac.C64.C64_ball_conforming",
    "Serac.C64.C64_ball_volume",
    "Serac.C64.C64_later_wrong",
    "Serac.C64.C64_cylinder_round",
    "Serac.C64.C64_literals",
    "Serac.C64.C64_quarter_jacobian",
    "Serac.C64.C64_quarter_oriented_partial",
    "Serac.C64.C64_quarter_place",
    "Serac.C64.C64_quarter_wrong"
   ],
   "note": "Disk: full claim for every 32-bit request. Ball: everything but the orientation of the tetrahedra after the vertices are moved onto spheres (before that all volumes are 1/8^k). Cylinder: roundness with exact trigonometry; orientation of its elements is not proved. Quarter cylinder: the exact Jacobian; exchanged radii are not refused and give inverted elements (quarter_wrong). Refining a finished mesh puts new boundary vertices inside the circle (later_wrong). mfem's uniform refinement is an assumption."
  },
  {
   "property": "C65",
   "status": "proved",
   "theorems": [
    "Serac.C65.C65_pressure3",
    "Serac.C65.C65_pressure2",
    "Serac.C65.C65_normal",
    "Serac.C65.C65_traction3",
    "Serac.C65.C65_traction2",
    "Serac.C65.C65_flux3",
    "Serac.C65.C65_pressure_traction",
    "Serac.C65.C65_nanson",
    "Serac.C65.C65_force",
    "Serac.C65.C65_moment",
    "Serac.C65.C65_conservative",
    "Serac.C65.C65_ball_closed",
    "Serac.C65.C65_balance",
    "Serac.C65.C65_heat_balance"
   ],
   "note": "Exact arithmetic; degenerate faces are an explicit undefined outcome. force, moment and conservative are for linear triangles and any rule integrating linear shape functions exactly. setSource and setFluxBCs hand the whole position tuple to the user's function although the documentation promises a vector; the theorems take the documented argument."
  },
  {
   "property": "C66",
   "status": "partial",
   "theorems": [
    "Serac.C66.C66_root_partial",
    "Serac.C66.C66_affine",
    "Serac.C66.C66_converges",
    "Serac.C66.C66_root_wrong",
    "Serac.C66.C66_scale_wrong",
    "Serac.C66.C66_history",
    "Serac.C66.C66_lateral_partial",
    "Serac.C66.C66_point",
    "Serac.C66.C66_tangent",
    "Serac.C66.C66_linear_axial",
    "Serac.C66.C66_linear"
   ],
   "note": "The drivers: everything about times, strains, states and stresses holds for every material and history. find_root: the residual is below the tolerance unless ten steps did not suffice, which is not reported (root_wrong: every start for a double root); the tolerance is absolute, so any function is taken for solved in suitable units (scale_wrong). Exact arithmetic; linear solves as in C14; derivatives by dual numbers as in C12."
  },
  {
   "property": "C67",
   "status": "proved",
   "theorems": [
    "Serac.C67.C67_numbering",
    "Serac.C67.C67_chosen",
    "Serac.C67.C67_list",
    "Serac.C67.C67_predicate",
    "Serac.C67.C67_component",
    "Serac.C67.C67_no_component",
    "Serac.C67.C67_attributes",
    "Serac.C67.C67_attributes_component",
    "Serac.C67.C67_last",
    "Serac.C67.C67_size",
    "Serac.C67.C67_ranks"
   ],
   "note": "mfem's numbering is an assumption (Ok: owned local dofs and true dofs in one to one correspondence, one owner per node), as is that projecting a coefficient evaluates it at the nodal position. A component the field does not have is accepted and constrains nothing (no_component). Attribute bookkeeping: C25. Scalar fields on attributes (heat transfer) are projected by mfem and not modelled here."
  },
  {
   "property": "C68",
   "status": "partial",
   "theorems": [
    "Serac.C68.C68_current",
    "Serac.C68.C68_accept",
    "Serac.C68.C68_previous",
    "Serac.C68.C68_previous_partial",
    "Serac.C68.C68_previous_wrong",
    "Serac.C68.C68_restart_wrong",
    "Serac.C68.C68_guess",
    "Serac.C68.C68_guess_partial",
    "Serac.C68.C68_guess_wrong"
   ],
   "note": "The part about setParameter and residuals holds for all call sequences. The Jacobian of the warm start is that of the last step taken at cycle 0 (previous): it is that of the step before if and only if the parameters are still those of the first step (previous_partial), not after a change (previous_wrong, guess_wrong), and after a restart at a later cycle it is that of zero parameters (restart_wrong). Linear solver exact."
  },
  {
   "property": "C69",
   "status": "partial",
   "theorems": [
    "Serac.C69.C69_fit",
    "Serac.C69.C69_fit_best",
    "Serac.C69.C69_best",
    "Serac.C69.C69_unique",
    "Serac.C69.C69_reproduce_iff",
    "Serac.C69.C69_integral",
    "Serac.C69.C69_linear",
    "Serac.C69.C69_component",
    "Serac.C69.C69_constant_element",
    "Serac.C69.C69_tolerance",
    "Serac.C69.C69_constant_wrong"
   ],
   "note": "Best approximation needs one rule for both terms. With an auxiliary field of higher order the right-hand side has more quadrature points than the mass term; functions of the space are then reproduced if and only if both rules give the same mass matrix (reproduce_iff), which fails for the code's rules on a tapered hexahedron (constant_wrong). mfem's CG solver is a hypothesis (Solved, or the residual bound in tolerance); that 500 iterations sufficed is not checked by the code."
  },
  {
   "property": "C70",
   "status": "partial",
   "theorems": [
    "Serac.C70.C70_run",
    "Serac.C70.C70_runs",
    "Serac.C70.C70_described",
    "Serac.C70.C70_requests",
    "Serac.C70.C70_restart_mesh",
    "Serac.C70.C70_levels",
    "Serac.C70.C70_box",
    "Serac.C70.C70_box_count",
    "Serac.C70.C70_printed",
    "Serac.C70.C70_size_ignored",
    "Serac.C70.C70_size_wrong",
    "Serac.C70.C70_version_wrong",
    "Serac.C70.C70_printed_wrong"
   ],
   "note": "Runs, requests, restarts and refined boxes are proved. The code departs from the claim in three places: a box with three element counts and two sizes ends in an uncaught exception (size_wrong, an iff), --version is refused when another option is invalid although all others are announced to be ignored (version_wrong), and --print-unused is missing from the printed options (printed_wrong). CLI11, Inlet, the file system and mfem's Cartesian meshes are assumed."
  },
  {
   "property": "C71",
   "status": "proved",
   "theorems": [
    "Serac.C71.C71_virtual_work",
    "Serac.C71.C71_nodal",
    "Serac.C71.C71_force",
    "Serac.C71.C71_moment",
    "Serac.C71.C71_moment_off",
    "Serac.C71.C71_frame",
    "Serac.C71.C71_rigid",
    "Serac.C71.C71_energy",
    "Serac.C71.C71_hyperelastic",
    "Serac.C71.C71_uniform",
    "Serac.C71.C71_patch_triangles",
    "Serac.C71.C71_patch_triangles_inside",
    "Serac.C71.C71_patch_tetrahedra",
    "Serac.C71.C71_patch_quadrilaterals",
    "Serac.C71.C71_unity_simplex",
    "Serac.C71.C71_unity_quad",
    "Serac.C71.C71_unity_hex",
    "Serac.C71.C71_positions"
   ],
   "note": "For all meshes, rules, fields and materials with the symmetry named in each theorem. That elements are nondegenerate, functions sum to one and positions lie in the displacement space are hypotheses, discharged for the elements of the library in unity_* and positions. Zero shape displacement, one geometry, exact arithmetic."
  },
  {
   "property": "C72",
   "status": "proved",
   "theorems": [
    "Serac.C72.C72_weak_form",
    "Serac.C72.C72_balance",
    "Serac.C72.C72_rest",
    "Serac.C72.C72_dissipation",
    "Serac.C72.C72_reciprocity",
    "Serac.C72.C72_step",
    "Serac.C72.C72_conservation",
    "Serac.C72.C72_stability",
    "Serac.C72.C72_stability_run",
    "Serac.C72.C72_steady",
    "Serac.C72.C72_steady_unique",
    "Serac.C72.C72_unique",
    "Serac.C72.C72_solvable",
    "Serac.C72.C72_uniform",
    "Serac.C72.C72_patch_triangles",
    "Serac.C72.C72_patch_tetrahedra",
    "Serac.C72.C72_patch_quadrilaterals",
    "Serac.C72.C72_conductors",
    "Serac.C72.C72_conductors_temperature",
    "Serac.C72.C72_conductors_anisotropic"
   ],
   "note": "For all meshes, rules, fields, sources and step sizes. The nonlinear solver is a parameter that finds a zero of the residual (shown to exist in solvable for linear conductors with definite mass). Zero shape displacement, one geometry, boundary fluxes not included, exact arithmetic; enforcement by DirectControl or RateControl."
  },
  {
   "property": "C73",
   "status": "proved",
   "theorems": [
    "Serac.C73.C73_weak_form",
    "Serac.C73.C73_newton",
    "Serac.C73.C73_momentum",
    "Serac.C73.C73_free",
    "Serac.C73.C73_elastic",
    "Serac.C73.C73_work",
    "Serac.C73.C73_energy",
    "Serac.C73.C73_energy_family",
    "Serac.C73.C73_stability",
    "Serac.C73.C73_euler",
    "Serac.C73.C73_euler_run",
    "Serac.C73.C73_solvable",
    "Serac.C73.C73_isotropic"
   ],
   "note": "For all meshes, rules, body forces and step lengths. The nonlinear solver is a parameter that finds a zero of the residual and keeps the fixed dofs (shown to exist in solvable for elastic bodies). mfem's Newmark and backward Euler steps are assumed as written in the model. DirectControl; zero shape displacement, one geometry, boundary integrals and contact not included, exact arithmetic."
  },
  {
   "property": "C74",
   "status": "partial",
   "theorems": [
    "Serac.C74.C74_values_partial",
    "Serac.C74.C74_view",
    "Serac.C74.C74_round_trip",
    "Serac.C74.C74_pairing",
    "Serac.C74.C74_avg",
    "Serac.C74.C74_avg_ones",
    "Serac.C74.C74_max",
    "Serac.C74.C74_min",
    "Serac.C74.C74_inner",
    "Serac.C74.C74_partition",
    "Serac.C74.C74_project",
    "Serac.C74.C74_project_domain_wrong",
    "Serac.C74.C74_dual_move_assign_wrong",
    "Serac.C74.C74_dual_move_assign_program_wrong",
    "Serac.C74.C74_state_move_assign",
    "Serac.C74.C74_dual_move_wrong",
    "Serac.C74.C74_dual_move_partial"
   ],
   "note": "Value semantics is proved for all programs without moves of duals, because those fail: move assignment of a dual assigns no values (dual_move_assign_wrong), move construction keeps a linear form that refers to the destroyed space (dual_move_wrong). avg counts dofs in 32 bits (avg_ones). Projection onto a domain misses dofs whose owning rank has no element of the domain there (project_domain_wrong, an equivalence). mfem's prolongation on conforming meshes is modelled as one entry of +-1 per row; exact arithmetic."
  },
  {
   "property": "C75",
   "status": "proved",
   "theorems": [
    "Serac.C75.C75_weak_form",
    "Serac.C75.C75_force",
    "Serac.C75.C75_newton",
    "Serac.C75.C75_reactions",
    "Serac.C75.C75_moment",
    "Serac.C75.C75_closed",
    "Serac.C75.C75_closed_plane",
    "Serac.C75.C75_dead",
    "Serac.C75.C75_potential",
    "Serac.C75.C75_momentum_step",
    "Serac.C75.C75_momentum",
    "Serac.C75.C75_dead_thrust",
    "Serac.C75.C75_work",
    "Serac.C75.C75_energy",
    "Serac.C75.C75_solvable",
    "Serac.C75.C75_heat_weak_form",
    "Serac.C75.C75_heat_balance",
    "Serac.C75.C75_heat_step",
    "Serac.C75.C75_heat_run",
    "Serac.C75.C75_heat_stability",
    "Serac.C75.C75_heat_solvable"
   ],
   "note": "For linear triangles in space and line elements of any order in the plane (closed, closed_plane); the other theorems for every face element. User functions get the coordinates of the point (in the heat module the code hands over a tuple, see C65). No shape displacement; the nonlinear solver is assumed to find a root, which exists (solvable, heat_solvable) for elastic bodies with dead loads and linear conduction with cooling in proportion to the temperature. Exact arithmetic."
  },
  {
   "property": "C76",
   "status": "partial",
   "theorems": [
    "Serac.C76.C76_finite",
    "Serac.C76.C76_backoff",
    "Serac.C76.C76_unique",
    "Serac.C76.C76_untouched",
    "Serac.C76.C76_recovers",
    "Serac.C76.C76_pc",
    "Serac.C76.C76_pc_current_partial",
    "Serac.C76.C76_pc_stale_wrong",
    "Serac.C76.C76_ksp_partial",
    "Serac.C76.C76_ksp_wrong",
    "Serac.C76.C76_format",
    "Serac.C76.C76_wrap_wrong",
    "Serac.C76.C76_wrap_partial",
    "Serac.C76.C76_min_iterations_wrong"
   ],
   "note": "The back-off is proved in full. Fails in the code: a converted matrix is a copy, so refilling the original without setting it again is not seen (pc_stale_wrong); if the first solve sees a matrix that is not hypre, later hypre matrices never reach a foreign preconditioner (ksp_wrong); the constructor from a communicator drops wrap_op (wrap_wrong); min_iterations above one are not enforced (min_iterations_wrong). PETSc is assumed to call the callbacks before each solve. Fieldsplit preconditioners and the near null space are not modelled."
  },
  {
   "property": "C77",
   "status": "proved",
   "theorems": [
    "Serac.C77.C77_form",
    "Serac.C77.C77_mass_form",
    "Serac.C77.C77_matrix",
    "Serac.C77.C77_derivative",
    "Serac.C77.C77_dynamic",
    "Serac.C77.C77_static",
    "Serac.C77.C77_symmetric",
    "Serac.C77.C77_partials",
    "Serac.C77.C77_flux",
    "Serac.C77.C77_materials",
    "Serac.C77.C77_major",
    "Serac.C77.C77_hyperelastic",
    "Serac.C77.C77_energies"
   ],
   "note": "The material enters as an arbitrary map with its partial derivatives as moduli (dual numbers compute them: C12); C77_materials shows that the materials of the library are differentiable where they are used. Displacement and traction fields of H1 spaces without shape displacement; materials with state are taken at a fixed state."
  },
  {
   "property": "C78",
   "status": "proved",
   "theorems": [
    "Serac.C78.C78_supported_varying",
    "Serac.C78.C78_tangent",
    "Serac.C78.C78_stiffness",
    "Serac.C78.C78_unique",
    "Serac.C78.C78_minimum",
    "Serac.C78.C78_reciprocity",
    "Serac.C78.C78_superposition",
    "Serac.C78.C78_newton",
    "Serac.C78.C78_step",
    "Serac.C78.C78_cold",
    "Serac.C78.C78_run",
    "Serac.C78.C78_supported",
    "Serac.C78.C78_rigid"
   ],
   "note": "Linear solves are assumed exact and arithmetic is real. C78_supported reads off the mesh when supports suffice for triangles and tetrahedra (held from one face to the opposite vertex) and holds for every element type one node at a time. Material state and parameters are not part of this model."
  },
  {
   "property": "C79",
   "status": "proved",
   "theorems": [
    "Serac.C79.C79_moved",
    "Serac.C79.C79_equations",
    "Serac.C79.C79_nodes",
    "Serac.C79.C79_zero",
    "Serac.C79.C79_sensitivity",
    "Serac.C79.C79_compose",
    "Serac.C79.C79_heat",
    "Serac.C79.C79_heat_equations",
    "Serac.C79.C79_heat_sensitivity"
   ],
   "note": "The displaced mesh is described by its positions at quadrature points (Displaced); C79_nodes gives it when the shape displacement has the nodes of the mesh, numbered in any way. Only the reference mesh must not be degenerate. Exact arithmetic; spaces with curls are C19's."
  },
  {
   "property": "C80",
   "status": "proved",
   "theorems": [
    "Serac.C80.C80_residual",
    "Serac.C80.C80_action",
    "Serac.C80.C80_matrix",
    "Serac.C80.C80_total",
    "Serac.C80.C80_dot",
    "Serac.C80.C80_run",
    "Serac.C80.C80_newton",
    "Serac.C80.C80_independent",
    "Serac.C80.C80_newton_independent",
    "Serac.C80.C80_alone"
   ],
   "note": "Distributes says what mfem must provide: every entity on one processor, a bijection between true dofs and dofs of the mesh, local dofs tied to the right true dofs. Conforming H1 and L2 spaces (prolongation without signs); the loops inside the block vectors are C07, C52 and C53. Exact arithmetic: the order of MPI sums is not visible. Linear solver: matrix inverse."
  },
  {
   "property": "C81",
   "status": "proved",
   "theorems": [
    "Serac.C81.C81_form",
    "Serac.C81.C81_store_form",
    "Serac.C81.C81_matrix",
    "Serac.C81.C81_derivative",
    "Serac.C81.C81_transient",
    "Serac.C81.C81_static",
    "Serac.C81.C81_symmetric",
    "Serac.C81.C81_conductors",
    "Serac.C81.C81_linear",
    "Serac.C81.C81_definite",
    "Serac.C81.C81_solves",
    "Serac.C81.C81_steady_unique",
    "Serac.C81.C81_steady_step",
    "Serac.C81.C81_steady_run",
    "Serac.C81.C81_anchored"
   ],
   "note": "The derivatives dual numbers return for the user's functions are a parameter (Tangent says they are true; C81_conductors proves it for the shipped conductors, C12 for the arithmetic). The heat capacity is a constant at each point, as in the shipped materials. The linear solver is exact (C81_solves also asks that it satisfies the trivial equations of eliminated dofs when dt is negative); Newton must be told to iterate (Iterates)."
  },
  {
   "property": "C82",
   "status": "proved",
   "theorems": [
    "Serac.C82.C82_form",
    "Serac.C82.C82_symmetric",
    "Serac.C82.C82_definite",
    "Serac.C82.C82_linear",
    "Serac.C82.C82_unique",
    "Serac.C82.C82_stage",
    "Serac.C82.C82_solves",
    "Serac.C82.C82_energy",
    "Serac.C82.C82_momentum",
    "Serac.C82.C82_options"
   ],
   "note": "Discharges the solver assumption of C73/C75 for linear elastic bodies. The linear solver is exact where a solution exists (C82_solves also asks that it satisfies the trivial equations of eliminated dofs in stages that do not occur in a run, c0 < 0); Newton must be told to iterate (Iterates); mfem::NewmarkSolver as assumed in Model/Ode."
  },
  {
   "property": "C83",
   "status": "proved",
   "theorems": [
    "Serac.C83.C83_step",
    "Serac.C83.C83_solve",
    "Serac.C83.C83_isolated",
    "Serac.C83.C83_quadratic",
    "Serac.C83.C83_branch",
    "Serac.C83.C83_euclid",
    "Serac.C83.C83_track"
   ],
   "note": "For residuals that are differentiable with continuous Jacobian near the branch; exact real arithmetic and exact linear solves. The radius, step and tolerances are shown to exist, not computed. Applied to the modules in C84."
  },
  {
   "property": "C84",
   "status": "proved",
   "theorems": [
    "Serac.C84.C84_follow",
    "Serac.C84.C84_path",
    "Serac.C84.C84_rest",
    "Serac.C84.C84_load",
    "Serac.C84.C84_moduli",
    "Serac.C84.C84_flux",
    "Serac.C84.C84_materials",
    "Serac.C84.C84_rest_flux",
    "Serac.C84.C84_hyperelastic",
    "Serac.C84.C84_stage",
    "Serac.C84.C84_inertia"
   ],
   "note": "Exact real arithmetic and exact linear solves; shape displacement zero, materials without internal state. Steps, tolerances and the length of the path are shown to exist, not computed. Supports are read off the mesh for elements in which one node is determined by the others (triangles, tetrahedra); for others they are the hypothesis of C84_load."
  },
  {
   "property": "C85",
   "status": "proved",
   "theorems": [
    "Serac.C85.C85_form",
    "Serac.C85.C85_derivative",
    "Serac.C85.C85_branch",
    "Serac.C85.C85_gradient",
    "Serac.C85.C85_reactions",
    "Serac.C85.C85_solver",
    "Serac.C85.C85_linear",
    "Serac.C85.C85_flux",
    "Serac.C85.C85_materials",
    "Serac.C85.C85_partials",
    "Serac.C85.C85_isotropic"
   ],
   "note": "Exact real arithmetic and exact linear solves. One scalar parameter field, materials without internal state, shape displacement zero; derivatives carried by dual numbers are parameters, assumed to be the true ones (C52). For nonlinear materials the run is assumed to stay on the branch of solutions as the parameter varies (C85_solver: such solvers exist); for linear ones this is proved for the code's solver."
  },
  {
   "property": "C86",
   "status": "proved",
   "theorems": [
    "Serac.C86.C86_initialize",
    "Serac.C86.C86_curves",
    "Serac.C86.C86_unknown",
    "Serac.C86.C86_order",
    "Serac.C86.C86_partition",
    "Serac.C86.C86_run",
    "Serac.C86.C86_whole"
   ],
   "note": "C86_whole in exact arithmetic, C86_run with any rounding of the driver's time. Sidre groups and arrays are modelled by lists, a null pointer is undefined behaviour; names of states have no slash; fewer than 2^31 dofs for averages (C74); norms are computed by mfem and are parameters; writing the file is not modelled."
  },
  {
   "property": "C87",
   "status": "proved",
   "theorems": [
    "Serac.C87.C87_forward",
    "Serac.C87.C87_transient",
    "Serac.C87.C87_form",
    "Serac.C87.C87_derivative",
    "Serac.C87.C87_gradient",
    "Serac.C87.C87_linear",
    "Serac.C87.C87_solver",
    "Serac.C87.C87_steady",
    "Serac.C87.C87_steady_linear",
    "Serac.C87.C87_conductors",
    "Serac.C87.C87_dissipation"
   ],
   "note": "Exact real arithmetic and exact linear solves. One scalar parameter field, on which only the material depends; shape displacement zero; derivatives carried by dual numbers are parameters, assumed to be the true ones (C52). A rate load that is not set again keeps its previous value in the code (C30), hence the condition on loads. For nonlinear problems the analysis is assumed to stay on the branch of solutions; for linear ones this is proved for the code's solver. ParameterizedLinearIsotropicConductor checks its offset only, C87_dissipation says which parameters make it conduct from cold to hot."
  },
  {
   "property": "C88",
   "status": "proved",
   "theorems": [
    "Serac.C88.C88_derivative",
    "Serac.C88.C88_gradient",
    "Serac.C88.C88_transient",
    "Serac.C88.C88_solid",
    "Serac.C88.C88_positions",
    "Serac.C88.C88_heat",
    "Serac.C88.C88_heat_positions",
    "Serac.C88.C88_capacity_symmetric",
    "Serac.C88.C88_rate_symmetric",
    "Serac.C88.C88_stiffness",
    "Serac.C88.C88_linear",
    "Serac.C88.C88_isotropic",
    "Serac.C88.C88_heat_linear",
    "Serac.C88.C88_heat_solver",
    "Serac.C88.C88_conductor"
   ],
   "note": "Exact real arithmetic and exact linear solves. No parameter fields besides the shape displacement, no material with internal state (their update is not differentiated by the code either, C62). The derivatives of the functions of the user are parameters, assumed to be the true ones (C52); those that dual numbers carry through the wrapper are modelled and proved. The analysis is assumed to stay on the branch of solutions; for linear elastic solids and linear conductors this is proved for the code's solver."
  },
  {
   "property": "C89",
   "status": "proved",
   "theorems": [
    "Serac.C89.C89_conduction",
    "Serac.C89.C89_staggered",
    "Serac.C89.C89_heat",
    "Serac.C89.C89_history",
    "Serac.C89.C89_store",
    "Serac.C89.C89_equilibrium",
    "Serac.C89.C89_balance",
    "Serac.C89.C89_energy",
    "Serac.C89.C89_free",
    "Serac.C89.C89_expansion",
    "Serac.C89.C89_reference",
    "Serac.C89.C89_clamped"
   ],
   "note": "Exact real arithmetic; thermal steps by backward Euler, quasi-static mechanical steps, solvers are arbitrary functions of the residual. Deformation gradients are assumed regular: at a singular one the model's material has no result in either module, while the code would compute an infinite stress and discard it in the thermal one. The clamped body is one of linear tetrahedra. Parameters of the parameterized material are a value per point; user parameter fields are C85's subject."
  },
  {
   "property": "C90",
   "status": "proved",
   "theorems": [
    "Serac.C90.C90_point",
    "Serac.C90.C90_closed",
    "Serac.C90.C90_relation",
    "Serac.C90.C90_step",
    "Serac.C90.C90_history",
    "Serac.C90.C90_energy",
    "Serac.C90.C90_run",
    "Serac.C90.C90_dissipation",
    "Serac.C90.C90_passive",
    "Serac.C90.C90_balance",
    "Serac.C90.C90_repeat",
    "Serac.C90.C90_elastic",
    "Serac.C90.C90_local",
    "Serac.C90.C90_uniform",
    "Serac.C90.C90_patch"
   ],
   "note": "Exact real arithmetic. The solver is an arbitrary function; the balance assumes that the residual vanishes on free dofs at the ends of the steps. Non-negativity of energies needs Poisson's ratio below one half and non-negative point volumes. C90_repeat is for linear hardening, where the scalar solve always converges (C32); for other laws it needs convergence, as C32_unconverged_wrong shows. C90_patch is for linear tetrahedra."
  },
  {
   "property": "C91",
   "status": "partial",
   "theorems": [
    "Serac.C91.C91_stages",
    "Serac.C91.C91_direct",
    "Serac.C91.C91_affine",
    "Serac.C91.C91_rates",
    "Serac.C91.C91_quadratic",
    "Serac.C91.C91_quadratic_run",
    "Serac.C91.C91_consistent",
    "Serac.C91.C91_implicit",
    "Serac.C91.C91_explicit",
    "Serac.C91.C91_accurate",
    "Serac.C91.C91_midpoint_wrong",
    "Serac.C91.C91_midpoint_square",
    "Serac.C91.C91_midpoint_memory",
    "Serac.C91.C91_sdirk23_memory",
    "Serac.C91.C91_sdirk23_wrong",
    "Serac.C91.C91_sdirk34_memory",
    "Serac.C91.C91_sdirk34_wrong",
    "Serac.C91.C91_order",
    "Serac.C91.C91_stable",
    "Serac.C91.C91_heat",
    "Serac.C91.C91_heat_run",
    "Serac.C91.C91_step",
    "Serac.C91.C91_contraction",
    "Serac.C91.C91_contraction_run",
    "Serac.C91.C91_unique",
    "Serac.C91.C91_determined",
    "Serac.C91.C91_equilibrium"
   ],
   "note": "The coefficients of mfem's integrators are assumptions (mfem is not in the repository); generalized-alpha is the subject of C101. With DirectControl the end value is right for backward Euler and SDIRK33 (C91_direct) but not for implicit midpoint, SDIRK23 and SDIRK34 (C91_midpoint_wrong, C91_sdirk23_wrong, C91_sdirk34_wrong; the memory theorems give what happens to a wrong initial value); constant growth is exact for all (C91_affine). SDIRK33 is third order only up to its decimal coefficients, so C91_order gives it order 1. Contraction does not cover SDIRK33, which is not algebraically stable."
  },
  {
   "property": "C92",
   "status": "proved",
   "theorems": [
    "Serac.C92.C92_forward",
    "Serac.C92.C92_transient",
    "Serac.C92.C92_gradient",
    "Serac.C92.C92_linear",
    "Serac.C92.C92_solver",
    "Serac.C92.C92_isotropic"
   ],
   "note": "Newmark with beta 1/4 and gamma 1/2, the only method reverseAdjointTimestep accepts; its formula is an assumption about mfem. What goes wrong with a first step of positive size, with velocity loads and with stale acceleration loads is in C29 (C29_first_step_wrong and others), so the property is stated for a first step of size zero and objectives of displacements and accelerations. Checkpoints in memory; one parameter."
  },
  {
   "property": "C93",
   "status": "partial",
   "theorems": [
    "Serac.C93.C93_relations",
    "Serac.C93.C93_same",
    "Serac.C93.C93_boundary",
    "Serac.C93.C93_rate",
    "Serac.C93.C93_average_boundary",
    "Serac.C93.C93_boundary_wrong",
    "Serac.C93.C93_ramp_wrong",
    "Serac.C93.C93_memory_wrong",
    "Serac.C93.C93_central_wrong",
    "Serac.C93.C93_solved",
    "Serac.C93.C93_momentum",
    "Serac.C93.C93_work",
    "Serac.C93.C93_energy",
    "Serac.C93.C93_angular_step",
    "Serac.C93.C93_angular"
   ],
   "note": "The steps of mfem's integrators and their default parameters are assumptions (DESIGN.md); the time at which the generalized-alpha step evaluates the equation is a parameter of the theorems except where it says t + dt. Partial because the code violates the claim about boundary values: C93_boundary_wrong, C93_ramp_wrong (velocities at a boundary of constant velocity grow without bound), C93_memory_wrong, C93_central_wrong. FullControl is treated in C20 for Newmark only."
  },
  {
   "property": "C94",
   "status": "proved",
   "theorems": [
    "Serac.C94.C94_elements",
    "Serac.C94.C94_value",
    "Serac.C94.C94_local",
    "Serac.C94.C94_self_adjoint",
    "Serac.C94.C94_solved",
    "Serac.C94.C94_compliance",
    "Serac.C94.C94_stiffer",
    "Serac.C94.C94_convex"
   ],
   "note": "Numbering of L2 dofs (mfem) is a parameter; the theorems about elements hold for any numbering, and disjoint numbers per element are mfem's. Bodies are linear isotropic with parameters, small strains, all nodes held, prescribed values zero, exact linear solves; C94_self_adjoint is for any analysis with symmetric stiffness."
  },
  {
   "property": "C95",
   "status": "partial",
   "theorems": [
    "Serac.C95.C95_defined",
    "Serac.C95.C95_contact",
    "Serac.C95.C95_tied",
    "Serac.C95.C95_reported",
    "Serac.C95.C95_balance_partial",
    "Serac.C95.C95_penalty",
    "Serac.C95.C95_reversal_wrong",
    "Serac.C95.C95_surface",
    "Serac.C95.C95_surface_partial",
    "Serac.C95.C95_surface_wrong"
   ],
   "note": "Tribol's gaps, gap derivatives and forces are arbitrary functions of the coordinates and pressures at its last update; the solver evaluates the residual at arbitrary points, last at the point it returns. Partial because the code violates two claims: with multipliers the step can be accepted with a pulling multiplier that is not reported (C95_reported says exactly when, C95_reversal_wrong gives a family of runs of Newton's method), and the dofs of tied surfaces depend on uninitialised memory (C95_surface)."
  },
  {
   "property": "C96",
   "status": "partial",
   "theorems": [
    "Serac.C96.C96_gradient",
    "Serac.C96.C96_free_partial",
    "Serac.C96.C96_iff",
    "Serac.C96.C96_wrong"
   ],
   "note": "Partial because the code violates the claim: the inherited adjoint routines use the stiffness of the body without that of the contact. C96_gradient gives the exact error, C96_iff shows that all objectives get right derivatives only if the contact forces do not change."
  },
  {
   "property": "C97",
   "status": "partial",
   "theorems": [
    "Serac.C97.C97_table",
    "Serac.C97.C97_domain",
    "Serac.C97.C97_faces",
    "Serac.C97.C97_memory_wrong",
    "Serac.C97.C97_iff",
    "Serac.C97.C97_module",
    "Serac.C97.C97_vertices",
    "Serac.C97.C97_straight",
    "Serac.C97.C97_order_one",
    "Serac.C97.C97_references",
    "Serac.C97.C97_area_wrong"
   ],
   "note": "Partial because the code violates two claims: triangles and tetrahedra of order above one have no kernel in domain integrals, and then nothing is computed and the constructor only prints a line (C97_iff: exactly the combinations of C97_table work), and setMesh replaces every mesh by its straight-sided version (C97_straight says which elements keep their shape, C97_area_wrong gives a family whose area changes). That SetCurvature evaluates the old nodes at the new ones is an assumption about mfem. Element kernels as in C42/C51."
  },
  {
   "property": "C98",
   "status": "partial",
   "theorems": [
    "Serac.C98.C98_minimum_partial",
    "Serac.C98.C98_penalty_partial",
    "Serac.C98.C98_iff",
    "Serac.C98.C98_newton",
    "Serac.C98.C98_tied",
    "Serac.C98.C98_solvable",
    "Serac.C98.C98_arrival_wrong",
    "Serac.C98.C98_touch"
   ],
   "note": "Partial because the code violates the claim: multipliers that pull at surfaces without overlap are accepted, and then another displacement has less energy (C98_iff: exactly then), and a solution is not recognised when the surfaces come into contact because the pressures held before decide which multipliers count (C98_arrival_wrong; C98_touch follows a block that passes its solution after two corrections and comes back after four). Penalty dofs that overlap by less than the threshold of the active set carry no force. Gaps and forces of the contact library as in C34/C95."
  },
  {
   "property": "C99",
   "status": "proved",
   "theorems": [
    "Serac.C99.C99_refused",
    "Serac.C99.C99_layout",
    "Serac.C99.C99_action",
    "Serac.C99.C99_solves",
    "Serac.C99.C99_unset",
    "Serac.C99.C99_contact",
    "Serac.C99.C99_equation"
   ],
   "note": "One rank. The matrix has the layout of the block system exactly if no block row or column is empty (C99_layout); regular systems have no empty ones, so C99_solves needs no such hypothesis. C99_contact applies it to the systems of C98_solvable. HypreParMatrixFromBlocks, the check of block sizes in SetBlock and the factorisation are assumptions about mfem."
  },
  {
   "property": "C100",
   "status": "partial",
   "theorems": [
    "Serac.C100.C100_count",
    "Serac.C100.C100_leak_wrong",
    "Serac.C100.C100_unwritten_wrong"
   ],
   "note": "Partial because the code violates the claim: every evaluation loses the constraint matrix of every interaction with multipliers and, if contact contributes to the block of displacements, the tangent of the body (C100_count gives the exact number, C100_leak_wrong says memory is given back exactly if there are no interactions). Safety (no double free, no use after free) is part of C100_count. If one interaction has multipliers and the contact library returns no block of constraints for some interaction, an unwritten pointer is read (C100_unwritten_wrong)."
  },
  {
   "property": "C101",
   "status": "partial",
   "theorems": [
    "Serac.C101.C101_direct_partial",
    "Serac.C101.C101_direct_wrong",
    "Serac.C101.C101_square_wrong",
    "Serac.C101.C101_bounded",
    "Serac.C101.C101_affine",
    "Serac.C101.C101_rate",
    "Serac.C101.C101_heat",
    "Serac.C101.C101_first",
    "Serac.C101.C101_heat_run",
    "Serac.C101.C101_constant",
    "Serac.C101.C101_late_wrong",
    "Serac.C101.C101_reset_wrong",
    "Serac.C101.C101_contraction",
    "Serac.C101.C101_contraction_run",
    "Serac.C101.C101_equilibrium"
   ],
   "note": "Partial because the code violates the claim: values of fixed nodes are met at two thirds of a step by a mean of old and new values and not at its end (direct_partial, direct_wrong with an exact criterion, square_wrong; errors are halved in every step and stay bounded: bounded, affine); the first rate is taken at the operator's time zero (late_wrong gives the exact error); the remembered rate survives resetStates (reset_wrong). Proved as claimed: exact heat for constant power and any steps, exact formula for power linear in time, stability in an energy norm for equal steps of every length, steady states. mfem's GeneralizedAlphaSolver is an assumption. The time HeatTransfer keeps between steps is the subject of C45; here steps are those of FirstOrderODE."
  },
  {
   "property": "C102",
   "status": "partial",
   "theorems": [
    "Serac.C102.C102_selected",
    "Serac.C102.C102_partition",
    "Serac.C102.C102_short",
    "Serac.C102.C102_tied_wrong",
    "Serac.C102.C102_tied_partial",
    "Serac.C102.C102_tied_serial",
    "Serac.C102.C102_tied_partition_wrong",
    "Serac.C102.C102_local_wrong"
   ],
   "note": "Partial because the code violates the claim for tied contact: the constructor of ContactInteraction repeats the selection without Synchronize, so that a dof of the second surface whose owner has no element of that surface stays inactive (tied_wrong gives the exact set, tied_partition_wrong one mesh on one and on two processors with different results; right on one processor: tied_serial). Conditions given by true dofs list local dofs only on the owner (local_wrong, exact). Proved as claimed for GetEssentialTrueDofsFromElementAttribute: selected, partition; short: attributes beyond the array are an out-of-bounds read. Synchronize, restriction matrix and DofToVDof of mfem are assumptions."
  },
  {
   "property": "C103",
   "status": "partial",
   "theorems": [
    "Serac.C103.C103_value",
    "Serac.C103.C103_elastic",
    "Serac.C103.C103_tangent_partial",
    "Serac.C103.C103_linear_partial",
    "Serac.C103.C103_band_wrong"
   ],
   "note": "Partial because the code violates the claim next to the yield surface: for linear hardening below 3G the solver accepts its first bisection point there, and the derivative returned is that of the stress computed only if the trial equivalent stress is stationary (band_wrong, an equivalence; concrete instance). Proved as claimed: values and states for all inputs (value), elastic steps (elastic), linear hardening outside the band (linear_partial). For other flow stresses stress and derivative are exactly those of the exact return mapping with the flow stress shifted by the final residual, which is below the tolerance (tangent_partial, needs the scalar solve to converge). eig_symm is assumed exact at the trial strain and the flow (C55 says when), in a neighbourhood where the theorem speaks about the stress the code computes."
  },
  {
   "property": "C104",
   "status": "proved",
   "theorems": [
    "Serac.C104.C104_value",
    "Serac.C104.C104_shape",
    "Serac.C104.C104_derivative",
    "Serac.C104.C104_entries",
    "Serac.C104.C104_jacobian",
    "Serac.C104.C104_face_value",
    "Serac.C104.C104_face_derivative",
    "Serac.C104.C104_face_jacobian"
   ],
   "note": "H1 and L2 spaces in two and three dimensions, any number of arguments. The user's function is an expression over the operations of C12, differentiable (C12.Good) at the points and states that occur; the Jacobians are invertible. Closes the hypothesis of C51 that the stored array is the derivative. Not covered: functions with their own loops or branches (C60, C62, C103 treat those of the library), Hcurl. Quantities of interest are functions without flux tested with the qoi element. Boundary integrals pass gradients with respect to the parent face, not tangential gradients in space; the theorems say so. Exact arithmetic."
  },
  {
   "property": "C105",
   "status": "proved",
   "theorems": [
    "Serac.C105.C105_value",
    "Serac.C105.C105_face_value",
    "Serac.C105.C105_sound",
    "Serac.C105.C105_integral",
    "Serac.C105.C105_gradient",
    "Serac.C105.C105_observable"
   ],
   "note": "Discharges the hypotheses of C52 about kernels (values independent of differentiation, stored derivatives) from C104 and C51 for user-written functions, kernels with several arguments, several geometries and both kinds of domain. Prolongation, gather, scatter and restriction are linear maps (C07). H1 and L2 spaces; Hcurl and interior faces are not covered. What the kernels do to the material state is a parameter, the same with and without differentiation. Exact arithmetic."
  },
  {
   "property": "C106",
   "status": "proved",
   "theorems": [
    "Serac.C106.C106_residual",
    "Serac.C106.C106_jacobian",
    "Serac.C106.C106_value",
    "Serac.C106.C106_parallel"
   ],
   "note": "Joins C08 (gather, scatter), C105 (kernels of user-written functions), C51 (element matrices) and C53 (assembly). C106_parallel adds prolongation, its transpose and RAP for any number of processors, each of which has elements and at least one dof (the mesh hypotheses of C53). H1 and L2 spaces with the mesh hypotheses of C53; Hcurl spaces (C53_hcurl_wrong) and interior faces are not covered. Material states are not updated. Exact arithmetic."
  },
  {
   "property": "C107",
   "status": "proved",
   "theorems": [
    "Serac.C107.C107_elements",
    "Serac.C107.C107_value",
    "Serac.C107.C107_face_value",
    "Serac.C107.C107_row",
    "Serac.C107.C107_differentiates",
    "Serac.C107.C107_gradient"
   ],
   "note": "Discharges the hypotheses of C61 about integrands (derivatives, rows) from C105 and C51 for user-written functions; the value of the Functional is C61_value with C107_value and C107_face_value. The value handed out together with the gradient is overwritten by actions (C61_alias_wrong); this property does not speak of it. H1 and L2 spaces; material states are constants. Exact arithmetic."
  },
  {
   "property": "C108",
   "status": "partial",
   "theorems": [
    "Serac.C108.C108_messages",
    "Serac.C108.C108_order",
    "Serac.C108.C108_misuse",
    "Serac.C108.C108_success",
    "Serac.C108.C108_exits_partial",
    "Serac.C108.C108_normal",
    "Serac.C108.C108_interrupted_partial",
    "Serac.C108.C108_petsc_wrong"
   ],
   "note": "messages, order, success hold in every execution. Builds with PETSc do not have the rest: exitGracefully finalizes PETSc without asking whether it is running, so a failed start of the logger or a second signal during shutdown makes PETSc fail and MPI is never finalized (petsc_wrong); exits_partial is for builds without PETSc and signals after registerSignals, interrupted_partial for one signal during the user's calls. Signals inside library calls and other ranks are not modelled."
  },
  {
   "property": "C109",
   "status": "partial",
   "theorems": [
    "Serac.C109.C109_rejected",
    "Serac.C109.C109_plain",
    "Serac.C109.C109_value",
    "Serac.C109.C109_gradient_partial"
   ],
   "note": "The call's front end, with C52 for the evaluation. Missing in gradient_partial, for the reasons given with C52: integrals that list an argument twice in DependsOn (C52_repeated_wrong) and evaluations with update_qdata set, whose values at other arguments would start from another material state."
  },
  {
   "property": "C110",
   "status": "proved",
   "theorems": [
    "Serac.C110.C110_visits",
    "Serac.C110.C110_effect",
    "Serac.C110.C110_norm",
    "Serac.C110.C110_chain",
    "Serac.C110.C110_nan",
    "Serac.C110.C110_dual",
    "Serac.C110.C110_seed",
    "Serac.C110.C110_blocks",
    "Serac.C110.C110_seeds"
   ],
   "note": "The two overloads are modelled as the queue of sequences and constants they are. Exact arithmetic for the sums."
  },
  {
   "property": "C111",
   "status": "partial",
   "theorems": [
    "Serac.C111.C111_progress_partial",
    "Serac.C111.C111_terminates",
    "Serac.C111.C111_together_partial",
    "Serac.C111.C111_interrupted_partial",
    "Serac.C111.C111_signal_wrong",
    "Serac.C111.C111_uneven_wrong"
   ],
   "note": "Proved for runs without signals in which MPI and the logger start, and for a signal that reaches every rank before any of them proceeds. A signal that reaches one of two ranks can leave both waiting for ever, whatever signals follow (signal_wrong). A collective call takes effect on all ranks at once."
  }
 ]
}