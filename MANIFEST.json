{"claims": [
 {"property": "C01", "status": "proved", "theorems": ["FreeGS.Optimiser.C01_pickUnique_distinct_allowed"], "note": "All N, m, exclusion lists without repetition, and random streams."},
 {"property": "C02", "status": "partial", "theorems": ["FreeGS.Optimiser.C02_initial_choice_is_highest", "FreeGS.Optimiser.C02_result_le_every_replacement_partial", "FreeGS.Optimiser.C02_unchanged_objects_partial", "FreeGS.Optimiser.C02_not_lowest"], "note": "Claim refuted (C02_initial_choice_is_highest, C02_not_lowest): the initial choice keeps the highest score. Proved part: the result is at most every accepted replacement."},
 {"property": "C03", "status": "proved", "theorems": ["FreeGS.Optimiser.C03_population_never_worse"], "note": "Invariant over all generations, for an arbitrary linear order of scores."},
 {"property": "C04", "status": "partial", "theorems": ["FreeGS.Optimiser.C04_single_control_raises", "FreeGS.Optimiser.C04_two_controls_run_partial", "FreeGS.Optimiser.C04_last_control_never_forced"], "note": "Refuted for one control (randint(0,0) raises) and for forcing the last control; proved that two or more controls run."},
 {"property": "C05", "status": "partial", "theorems": ["FreeGS.C05_radius_partial", "FreeGS.C05_height_partial", "FreeGS.C05_zero_limit_ignored", "FreeGS.C05_unknown_label"], "note": "Clamp and non-interference proved for limits other than zero; a limit of zero is ignored by the code (C05_zero_limit_ignored); unknown label raises KeyError."},
 {"property": "C06", "status": "proved", "theorems": ["FreeGS.C06_weighted_sum"], "note": "Any list of bare callables and pairs; independent of order."},
 {"property": "C07", "status": "proved", "theorems": ["FreeGS.Polygons.C07_intersect_closed", "FreeGS.Polygons.C07_intersect_symm", "FreeGS.Polygons.C07_intersect_translate"], "note": "Soundness, completeness, error branch, symmetry, translation."},
 {"property": "C08", "status": "partial", "theorems": ["FreeGS.Polygons.C08_open_intersect_wrong", "FreeGS.Polygons.C08_open_intersect_partial"], "note": "Refuted by a missed crossing and a false crossing; proved exact description of the segments tested."},
 {"property": "C09", "status": "proved", "theorems": ["FreeGS.Polygons.C09_area_invariance", "FreeGS.Polygons.C09_area_additive"], "note": "Rotation, translation, reversal, scaling, cutting along a diagonal."},
 {"property": "C10", "status": "proved", "theorems": ["FreeGS.Polygons.C10_triangulate_conserves"], "note": "Loop invariant over all iterations."},
 {"property": "C11", "status": "partial", "theorems": ["FreeGS.Polygons.C11_triangulate_wrong", "FreeGS.Polygons.C11_triangulate_convex_partial"], "note": "Refuted by a simple pentagon (never returns) and an L-shaped hexagon (negative triangle); proved for all convex polygons."},
 {"property": "C12", "status": "proved", "theorems": ["FreeGS.Quadrature.C12_weights", "FreeGS.Quadrature.C12_one_point_exact", "FreeGS.Quadrature.C12_three_point_exact", "FreeGS.Quadrature.C12_six_point_error"], "note": "Exact mean over the triangle is an iterated interval integral over the reals; the 1- and 3-point rules are exact, the 6-point rule has an explicit error bound from the tabulated decimals; other n raise ValueError."},
 {"property": "C13", "status": "proved", "theorems": ["FreeGS.Quadrature.C13_polygon_quad", "FreeGS.Quadrature.C13_polygon_quad_errors"], "note": "For every polygon of non-zero area on which the triangulation returns; errors and non-termination are covered by C13_polygon_quad_errors."},
 {"property": "C14", "status": "proved", "theorems": ["FreeGS.ShapedCoil.C14_move_is_rebuild", "FreeGS.ShapedCoil.C14_any_sequence"], "note": "Any sequence of R and Z moves; compared with a coil built from the translated outline."},
 {"property": "C15", "status": "proved", "theorems": ["FreeGS.C15_greens_symmetries"], "note": "For arbitrary elliptic integral functions, including the clipping of the modulus."},
 {"property": "C16", "status": "proved", "theorems": ["FreeGS.C16_field_symmetries"], "note": "For arbitrary elliptic integral functions; finite differences as in the code."},
 {"property": "C17", "status": "proved", "theorems": ["FreeGS.C17_superposition", "FreeGS.C17_greens", "FreeGS.C17_duplicate_labels_wrong"], "note": "Superposition for all machines; tables of Green's functions for machines with distinct labels after any history of current and control changes; a duplicate label breaks it (C17_duplicate_labels_wrong)."},
 {"property": "C18", "status": "proved", "theorems": ["FreeGS.C18_circuit_currents", "FreeGS.C18_read_restores"], "note": "Invariant over all operation histories; a read restores it."},
 {"property": "C19", "status": "proved", "theorems": ["FreeGS.C19_control_interface", "FreeGS.C19_other_lengths"], "note": "Values, order, non-controlled coils, change of flux and field; lists of other lengths described by C19_other_lengths."},
 {"property": "C20", "status": "partial", "theorems": ["FreeGS.C20_direct_coil_partial", "FreeGS.C20_no_side_effects", "FreeGS.C20_circuit_coil_feels_itself", "FreeGS.C20_circuit_wrong"], "note": "No side effects proved for all coils; exclusion of the own field proved for coils directly in the machine, refuted for coils in circuits (C20_circuit_wrong)."},
 {"property": "C21", "status": "proved", "theorems": ["FreeGS.C21_forces_balance", "FreeGS.C21_two_coils"], "note": "Machines of point coils and circuits of point coils, exact real arithmetic."},
 {"property": "C22", "status": "proved", "theorems": ["FreeGS.Control.C22_constraint_errors", "FreeGS.Control.C22_error_bound", "FreeGS.Control.C22_no_constraints"], "note": "Optimiser is arbitrary; objective identified with the squared constraint errors of the adjusted equilibrium, exact iff solved exactly, quantitative bound for minimising optimisers."},
 {"property": "C23", "status": "proved", "theorems": ["FreeGS.Control.C23_unique_minimiser", "FreeGS.Control.C23_gamma_zero"], "note": "Exact arithmetic; gamma = 0 shown to raise LinAlgError for a concrete machine."},
 {"property": "C24", "status": "proved", "theorems": ["FreeGS.Control.C24_limits_respected", "FreeGS.Control.C24_wrong_length"], "note": "For every optimiser that respects the bounds and inequalities it is given."},
 {"property": "C25", "status": "partial", "theorems": ["FreeGS.Control.C25_offset_ignored", "FreeGS.Control.C25_advanced_plasma_offset_partial", "FreeGS.Control.C25_advanced_target_offset_matters"], "note": "Proved for ConstrainPsi2D (target and plasma offset) and for the plasma offset of ConstrainPsi2DAdvanced; the target offset of the advanced class is refuted by a concrete case."},
 {"property": "C26", "status": "proved", "theorems": ["FreeGS.Critical.C26_core_mask", "FreeGS.Critical.C26_index_error"], "note": "Full flood-fill specification incl. termination: C26_core_mask; C26_index_error covers missing O-/X-points. Stated for boundary flux different from the axis flux (otherwise psiN divides by zero)."},
 {"property": "C27", "status": "proved", "theorems": ["FreeGS.Critical.C27_remove_dup"], "note": "C27_remove_dup: sub-list, pairwise apart, covering, idempotent. \"Closer\" is the code's squared distance below 1e-5."},
 {"property": "C28", "status": "proved", "theorems": ["FreeGS.Critical.C28_find_critical"], "note": "C28_find_critical, for an arbitrary spline (external RectBivariateSpline is a parameter)."},
 {"property": "C29", "status": "partial", "theorems": ["FreeGS.Critical.C29_psisurface_partial", "FreeGS.Critical.C29_leaves_domain"], "note": "C29_psisurface_partial: exact for starts at least 1e-6 inside the domain. C29_leaves_domain: from a start on the edge the result can leave the domain by less than 1e-6, so the full statement is false of the code."},
 {"property": "C30", "status": "proved", "theorems": ["FreeGS.Jtor.C30_current_and_axis_pressure", "FreeGS.Jtor.C30_zero_alpha_m"], "note": "For every plasma located on the flux map; the quadrature routine and the power function are parameters with the stated laws. C30_zero_alpha_m: with alpha_m = 0, which the constructor accepts, no finite current density is ever returned."},
 {"property": "C31", "status": "proved", "theorems": ["FreeGS.Jtor.C31_current_and_beta"], "note": "As C30; beta_p is the value defined by the class (volume-averaged pressure over the assumed poloidal field)."},
 {"property": "C32", "status": "proved", "theorems": ["FreeGS.Jtor.C32_paxis", "FreeGS.Jtor.C32_betap", "FreeGS.Jtor.C32_given"], "note": "For ConstrainPaxisIp, ConstrainBetapIp and ProfilesPprimeFfprime."},
 {"property": "C33", "status": "partial", "theorems": ["FreeGS.Jtor.C33_pressure_edge", "FreeGS.Jtor.C33_pressure_gradient", "FreeGS.Jtor.C33_fpol_edge_partial", "FreeGS.Jtor.C33_fpol_edge_wrong_sign", "FreeGS.Jtor.C33_fpol_gradient", "FreeGS.Jtor.C33_constrained", "FreeGS.Jtor.C33_arrays"], "note": "Missing: fpol at the edge is |fvac|, not fvac, so the sign of a negative vacuum field is lost (C33_fpol_edge_wrong_sign); user-given p_func and f_func are returned unchecked."},
 {"property": "C34", "status": "proved", "theorems": ["FreeGS.GS.C34_linear_solve", "FreeGS.GS.C34_second_order", "FreeGS.GS.C34_fourth_order"], "note": "The factorised solve is an assumption: it returned a solution of the system given to it. Second and fourth order."},
 {"property": "C35", "status": "proved", "theorems": ["FreeGS.GS.C35_matrix_is_operator", "FreeGS.GS.C35_exact_low_degree", "FreeGS.GS.C35_minimum_principle", "FreeGS.GS.C35_unique_solution"], "note": ""},
 {"property": "C36", "status": "partial", "theorems": ["FreeGS.GS.C36_fourth_order_partial", "FreeGS.GS.C36_small_grid_error", "FreeGS.GS.C36_small_grid_wrong"], "note": "Proved for grids with at least six points each way. The unchanged code fails on the five-point grids that Equilibrium accepts: IndexError for nx = 5, silently wrong rows for ny = 5; both are proved."},
 {"property": "C37", "status": "proved", "theorems": ["FreeGS.GS.C37_fixed", "FreeGS.GS.C37_free", "FreeGS.GS.C37_free_linear", "FreeGS.GS.C37_free_idempotent", "FreeGS.GS.C37_free_size_error"], "note": "Grids of 2^a+1 by 2^b+1 points; other sizes are shown to be refused. The integral is the Romberg rule, shown exact for cubics."},
 {"property": "C38", "status": "proved", "theorems": ["FreeGS.GS.C38_normal_derivative", "FreeGS.GS.C38_corner_derivative", "FreeGS.GS.C38_edge_values"], "note": ""},
 {"property": "C39", "status": "partial", "theorems": ["FreeGS.Picard.C39_history", "FreeGS.Picard.C39_converged_partial", "FreeGS.Picard.C39_number_of_solves", "FreeGS.Picard.C39_terminates", "FreeGS.Picard.C39_failure", "FreeGS.Picard.C39_returns_without_boundary"], "note": "Missing: if the last linear solve finds no boundary flux, a change kept from an earlier step can pass for boundary convergence (C39_returns_without_boundary). maxits = 0 means no limit."},
 {"property": "C40", "status": "partial", "theorems": ["FreeGS.Equil.C40_checked_partial", "FreeGS.Equil.C40_unchecked", "FreeGS.Equil.C40_limiter_flux_transposed", "FreeGS.Equil.C40_rectangular_error", "FreeGS.Equil.C40_no_point_in_reach_error", "FreeGS.Equil.C40_no_axis", "FreeGS.Equil.C40_negative_current"], "note": "Missing: the limiter flux is interpolated from the transposed flux map (C40_limiter_flux_transposed, C40_rectangular_error), and with a flux minimum on the axis the boundary farther from the axis is taken (C40_negative_current)."},
 {"property": "C41", "status": "proved", "theorems": ["FreeGS.MG.C41_exact_solution_unchanged", "FreeGS.MG.C41_jacobi_unchanged_only_if", "FreeGS.MG.C41_two_steps_can_return", "FreeGS.MG.C41_smoothVcycle_unchanged"], "note": "The direct solver is a parameter that returns a solution whenever it returns (Factors); uniqueness is derived. For more than one Jacobi step the converse fails (C41_two_steps_can_return)."},
 {"property": "C42", "status": "partial", "theorems": ["FreeGS.MG.C42_interpolate_bilinear", "FreeGS.MG.C42_restrict_interpolate", "FreeGS.MG.C42_linear", "FreeGS.MG.C42_constant_partial", "FreeGS.MG.C42_avg_quarters"], "note": "Everything is proved except that restrict(avg=True) keeps constants: it divides them by four (C42_avg_quarters)."},
 {"property": "C43", "status": "proved", "theorems": ["FreeGS.MG.C43_sizes_fit", "FreeGS.MG.C43_number_of_levels", "FreeGS.MG.C43_smoothVcycle_sizes"], "note": "Sizes fit at all levels, number of levels characterised; smoothVcycle raises exactly if the grid cannot be halved that often."},
 {"property": "C44", "status": "partial", "theorems": ["FreeGS.Resolution.C44_refine", "FreeGS.Resolution.C44_coarsen_partial", "FreeGS.Resolution.C44_refine_coarsen_partial", "FreeGS.Resolution.C44_coarsen_resets", "FreeGS.Resolution.C44_newDomain_partial"], "note": "refine: everything; coarsen and newDomain lose boundary function and order (C44_coarsen_resets), coarsen zeroes the edge flux, newDomain uses the R size in Z on grids that are not square."},
 {"property": "C45", "status": "partial", "theorems": ["FreeGS.Geqdsk.C45_isPow2_partial", "FreeGS.Geqdsk.C45_isPow2_zero", "FreeGS.Geqdsk.C45_ceilPow2", "FreeGS.Geqdsk.C45_resized"], "note": "isPow2(0) is true (C45_isPow2_zero); everything else proved, rounding of log2 not modelled."},
 {"property": "C46", "status": "partial", "theorems": ["FreeGS.Geqdsk.C46_geometry", "FreeGS.Geqdsk.C46_flux_partial", "FreeGS.Geqdsk.C46_flux_resized", "FreeGS.Geqdsk.C46_goes_through"], "note": "What read takes from the dictionary before it solves. The fit and the iteration that follow are in C103: they reproduce an equilibrium that the file describes exactly, but a file of write does not hold the profiles of the equilibrium (C47)."},
 {"property": "C47", "status": "partial", "theorems": ["FreeGS.Geqdsk.C47_axis_partial", "FreeGS.Geqdsk.C47_edge"], "note": "False except on axis: written at k/n, read at k/(n-1) (C47_edge)."},
 {"property": "C48", "status": "partial", "theorems": ["FreeGS.Dump.C48_writable", "FreeGS.Dump.C48_roundtrip_partial", "FreeGS.Dump.C48_readable", "FreeGS.Dump.C48_fields", "FreeGS.Dump.C48_area_lost", "FreeGS.Dump.C48_moved_back", "FreeGS.Dump.C48_turns_truncated", "FreeGS.Dump.C48_circuit_unreadable"], "note": "Which machines can be written is characterised exactly. Round trip, readability and equality of all fields are proved for machines with whole turns, unmoved shaped coils and circuits whose first multiplier is not zero and whose coils share the circuit's control flag. Areas are never restored; moved shaped coils, fractional turns and circuits without coils or with a zero first multiplier are proved to be lost. Labels that HDF5 reads as paths are outside the model."},
 {"property": "C49", "status": "proved", "theorems": ["FreeGS.Global.C49_formulas", "FreeGS.Global.C49_consistent", "FreeGS.Global.C49_shift", "FreeGS.Global.C49_mirror", "FreeGS.Global.C49_scale", "FreeGS.Global.C49_order", "FreeGS.Global.C49_triangularity_order"], "note": "Order independence is proved for R0, a, aspect ratio and elongation; triangularity depends on the order when two points share the greatest height (C49_triangularity_order)."},
 {"property": "C50", "status": "partial", "theorems": ["FreeGS.Tracer.C50_never_restarts", "FreeGS.Tracer.C50_stopped", "FreeGS.Tracer.C50_follows_field", "FreeGS.Tracer.C50_backward", "FreeGS.Tracer.C50_length_partial", "FreeGS.Tracer.C50_length_shrinks"], "note": "The flag and the rates after a stop are proved for every sequence of evaluations. Length grows only for positive toroidal field; for negative field it is proved to shrink. The integrator odeint is not modelled, so the claim is on the rates it receives."},
 {"property": "C51", "status": "partial", "theorems": ["FreeGS.C51_status_off", "FreeGS.C51_rogowski_partial", "FreeGS.C51_turns_ignored", "FreeGS.C51_solenoid_error", "FreeGS.C51_probes_linear", "FreeGS.Nested.C51_tcv_rogowski_fails"], "note": "Status, linearity proved; the Rogowski total needs one turn per coil and no solenoid (C51_turns_ignored, C51_solenoid_error refute the rest)."},
 {"property": "C52", "status": "partial", "theorems": ["FreeGS.Limits.C52_points_on_wall_partial", "FreeGS.Limits.C52_closing_side", "FreeGS.Limits.C52_stale_after_read"], "note": "Number, position and equal spacing of the limiter points are proved for every wall with distinct first points. The closing side of the wall has no limiter points (C52_closing_side), and the points are not renewed when geqdsk.read replaces the wall (C52_stale_after_read)."},
 {"property": "C53", "status": "partial", "theorems": ["FreeGS.C53_mirrored_wrong", "FreeGS.C53_mirrored_partial"], "note": "Refuted: both coils are at +Z and current and control arguments are overwritten; the rest proved."},
 {"property": "C54", "status": "partial", "theorems": ["FreeGS.C54_sum_over_turns", "FreeGS.C54_single_point_turns_wrong", "FreeGS.C54_mirror_symmetry"], "note": "Sum over turns and mirror symmetry proved; the turns of a single point are ignored (C54_single_point_turns_wrong)."},
 {"property": "C55", "status": "partial", "theorems": ["FreeGS.Critical.C55_bracketed_partial", "FreeGS.Critical.C55_outside_axis", "FreeGS.Critical.C55_first_column_wraps"], "note": "C55_bracketed_partial: holds if the flux at the axis radius is inside the boundary. C55_outside_axis: otherwise the outer radius can be smaller than the axis radius, so the full statement is false of the code."},
 {"property": "C56", "status": "partial", "theorems": ["FreeGS.Geqdsk.C56_closed_partial", "FreeGS.Geqdsk.C56_start"], "note": "Closed, reversed, complete; the start is not the lowest point (C56_start)."},
 {"property": "C57", "status": "proved", "theorems": ["FreeGS.Geqdsk.C57_divgeo"], "note": "The text format is not modelled."},
 {"property": "C58", "status": "proved", "theorems": ["FreeGS.C58_solenoid"], "note": "Any number of turns from two."},
 {"property": "C59", "status": "proved", "theorems": ["FreeGS.C59_mean_of_filaments", "FreeGS.C59_moves_rigidly"], "note": "Mean of filaments, order independence, rigid moves."},
 {"property": "C60", "status": "proved", "theorems": ["FreeGS.Global.C60_totalBeta"], "note": "The harmonic combination, and that it is the beta of the total field. With zero pressure the model stops (nonfinite) where numpy would go through infinity to 0."},
 {"property": "C61", "status": "partial", "theorems": ["FreeGS.Optimiser.C61_last_index_never_picked", "FreeGS.Optimiser.C61_small_index_reachable_partial", "FreeGS.Optimiser.C61_reachable", "FreeGS.Optimiser.C61_all_requested", "FreeGS.Optimiser.C61_partners_of_an_agent"], "note": "Refuted: the last index is never returned unless every free index is requested. C61_reachable says exactly which indices can be returned; for the optimiser, the last agent but one is a partner of three agents only (C61_partners_of_an_agent)."},
 {"property": "C62", "status": "partial", "theorems": ["FreeGS.C62_moved_coil_stale", "FreeGS.C62_refreshed_partial"], "note": "Refuted after a coil move; proved for all histories without moves and after re-creating the tables."},
 {"property": "C63", "status": "partial", "theorems": ["FreeGS.C63_move_radially_partial", "FreeGS.C63_move_vertically_partial", "FreeGS.C63_stale_outline_and_tables"], "note": "Proved for Coil, FilamentCoil, MultiCoil and the field of ShapedCoil; refuted for the outline of ShapedCoil and the tables of PreCalcCoil."},
 {"property": "C64", "status": "partial", "theorems": ["FreeGS.C64_max_abs_current", "FreeGS.C64_max_coil_force_fails", "FreeGS.C64_max_coil_force_partial", "FreeGS.C64_plasma_ignored"], "note": "Currents proved; forces refuted with circuits, solenoids and plasma, proved for plain coils without plasma."},
 {"property": "C65", "status": "partial", "theorems": ["FreeGS.Control.C65_limits_partial", "FreeGS.Control.C65_start_unchanged", "FreeGS.Control.C65_default_limits_fail", "FreeGS.Control.C65_default_weights_fail", "FreeGS.Equil.C65_norm_limits_partial", "FreeGS.Equil.C65_norm_default_limits_fail"], "note": "Limits proved for every bound-honouring optimiser; the documented defaults are refuted (TypeError) and limits are matched with controlled coils only."},
 {"property": "C66", "status": "proved", "theorems": ["FreeGS.ShapedCoil.C66_response_is_outline_average"], "note": "Response identified with turns times the weighted average over the outline."},
 {"property": "C67", "status": "proved", "theorems": ["FreeGS.C67_greens_is_filament_flux", "FreeGS.C67_positive_everywhere"], "note": "C67_greens_is_filament_flux, C67_positive_everywhere; ellipk/ellipe replaced by the exact integrals."},
 {"property": "C68", "status": "proved", "theorems": ["FreeGS.C68_radial_field", "FreeGS.C68_vertical_field", "FreeGS.C68_radial_accuracy", "FreeGS.C68_vertical_accuracy"], "note": "C68_radial_field, C68_vertical_field give the field averaged at an intermediate point, C68_radial_accuracy and C68_vertical_accuracy bound the error by a multiple of the step; exact elliptic integrals and real arithmetic (no cancellation error of the difference)."},
 {"property": "C69", "status": "partial", "theorems": ["FreeGS.Jtor.C69_given_uses_boundary_partial", "FreeGS.Jtor.C69_constrained_ignores_boundary"], "note": "Missing: the two constrained profile classes ignore the psi_bndry argument (C69_constrained_ignores_boundary)."},
 {"property": "C70", "status": "proved", "theorems": ["FreeGS.Equil.C70_consistent", "FreeGS.Equil.C70_second_order", "FreeGS.Equil.C70_fourth_order"], "note": "The solver is assumed to invert the operator: true for the direct solver with the second-order matrix (C70_second_order) and with the default fourth-order matrix (C70_fourth_order). find_critical, core_mask, splines are parameters here."},
 {"property": "C71", "status": "proved", "theorems": ["FreeGS.Equil.C71_self_consistent", "FreeGS.Equil.C71_self_consistent_betap", "FreeGS.Equil.C71_self_consistent_given"], "note": "As C70; quadrature is the integral over the reals. C71_self_consistent_given is the same for profiles given as functions, over any ordered field."},
 {"property": "C72", "status": "proved", "theorems": ["FreeGS.MG.C72_solver_linear", "FreeGS.MG.C72_error_propagation"], "note": ""},
 {"property": "C73", "status": "proved", "theorems": ["FreeGS.MG.C73_jacobi_converges", "FreeGS.MG.C73_any_accuracy"], "note": ""},
 {"property": "C74", "status": "proved", "theorems": ["FreeGS.MG.C74_matrix_is_operator"], "note": ""},
 {"property": "C75", "status": "partial", "theorems": ["FreeGS.Geqdsk.C75_domain_partial", "FreeGS.Geqdsk.C75_resolution_worse"], "note": "Domain limits only; the resolution claim is false for every input (C75_resolution_worse)."},
 {"property": "C76", "status": "proved", "theorems": ["FreeGS.Global.C76_volume", "FreeGS.Global.C76_volume_mono", "FreeGS.Global.C76_average", "FreeGS.Global.C76_nonneg", "FreeGS.Global.C76_outside"], "note": "Separatrix, fields and pressure are inputs of the model."},
 {"property": "C77", "status": "partial", "theorems": ["FreeGS.Global.C77_li_li3", "FreeGS.Global.C77_inductances", "FreeGS.Global.C77_energy", "FreeGS.Global.C77_poloidalBeta3", "FreeGS.Global.C77_radii"], "note": "All relations hold except for poloidalBeta3, which is poloidalBeta times internalInductance3 times the plasma volume (C77_poloidalBeta3)."},
 {"property": "C78", "status": "partial", "theorems": ["FreeGS.Global.C78_dimensionless_partial", "FreeGS.Global.C78_poloidalBeta3"], "note": "Holds for all figures but poloidalBeta3, which is shown to scale with the cube of the length."},
 {"property": "C79", "status": "partial", "theorems": ["FreeGS.Global.C79_first_zero", "FreeGS.Global.C79_depends_on_list", "FreeGS.Global.C79_append", "FreeGS.Global.C79_increasing", "FreeGS.Global.C79_affine_partial", "FreeGS.Global.C79_error"], "note": "False as stated: the first value is always zero (C79_first_zero, C79_depends_on_list). Proved instead: differences are additive, exact for affine q, within h/(4 pi) of the integral for monotone q, increasing for falling flux."},
 {"property": "C80", "status": "partial", "theorems": ["FreeGS.Global.C80_rising_negative", "FreeGS.Global.C80_single", "FreeGS.Global.C80_profile_partial", "FreeGS.Global.C80_depends_on_list"], "note": "Proved for the profile of 101 values with falling flux. Rising flux (C80_rising_negative) and single values (C80_single) always fail; other lists get values depending on their first entry (C80_depends_on_list)."},
 {"property": "C81", "status": "partial", "theorems": ["FreeGS.Dump.C81_settings_partial", "FreeGS.Dump.C81_user_boundary", "FreeGS.Dump.C81_write_harmless"], "note": "Domain, size, flux, current, library boundary and wall are kept and writing is harmless; order, limiter check, profiles, control, sensors, reference radius and number of limiter points are proved to be replaced by defaults; own boundary functions cannot be read back."},
 {"property": "C82", "status": "partial", "theorems": ["FreeGS.Tracer.C82_inside", "FreeGS.Tracer.C82_outside_partial", "FreeGS.Tracer.C82_behind_corner", "FreeGS.Tracer.C82_middle_outside", "FreeGS.Tracer.C82_small_wall", "FreeGS.Tracer.C82_symmetric", "FreeGS.C82_far", "FreeGS.Tracer.C82_even_odd", "FreeGS.Tracer.C82_any_wall"], "note": "Proved for walls of any shape by the even-odd rule: with the line of sight in general position and no crossed side of tiny determinant, a position is taken to be outside exactly if it is not inside (C82_any_wall); convex walls also by half planes. Behind a corner, for tiny walls and with the middle of the domain outside the wall the test is proved wrong, so the full statement is false."},
 {"property": "C83", "status": "proved", "theorems": ["FreeGS.Tracer.C83_starts", "FreeGS.Tracer.C83_order"], "note": ""},
 {"property": "C84", "status": "partial", "theorems": ["FreeGS.Separatrix.C84_points_partial", "FreeGS.Separatrix.C84_ordered", "FreeGS.Separatrix.C84_xpoint_missed", "FreeGS.Separatrix.C84_no_xpoint"], "note": "Proved with an X-point; false without X-point (C84_no_xpoint) and for X-points just left of straight above (C84_xpoint_missed)."},
 {"property": "C85", "status": "partial", "theorems": ["FreeGS.Separatrix.C85_converges_partial", "FreeGS.Separatrix.C85_scale", "FreeGS.Separatrix.C85_sign", "FreeGS.Separatrix.C85_ignores_boundary", "FreeGS.Separatrix.C85_no_xpoint"], "note": "Convergence proved for surfaces that the linear search finds exactly and C1 in the angle; scaling and sign for all. False for limited plasmas."},
 {"property": "C86", "status": "partial", "theorems": ["FreeGS.Separatrix.C86_profile", "FreeGS.Separatrix.C86_elementwise_partial", "FreeGS.Separatrix.C86_list", "FreeGS.Separatrix.C86_mixed"], "note": "Proved for values all in or all out of [0.01, 0.99]; false for mixed arrays (C86_mixed) and lists (C86_list)."},
 {"property": "C87", "status": "partial", "theorems": ["FreeGS.Global.C87_joins_axes_partial", "FreeGS.Global.C87_follows_axis", "FreeGS.Global.C87_npoints_ignored"], "note": "True for 360 points; the argument npoints is ignored (C87_npoints_ignored)."},
 {"property": "C88", "status": "partial", "theorems": ["FreeGS.Equil.C88_history_free_partial", "FreeGS.Equil.C88_exact_fit", "FreeGS.Equil.C88_exact_fit_advanced", "FreeGS.Equil.C88_scale_free", "FreeGS.Equil.C88_boundary_partial", "FreeGS.Equil.C88_history", "FreeGS.Equil.C88_stale_boundary"], "note": "History-free if there is always an O-point (C88_history refutes the rest); stored fluxes right if the optimiser returns its last trial (C88_stale_boundary otherwise)."},
 {"property": "C89", "status": "partial", "theorems": ["FreeGS.Filaments.C89_ends", "FreeGS.Filaments.C89_inside_partial", "FreeGS.Filaments.C89_fails"], "note": "Termination proved for all outlines containing a square; filaments inside if any are returned; but for ordinary rectangles the call raises ValueError (C89_fails)."},
 {"property": "C90", "status": "partial", "theorems": ["FreeGS.Critical.C90_offset_and_height", "FreeGS.Critical.C90_sign_partial", "FreeGS.Critical.C90_weak_field", "FreeGS.Critical.C90_scale_fails"], "note": "Offset and vertical shift: exact for every flux and spline. Sign: X-points with exactly the flux of the axis excluded. Scale: false; the null test is an absolute limit (1 mT), so weak fields give grid points and even points where there is no null."},
 {"property": "C91", "status": "partial", "theorems": ["FreeGS.Critical.C91_node_found_partial", "FreeGS.Critical.C91_quadratic_partial", "FreeGS.Critical.C91_even_rows_missed", "FreeGS.Critical.C91_middle_rows_not_searched", "FreeGS.Critical.C91_between_points_partial", "FreeGS.Critical.C91_block_partial", "FreeGS.Critical.C91_isotropic_partial", "FreeGS.Critical.C91_smooth_is_regular"], "note": "Nulls on grid points are found and classified. Regular nulls between grid points are found when the field is weaker inside some block than on its rim and no two neighbours tie (always the case, up to ties, for nearly isotropic nulls on square cells). False in general: nulls on the midplane of a symmetric grid with an even number of rows are never found."},
 {"property": "C92", "status": "proved", "theorems": ["FreeGS.GS.C92_stability", "FreeGS.GS.C92_second_order", "FreeGS.GS.C92_converges"], "note": "Second-order solver GSsparse with the exact factorisation (scipy's factorized is a parameter that solves the system). The smooth solution is assumed to exist; real arithmetic."},
 {"property": "C93", "status": "proved", "theorems": ["FreeGS.GS.C93_solver", "FreeGS.GS.C93_fixed_boundary", "FreeGS.GS.C93_free_boundary", "FreeGS.GS.C93_hagenow_boundary", "FreeGS.GS.C93_kernel", "FreeGS.GS.C93_heights", "FreeGS.Critical.C93_core_mask", "FreeGS.Critical.C93_tie_fails", "FreeGS.Critical.C93_two_axes", "FreeGS.Equil.C93_core_keeps", "FreeGS.Equil.C93_profiles", "FreeGS.Equil.C93_solve", "FreeGS.Equil.C93_picard", "FreeGS.Equil.C93_equilibrium"], "note": "Full statement; the two exclusions are shown necessary by C93_tie_fails and C93_two_axes. find_critical is a parameter: that its nulls are symmetric is a hypothesis for the fluxes met in the run."},
 {"property": "C94", "status": "partial", "theorems": ["FreeGS.Nested.C94_tcv", "FreeGS.Nested.C94_tcv_labels", "FreeGS.Nested.C94_tcv_fails", "FreeGS.Predefined.C94_kernel", "FreeGS.Predefined.C94_labels", "FreeGS.Predefined.C94_made", "FreeGS.Predefined.C94_mast", "FreeGS.Predefined.C94_mast_sym", "FreeGS.Predefined.C94_mastu_simple", "FreeGS.Predefined.C94_mastu_partial", "FreeGS.Predefined.C94_test_tokamak_fails", "FreeGS.Predefined.C94_test_tokamak_partial", "FreeGS.Predefined.C94_mastu_fails", "FreeGS.Predefined.C94_grid"], "note": "Construction and labels proved for all eight machines; symmetry for MAST, MAST_sym, MASTU_simple and TCV (no current in T1, T2, T3, which exist only below) in full. False for two machines: the quadrature points of P1L and P1U of TestTokamak are not mirror images (C94_test_tokamak_fails), and the centre coil Pc of MASTU is not symmetric (C94_mastu_fails); proved for the rest of these machines. Walls and sensors are not modelled."},
 {"property": "C95", "status": "partial", "theorems": ["FreeGS.Equality.C95_reflexive", "FreeGS.Equality.C95_order", "FreeGS.Equality.C95_meaning_partial", "FreeGS.Equality.C95_equivalence_partial", "FreeGS.Equality.C95_fields_partial", "FreeGS.Equality.C95_saved", "FreeGS.Equality.C95_ignored", "FreeGS.Equality.C95_shaped_meaning_partial", "FreeGS.Equality.C95_point_shaped_fails", "FreeGS.Equality.C95_filament_fails", "FreeGS.Equality.C95_shaped_fails", "FreeGS.Equality.C95_multi_fails", "FreeGS.Equality.C95_precalc_fails", "FreeGS.Equality.C95_area_fails", "FreeGS.Equality.C95_repeated_fails", "FreeGS.Equality.C95_wall_fails", "FreeGS.Equality.C95_kind_fails", "FreeGS.Equality.C95_equivalence_fails"], "note": "Proved for machines with distinct labels: reflexive, independent of the order of coils, true after writing and reading; for point coils, circuits of point coils and solenoids the exact meaning of ==, symmetry and transitivity with one wall, and equal fields. The property fails otherwise: repeated labels, a wall against none, walls of different length and coils of different kinds raise; filament, moved shaped, multi- and pre-calculated coils with different fields are equal; areas are ignored although forces depend on them; the tolerance for walls is neither symmetric nor transitive."},
 {"property": "C96", "status": "proved", "theorems": ["FreeGS.C96_filaments", "FreeGS.C96_field_from_flux", "FreeGS.C96_divergence", "FreeGS.C96_vacuum"], "note": "Over the reals with the exact elliptic integrals for the vacuum equation; pre-calculated coils are excluded because their three tables are data of the user. Within the clipping distance of a filament (relative distance about 1e-5) Greens replaces the modulus by a constant and the equation is not claimed."},
 {"property": "C97", "status": "partial", "theorems": ["FreeGS.Equil.C97_flux_on_grid", "FreeGS.Equil.C97_normalised", "FreeGS.Equil.C97_no_boundary_fails", "FreeGS.Equil.C97_stale_currents_fails", "FreeGS.Equil.C97_toroidal_on_grid", "FreeGS.Equil.C97_toroidal_range_partial", "FreeGS.Equil.C97_limited_fails", "FreeGS.Equil.C97_strength", "FreeGS.Equil.C97_mask_overshoot_fails", "FreeGS.Equil.C97_poloidal_field"], "note": "False as stated: without X-point and limiter the normalised flux and the toroidal field raise TypeError after a solve (C97_no_boundary_fails); a limited plasma without X-point has no mask, so its toroidal field outside is not that of the vacuum (C97_limited_fails); the mask is interpolated with cubic splines, which overshoot between grid points (C97_mask_overshoot_fails); changed currents leave psi_axis and psi_bndry as they were (C97_stale_currents_fails). Proved: flux and toroidal field on the grid, normalised flux, error bound of the poloidal field against the derivatives of psiRZ, field strength, range of the toroidal field where the mask is between 0 and 1."},
 {"property": "C98", "status": "proved", "theorems": ["FreeGS.Jtor.C98_paxis", "FreeGS.Jtor.C98_betap", "FreeGS.Jtor.C98_given", "FreeGS.Jtor.C98_ampere"], "note": "Exact integrals and powers for quad and **; at points where fpol is not zero. For given functions the normalised flux at the point must be between 0 and 1 and no separate functions for p and f may be given (they are independent data)."},
 {"property": "C99", "status": "partial", "theorems": ["FreeGS.Control.C99_control_problem", "FreeGS.Control.C99_control_solutions", "FreeGS.Control.C99_control_unique", "FreeGS.Control.C99_control", "FreeGS.Control.C99_control_start", "FreeGS.Equil.C99_core_mask", "FreeGS.Equil.C99_fixed_boundary", "FreeGS.Equil.C99_free_boundary", "FreeGS.Equil.C99_hagenow_boundary", "FreeGS.Equil.C99_solver", "FreeGS.Equil.C99_find_reversed", "FreeGS.Equil.C99_profiles", "FreeGS.Equil.C99_pressure", "FreeGS.Equil.C99_solve", "FreeGS.Equil.C99_picard", "FreeGS.Equil.C99_reversed_partial"], "note": "Proved for each step for every k != 0 (core mask, fixed and free boundary conditions, von Hagenow, solvers, profiles, pressure, control, linear solve, Picard iteration relative to a search for critical points that scales), and for the whole calculation with the code's own search for k = -1 (C99_reversed_partial), provided no X-point has exactly the flux of the axis. Missing because false: positive k != 1 with weak fields (the search drops or keeps points by the absolute threshold 1e-6, C90_scale_fails), and negative k with check_limited (the limiter takes the maximum of the flux, C40)."},
 {"property": "C100", "status": "partial", "theorems": ["FreeGS.WallTest.C100_sound", "FreeGS.WallTest.C100_leaving", "FreeGS.WallTest.C100_no_report", "FreeGS.WallTest.C100_beside_fails", "FreeGS.WallTest.C100_fine_fails", "FreeGS.WallTest.C100_limited_fails", "FreeGS.WallTest.C100_touching_fails"], "note": "Soundness for all inputs; completeness for walls of any shape with sides in general position and crossing determinants of at least 1e-6. Proved false for plasmas beside or around the wall, crossings at corners, short sides, limited plasmas and machines without a wall."},
 {"property": "C101", "status": "partial", "theorems": ["FreeGS.Tracer.C101_direction", "FreeGS.Tracer.C101_direction_fails", "FreeGS.Tracer.C101_length", "FreeGS.Tracer.C101_drift", "FreeGS.Tracer.C101_on_surface", "FreeGS.Tracer.C101_equilibrium", "FreeGS.Tracer.C101_pitch", "FreeGS.Tracer.C101_returns"], "note": "Proved for every exact solution (the accuracy of odeint is outside the model): flux drift bound with the explicit error of the coil fields, tangency, length, pitch, return. False for negative toroidal field: forward runs against the field and the length decreases (C101_direction_fails, C50_length_shrinks)."},
 {"property": "C102", "status": "partial", "theorems": ["FreeGS.C102_greens", "FreeGS.C102_machine", "FreeGS.C102_mirrored_fails", "FreeGS.C102_control", "FreeGS.GS.C102_matrix", "FreeGS.GS.C102_boundary", "FreeGS.Equil.C102_core_mask", "FreeGS.Equil.C102_profiles", "FreeGS.Equil.C102_solve_partial", "FreeGS.Equil.C102_picard_partial", "FreeGS.Equil.C102_equilibrium_partial", "FreeGS.Equil.C102_limiter_fails", "FreeGS.Equil.C102_limiter_level_fails"], "note": "Proved for calculations without limiter or without X-points: machine, control, operators, boundary functions, core mask, critical points, all profiles, linear solve and the whole Picard iteration give the raised result. False in general: limiter points are selected by their distance from Z = 0 (C102_limiter_fails, C102_limiter_level_fails), and mirrored MultiCoils are mirrored at Z = 0 (C102_mirrored_fails)."},
 {"property": "C103", "status": "partial", "theorems": ["FreeGS.Geqdsk.C103_returned", "FreeGS.Geqdsk.C103_bounds", "FreeGS.Geqdsk.C103_ends", "FreeGS.Geqdsk.C103_consistent", "FreeGS.Geqdsk.C103_first_fit", "FreeGS.Geqdsk.C103_first_fit_bounds", "FreeGS.Geqdsk.C103_no_xpoint_fails", "FreeGS.Geqdsk.C103_limiter_fails", "FreeGS.Geqdsk.C103_rectangular_fails", "FreeGS.Geqdsk.C103_fit_sol_bounds_fails", "FreeGS.Geqdsk.C103_domain_fails", "FreeGS.Geqdsk.C103_reads_back_partial", "FreeGS.Geqdsk.C103_currents_before_fails"], "note": "Proved: what is returned, bounds, number of solves, consistency; an exactly described equilibrium is read back (C103_reads_back_partial: sizes 2^n + 1, no current_bounds, coils without flux before, an optimiser that finds minima and returns the currents it tried last, identifiable currents). False in general, proved as general theorems: files without X-point, with a limiter but a machine without wall, with a grid that is not square and a machine with wall, fit_sol with current_bounds, and the domain keyword when the starting guess has no X-point cannot be read; the result depends on the currents before (C103_currents_before_fails)."},
 {"property": "C104", "status": "proved", "theorems": ["FreeGS.Picard.C104_converges", "FreeGS.Picard.C104_error", "FreeGS.Picard.C104_contraction_steps", "FreeGS.Picard.C104_contraction", "FreeGS.Picard.C104_oscillates_fails", "FreeGS.Picard.C104_blending", "FreeGS.Equil.C104_any_solver", "FreeGS.Equil.C104_equilibrium", "FreeGS.Equil.C104_default_solver", "FreeGS.Equil.C104_free_boundary"], "note": "Proved: return within an explicit number of solves (with any coil control and blend, for any distance that shrinks), error bound, existence and uniqueness of the self-consistent flux, the equilibrium on a grid with any boundary function of bounded slope, without limiter, for every stable solver, the second-order and the default fourth-order one; the free boundary has bounded slope (C104_free_boundary); the iteration that never ends without blending and its cure."},
 {"property": "C105", "status": "proved", "theorems": ["FreeGS.Optimiser.C105_candidates", "FreeGS.Optimiser.C105_what_is_kept", "FreeGS.Optimiser.C105_failed_never_enters", "FreeGS.Optimiser.C105_returned", "FreeGS.Optimiser.C105_converged", "FreeGS.Optimiser.C105_solve_ends", "FreeGS.Optimiser.C105_argument_is_solved"], "note": "The exact condition is proved, including the unwelcome half: when a solve of the first population fails and nothing is replaced later, the failed equilibrium is returned although solved ones exist, and the equilibrium given by the user is itself solved in place (docstring: deep copied). The score inf is the top of an arbitrary linear order; nan scores, KeyboardInterrupt caught by the bare except, and what a failed solve leaves in the object are parameters or not modelled."},
 {"property": "C106", "status": "partial", "theorems": ["FreeGS.Measure.C106_all_measured", "FreeGS.Measure.C106_solenoid_stops_fails", "FreeGS.Measure.C106_no_sensors_fails", "FreeGS.Measure.C106_printed_partial", "FreeGS.Measure.C106_off_stops_printing_fails", "FreeGS.Measure.C106_equality", "FreeGS.Measure.C106_equality_is_place_fails", "FreeGS.Measure.C106_equality_of_loops_fails"], "note": "Proved for machines with sensors in which no Rogowski loop that is on meets a solenoid, and for printing when every sensor is on. The rest is refuted: AttributeError with a solenoid (later sensors stay unmeasured), TypeError without sensors, AttributeError when printing a sensor made off, equality that looks at the place only."},
 {"property": "C107", "status": "proved", "theorems": ["FreeGS.GS.C107_stability", "FreeGS.GS.C107_largest", "FreeGS.GS.C107_solvable", "FreeGS.GS.C107_fourth_order", "FreeGS.GS.C107_converges"], "note": "Energy method for the one-sided fourth-order rows; hypotheses: at least 9 points each way, Rmin at least two radial steps (the default 65 x 65 grid on 0.1 < R < 2 meets them). Edge values must be exact in C107_fourth_order; an error of the current density is allowed."},
 {"property": "C108", "status": "proved", "theorems": ["FreeGS.Nested.C108_field", "FreeGS.Nested.C108_response", "FreeGS.Nested.C108_currents", "FreeGS.Nested.C108_inner_currents_ignored", "FreeGS.Nested.C108_control", "FreeGS.Nested.C108_make", "FreeGS.Nested.C108_member", "FreeGS.Nested.C108_greens", "FreeGS.Nested.C108_flat", "FreeGS.Nested.C108_in_shape", "FreeGS.Nested.C108_machine"], "note": "Induction over all nestings. Tables of Green's functions for circuits with distinct labels (within each circuit)."},
 {"property": "C109", "status": "proved", "theorems": ["FreeGS.GS.C109_polynomials", "FreeGS.GS.C109_error", "FreeGS.GS.C109_converges", "FreeGS.GS.C109_continuous", "FreeGS.GS.C109_unique", "FreeGS.GS.C109_plasma_current", "FreeGS.GS.C109_edge_flux", "FreeGS.GS.C109_volume", "FreeGS.GS.C109_rate", "FreeGS.GS.C109_current_rate"], "note": "For the model of scipy's romb on 2^k+1 samples; other sizes raise ValueError (C36, C38). Edge flux for points without current."},
 {"property": "C110", "status": "proved", "theorems": ["FreeGS.GS.C110_edge", "FreeGS.GS.C110_converges", "FreeGS.GS.C110_physical", "FreeGS.GS.C110_default", "FreeGS.GS.C110_rate"], "note": "C110_default asks that Green's function times current agree on the edge with a function smooth in the place; C110_rate, for fourth-order accuracy, smooth in the source too. At single points C110_rate loses a factor of the square root of the number of radii."},
 {"property": "C111", "status": "proved", "theorems": ["FreeGS.GS.C111_edge", "FreeGS.GS.C111_solve"], "note": "Second-order solver for the auxiliary problem. The limit is the flux one centimetre outside the edge, not on it: the displacement is fixed and does not shrink with the grid."},
 {"property": "C112", "status": "partial", "theorems": ["FreeGS.C112_box_partial", "FreeGS.C112_middle_fails", "FreeGS.C112_outline_fails", "FreeGS.C112_unpaired_fails"], "note": "The box and its area are proved. False: the position counts one corner twice (C112_middle_fails), the outline stays behind when the coil moves (C112_outline_fails), lists of different lengths are accepted and current is lost (C112_unpaired_fails)."},
 {"property": "C113", "status": "partial", "theorems": ["FreeGS.Control.C113_closest", "FreeGS.Control.C113_reached", "FreeGS.Control.C113_bounded", "FreeGS.Control.C113_offset_partial", "FreeGS.Control.C113_offset_fails"], "note": "Proved for every weight array: closest, reached, within limits. The best constant offset is proved for weights that are zero or one common value (C113_offset_partial) and refuted for others (C113_offset_fails): the weights enter the mean once but the squares twice."},
 {"property": "C114", "status": "proved", "theorems": ["FreeGS.Control.C114_requests", "FreeGS.Control.C114_coils"], "note": ""},
 {"property": "C115", "status": "proved", "theorems": ["FreeGS.C115_flux", "FreeGS.C115_field"], "note": "Exact for the field derived from the reported flux; for the reported Br and Bz with an explicit bound on the deviation from the difference over a millimetre."},
 {"property": "C116", "status": "proved", "theorems": ["FreeGS.GS.C116_default", "FreeGS.GS.C116_rate", "FreeGS.GS.C116_unique", "FreeGS.GS.C116_green", "FreeGS.GS.C116_solve", "FreeGS.GS.C116_hagenow"], "note": "For grids of 2^k+1 by 2^l+1 points: at every point with the second-order solver; with the default fourth-order one in root mean square (C116_default), and to fourth order in the spacing, at single points up to the square root of the number of radii, if the current density has four continuous derivatives (C116_rate). Current that keeps so near to the edge that arguments of Green's function are clipped is excluded."},
 {"property": "C117", "status": "partial", "theorems": ["FreeGS.Records.C117_point_partial", "FreeGS.Records.C117_shaped_partial", "FreeGS.Records.C117_wrong_class", "FreeGS.Records.C117_multi_size", "FreeGS.Records.C117_multi_record", "FreeGS.Records.C117_multi_fails", "FreeGS.Records.C117_filament_fails", "FreeGS.Records.C117_precalc_fails"], "note": "False of three classes: no filament coil has a record, no record of a multi-coil can be read (field npoints is not in its dtype), the record of a pre-calculated coil comes back as a point coil with shuffled attributes. Proved for point coils (but for the area) and for unmoved shaped coils with whole turns and at most ten outline points."},
 {"property": "C118", "status": "partial", "theorems": ["FreeGS.Tracer.C118_starts", "FreeGS.Tracer.C118_lines", "FreeGS.Tracer.C118_scalar_fails", "FreeGS.Tracer.C118_table_fails", "FreeGS.Tracer.C118_trace_partial", "FreeGS.Tracer.C118_no_edge_fails", "FreeGS.Tracer.C118_errors"], "note": "Proved for one-dimensional arrays of starts: no mixing for exact integrators, shape and first row for all that return the start first, and where traceFieldLines starts when the edge is met on the search line. False for starts given as numbers (IndexError) or tables (IndexError or RuntimeError), and when the normalised flux stays below one on the outboard side: then lines silently start beside the axis."},
 {"property": "C119", "status": "partial", "theorems": ["FreeGS.C119_greens", "FreeGS.C119_machine", "FreeGS.C119_machine_flux", "FreeGS.Control.C119_control_problem", "FreeGS.Control.C119_control_partial", "FreeGS.Control.C119_control_fails", "FreeGS.GS.C119_matrix", "FreeGS.GS.C119_solver", "FreeGS.GS.C119_free_boundary", "FreeGS.GS.C119_hagenow_integral", "FreeGS.GS.C119_hagenow_fails", "FreeGS.Equil.C119_find", "FreeGS.Equil.C119_find_fails", "FreeGS.Equil.C119_core_mask", "FreeGS.Equil.C119_profiles", "FreeGS.Equil.C119_pressure", "FreeGS.Equil.C119_solve", "FreeGS.Equil.C119_picard", "FreeGS.Equil.C119_equilibrium_partial"], "note": "Machine, Green's functions, operator, free boundary, integrals of von Hagenow's method, search with relative tolerances, core mask, profiles, profile functions, control of fluxes, linear solve and Picard iteration are proved one by one for every l > 0; C119_equilibrium_partial joins them into a whole calculation with the code's own tolerances, as long as the calculation meets no flux where these matter. False in the code: von Hagenow's 1 cm displacement (C119_hagenow_fails), the fixed 1 mT of find_critical (C119_find_fails), X-points together with flux values in the control system (C119_control_fails). Missing: multigrid and Jacobi solver, tables of fields."},
 {"property": "C120", "status": "partial", "theorems": ["FreeGS.Store.C120_solve", "FreeGS.Store.C120_picard", "FreeGS.Store.C120_create", "FreeGS.Store.C120_history", "FreeGS.Store.C120_values", "FreeGS.Store.C120_picard_values", "FreeGS.Store.C120_profiles", "FreeGS.Store.C120_given_psi_fails", "FreeGS.Store.C120_shared_psi_fails", "FreeGS.Store.C120_shared_machine_fails", "FreeGS.Store.C120_given_jtor_fails", "FreeGS.Store.C120_hagenow_fails"], "note": "Proved for solve, Picard iteration, creation and histories of calls, with exceptions, and the values refined to C70/C38. Refuted for what is shared: an array given as psi to Equilibrium or as Jtor to solve is kept and not copied, two equilibria with one array or one machine influence each other, and von Hagenow's boundary with the multigrid solver shares memory with the flux."},
 {"property": "C121", "status": "partial", "theorems": ["FreeGS.Store.C121_solve", "FreeGS.Store.C121_sound", "FreeGS.Store.C121_picard_sound", "FreeGS.Store.C121_retry", "FreeGS.Store.C121_profiles", "FreeGS.Store.C121_maxits", "FreeGS.Store.C121_solve_fails", "FreeGS.Store.C121_hagenow_fails", "FreeGS.Store.C121_maxits_fails"], "note": "Proved for every point of exception with the boundary functions of the code. Refuted: after an exception in the search for axis and boundary of the new flux, current and current density are the old ones; with a control, the boundary flux at the limit of passes is not that of the coils; von Hagenow's boundary with the multigrid solver leaves a flux without its interpolation."},
 {"property": "C122", "status": "partial", "theorems": ["FreeGS.MG.C122_converges_partial", "FreeGS.MG.C122_any_accuracy_partial", "FreeGS.MG.C122_no_steps_fails", "FreeGS.MG.C122_growth_fails"], "note": "Proved for enough Jacobi steps per level: for every grid, number of levels and q > 0 there is a number of steps from which on each cycle multiplies the largest error by at most q, so that more cycles reach any accuracy. For few steps the claim is false of the code, because restrict passes on every second residual instead of a mean: with no steps a guess can be returned unchanged for ever (C122_no_steps_fails), and for every number of steps there are grids on which one cycle increases the error by any factor (C122_growth_fails)."},
 {"property": "C123", "status": "proved", "theorems": ["FreeGS.C123_flux_falls", "FreeGS.C123_field_direction", "FreeGS.C123_machine_flux", "FreeGS.C123_highest", "FreeGS.C123_lowest", "FreeGS.C123_two_coils"], "note": "Exact elliptic integrals; clipping and difference step included."},
 {"property": "C124", "status": "partial", "theorems": ["FreeGS.C124_outward_partial", "FreeGS.C124_no_current_fails"], "note": "Missing: coils without current and with the default area, for which the force is nan (C124_no_current_fails), and coils wider than their major radius."},
 {"property": "C125", "status": "partial", "theorems": ["FreeGS.GS.C125_fixed_partial", "FreeGS.GS.C125_free_partial", "FreeGS.GS.C125_default_fails"], "note": "Proved for the second-order matrix, with strict inequality for the free edge. False for the default fourth-order matrix: C125_default_fails gives a positive current density with a negative flux next to a corner (fixed edge). Not settled: whether the free edge can be negative too with the default order."},
 {"property": "C126", "status": "proved", "theorems": ["FreeGS.Control.C126_stable", "FreeGS.Control.C126_flux_values", "FreeGS.Control.C126_plasma"], "note": "The optimiser is a parameter; the hypothesis is that it returns a minimiser of the problem it is given (feasible and no worse than every feasible change)."},
 {"property": "C127", "status": "proved", "theorems": ["FreeGS.Control.C127_monotone", "FreeGS.Control.C127_best", "FreeGS.Control.C127_met", "FreeGS.Control.C127_at_rest"], "note": "The plasma stays as it is between the calls; the optimiser is a parameter assumed to return a minimiser of each problem it is given."},
 {"property": "C128", "status": "proved", "theorems": ["FreeGS.Control.C128_exactly_one", "FreeGS.Control.C128_call"], "note": "Over the real numbers. The optimiser is a parameter assumed to return a minimiser whenever there is one."},
 {"property": "C129", "status": "proved", "theorems": ["FreeGS.C129_work", "FreeGS.C129_gradient", "FreeGS.C129_circuit"], "note": "Plain coils, listed directly or in a circuit; for the latter C129_circuit gives the exact additional term of the radial force (C20). Other kinds of coil take the field at their middle only."},
 {"property": "C130", "status": "proved", "theorems": ["FreeGS.Control.C130_tradeoff", "FreeGS.Control.C130_small", "FreeGS.Control.C130_smallest_change"], "note": "For every optimiser that returns a minimiser (existence and uniqueness: C128); without limits the Tikhonov start values are one (C23)."},
 {"property": "C131", "status": "proved", "theorems": ["FreeGS.GS.C131_reciprocity", "FreeGS.GS.C131_two_points"], "note": "Second-order matrix, fixed edge."},
 {"property": "C132", "status": "proved", "theorems": ["FreeGS.Control.C132_requests", "FreeGS.Control.C132_already_met", "FreeGS.Control.C132_limits", "FreeGS.Control.C132_coils"], "note": "The optimiser is assumed to solve its problem (Minimises); C132_coils without limits of the currents, since max_total_current only counts the controlled coils."},
 {"property": "C133", "status": "proved", "theorems": ["FreeGS.GS.C133_least_energy", "FreeGS.GS.C133_edge_zero"], "note": "For the second-order operator and exact solution of the linear system. The weights of the sums are 1/R up to (dR/R)^2/4. The default fourth-order matrix is not covered."},
 {"property": "C134", "status": "proved", "theorems": ["FreeGS.C134_vertical_field", "FreeGS.C134_flux", "FreeGS.C134_no_null", "FreeGS.C134_nulls_between", "FreeGS.C134_innermost"], "note": "Exact elliptic integrals, real numbers; the points of the differences are not clipped. Machines without pre-calculated coils for the force."},
 {"property": "C135", "status": "proved", "theorems": ["FreeGS.Control.C135_coils", "FreeGS.Control.C135_limits"], "note": "For the exact optimum (hypotheses hopt, hopt'), array weights; the optimisers themselves are parameters. Solenoids and circuits are covered. Beside the theorems: two fits of each kind that succeed."},
 {"property": "C136", "status": "partial", "theorems": ["FreeGS.Equil.C136_same_run", "FreeGS.Equil.C136_reversed_given", "FreeGS.Equil.C136_reversed_partial", "FreeGS.Equil.C136_reversed_fails", "FreeGS.Equil.C136_profiles", "FreeGS.Equil.C136_negative_fails"], "note": "Independence of the run, pressure and square of fpol proved in full, the reversed field for a given f_func and outside the core. In the core the direction is not followed, because fpol is the positive root: C136_reversed_fails, C136_negative_fails."},
 {"property": "C137", "status": "proved", "theorems": ["FreeGS.Control.C137_control", "FreeGS.Control.C137_idle", "FreeGS.Control.C137_replaced", "FreeGS.Control.C137_solenoid", "FreeGS.Equil.C137_run"], "note": "The flux of the coils on the grid is taken as psi of the machine (the table of Green's functions is up to date); both machines have the same wall. The optimiser of coil control is any function of the problem."},
 {"property": "C138", "status": "partial", "theorems": ["FreeGS.Control.C138_request", "FreeGS.Control.C138_which", "FreeGS.Control.C138_front_partial", "FreeGS.Control.C138_order_fails"], "note": "Proved for constrain, and for the flux fits if no coil without control comes before a controlled one; C138_which says which pair is used in general. Refuted otherwise for every optimiser that stays within its bounds (C138_order_fails)."}
]}
