# Axioms of the theorems in MANIFEST.json

Output of `#print axioms`, grouped. Regenerated with every milestone.

## none (9)

`Dream.C15_fails_symbol_lookup`, `Dream.C43_fails_apply`, `Dream.C43_init`, `Dream.C43_read_back`, `Dream.C46_fails_empty`, `Dream.C52_fails_file_left_open`, `Dream.C52_fails_two_configurations`, `Dream.C52_fails_unopenable`, `Dream.C71_empty`

## propext (19)

`Dream.C108_nothing_drawn`, `Dream.C12_fails_stationary`, `Dream.C19_fails_derived`, `Dream.C19_history_partial`, `Dream.C19_select`, `Dream.C20_assign`, `Dream.C20_copied`, `Dream.C20_fails_unchecked`, `Dream.C20_identity`, `Dream.C38_fails_offered`, `Dream.C38_fails_psponge`, `Dream.C43_current_partial`, `Dream.C43_fails_dim`, `Dream.C43_fails_none`, `Dream.C46_pattern_of_parts`, `Dream.C60_fails_missing`, `Dream.C65_stationary_cbc`, `Dream.Mapping.C74_fails_get`, `Dream.Ptr.C18_fails_sensor`

## propext, Quot.sound (52)

`Dream.C03_not_a_number`, `Dream.C05_ie_forms_agree`, `Dream.C09_fails_close`, `Dream.C09_pseudo_partial`, `Dream.C09_stationary_partial`, `Dream.C108_replay`, `Dream.C119_documentation`, `Dream.C13_absolute`, `Dream.C13_fails_never_ends`, `Dream.C15_iteration`, `Dream.C15_last_assigned`, `Dream.C15_other_entries`, `Dream.C17_fails_order`, `Dream.C19_define`, `Dream.C19_derived`, `Dream.C19_fails_inherited_alias`, `Dream.C19_listed`, `Dream.C19_new_objects`, `Dream.C19_stable`, `Dream.C20_reset`, `Dream.C36_by_name`, `Dream.C36_clear`, `Dream.C36_init`, `Dream.C36_named`, `Dream.C36_partition`, `Dream.C36_queries`, `Dream.C37_collisions`, `Dream.C37_fails_same_regions`, `Dream.C38_all_added`, `Dream.C38_boundary`, `Dream.C38_domain_partial`, `Dream.C38_fails_initial_and_sponge`, `Dream.C47_reported`, `Dream.C51_fails_same_name`, `Dream.C60_fails_boundary_default`, `Dream.C60_sequence`, `Dream.C71_trial_test`, `Dream.C71_values`, `Dream.C72_fails_lowest_first`, `Dream.C72_refused`, `Dream.C72_space_refused`, `Dream.C92_sensors`, `Dream.C92_vtk`, `Dream.Mapping.C74_clear`, `Dream.Mapping.C74_deleted`, `Dream.Mapping.C74_keys`, `Dream.Mapping.C74_order`, `Dream.Mapping.C74_others`, `Dream.Mapping.C74_pop_partial`, `Dream.Mapping.C74_read`, `Dream.Mapping.C74_reassign`, `Dream.Mapping.C74_undeclared`

## propext, Classical.choice, Quot.sound (662)

`Dream.C01_history`, `Dream.C01_timer_hits_end`, `Dream.C01_timer_visits_interval`, `Dream.C01_timer_zero_step`, `Dream.C02_configured_partial`, `Dream.C02_digit_counts_decimals`, `Dream.C02_exact_labels_nodup_partial`, `Dream.C02_fails_labels_collide`, `Dream.C02_labels_distinct_partial`, `Dream.C02_labels_exact_partial`, `Dream.C03_fails_nan`, `Dream.C03_fails_rounding`, `Dream.C03_history_partial`, `Dream.C03_init`, `Dream.C03_interval`, `Dream.C03_mach`, `Dream.C03_positive`, `Dream.C03_rate`, `Dream.C03_rate_refused`, `Dream.C03_rejected`, `Dream.C04_bdf2`, `Dream.C04_levels_hold_recent_solutions`, `Dream.C05_bdf2_exact_quadratic`, `Dream.C05_bdf2_first_step`, `Dream.C05_bdf2_forms_agree`, `Dream.C05_consistent`, `Dream.C05_ie_exact_affine`, `Dream.C05_sharp`, `Dream.C06_flags`, `Dream.C06_newton_affine_converges`, `Dream.C06_newton_affine_geometric`, `Dream.C06_solve_outcome`, `Dream.C07_fractional_factor`, `Dream.C07_pseudo_step_closed_form`, `Dream.C07_pseudo_step_monotone_bounded`, `Dream.C08_gridfunction`, `Dream.C08_interrupted`, `Dream.C08_pseudo`, `Dream.C08_schedule`, `Dream.C08_sensor`, `Dream.C08_vtk`, `Dream.C09_fails_open`, `Dream.C09_transient_partial`, `Dream.C100_pseudo`, `Dream.C100_pseudo_solvers`, `Dream.C100_triangulation`, `Dream.C101_completed`, `Dream.C101_files`, `Dream.C101_resume`, `Dream.C101_too_early`, `Dream.C102_fails_single`, `Dream.C102_pseudo_partial`, `Dream.C102_states`, `Dream.C102_transient_partial`, `Dream.C103_labels`, `Dream.C103_states`, `Dream.C104_complete_partial`, `Dream.C104_fails_default`, `Dream.C104_fails_rate`, `Dream.C104_fails_resumed`, `Dream.C104_rate_one`, `Dream.C104_split`, `Dream.C104_true`, `Dream.C104_whole`, `Dream.C105_compressive`, `Dream.C105_determined`, `Dream.C105_exists`, `Dream.C105_facet`, `Dream.C105_fails_lax_friedrich`, `Dream.C105_fails_roe`, `Dream.C105_inflow`, `Dream.C105_run`, `Dream.C105_step`, `Dream.C106_carried`, `Dream.C106_circulation`, `Dream.C106_pressure`, `Dream.C106_strength`, `Dream.C107_bernoulli`, `Dream.C107_far`, `Dream.C107_from_far`, `Dream.C107_low_mach`, `Dream.C107_potential`, `Dream.C107_streamline`, `Dream.C107_surface`, `Dream.C108_abandoned`, `Dream.C108_each_field`, `Dream.C108_interrupted`, `Dream.C108_pseudo`, `Dream.C108_transient`, `Dream.C109_after_run`, `Dream.C109_fails_stale`, `Dream.C109_follow_partial`, `Dream.C10_every_rate`, `Dream.C10_fails_stride`, `Dream.C10_rate_one_partial`, `Dream.C10_replay_iff`, `Dream.C10_subsample`, `Dream.C110_fails_bdf2`, `Dream.C110_fields`, `Dream.C110_run`, `Dream.C110_step`, `Dream.C110_triangulation`, `Dream.C111_digits_partial`, `Dream.C111_double`, `Dream.C111_fails_above_one`, `Dream.C111_increasing_partial`, `Dream.C111_labels_partial`, `Dream.C111_refines_partial`, `Dream.C112_exists`, `Dream.C112_leaves`, `Dream.C112_oblique`, `Dream.C112_outflow`, `Dream.C112_pressure_outlet`, `Dream.C112_supersonic`, `Dream.C112_trace`, `Dream.C112_wall`, `Dream.C113_exists`, `Dream.C113_grcbc`, `Dream.C113_leaves`, `Dream.C113_outlet`, `Dream.C113_rate`, `Dream.C113_relaxes`, `Dream.C113_step`, `Dream.C114_balance`, `Dream.C114_exact_iff`, `Dream.C114_exists`, `Dream.C114_fails_through`, `Dream.C114_sensor_partial`, `Dream.C114_steady_partial`, `Dream.C114_viscous`, `Dream.C114_wall`, `Dream.C114_written`, `Dream.C115_no_lift`, `Dream.C115_pseudo`, `Dream.C115_symmetric`, `Dream.C115_viscous`, `Dream.C115_viscous_no_lift`, `Dream.C115_viscous_pseudo`, `Dream.C116_round`, `Dream.C116_share`, `Dream.C116_spot`, `Dream.C116_state`, `Dream.C117_accepted`, `Dream.C117_frozen`, `Dream.C117_history`, `Dream.C117_unchecked`, `Dream.C118_damped`, `Dream.C118_factors`, `Dream.C118_undamped`, `Dream.C119_breaks`, `Dream.C119_read`, `Dream.C119_text`, `Dream.C11_data`, `Dream.C11_fails_nine`, `Dream.C11_fails_stationary`, `Dream.C11_header_partial`, `Dream.C11_inconsistent_refused`, `Dream.C11_kinds`, `Dream.C11_no_fields`, `Dream.C11_rectangular_partial`, `Dream.C12_fails_single`, `Dream.C12_fails_stationary_vtk`, `Dream.C12_pseudo_partial`, `Dream.C12_transient_partial`, `Dream.C13_effect`, `Dream.C13_ends_iff`, `Dream.C13_fails_reachable`, `Dream.C13_fails_same_place`, `Dream.C13_relative_partial`, `Dream.C14_opened`, `Dream.C14_switchboard`, `Dream.C16_export_stable`, `Dream.C16_fails_log`, `Dream.C16_fails_stream`, `Dream.C16_restore_partial`, `Dream.C17_below_value`, `Dream.C17_effect`, `Dream.C17_frame`, `Dream.C17_nested_dict`, `Dream.C17_order`, `Dream.C17_sequential`, `Dream.C17_unknown`, `Dream.C19_fails_unnamed`, `Dream.C19_lower_case`, `Dream.C19_package`, `Dream.C19_upper`, `Dream.C20_history`, `Dream.C21_density`, `Dream.C21_energy`, `Dream.C21_enthalpy`, `Dream.C21_fails_speed_of_sound`, `Dream.C21_inner_energy`, `Dream.C21_kinetic_energy`, `Dream.C21_local_mach_number_partial`, `Dream.C21_momentum`, `Dream.C21_pressure`, `Dream.C21_specific_energy`, `Dream.C21_specific_enthalpy`, `Dream.C21_specific_inner_energy`, `Dream.C21_specific_kinetic_energy`, `Dream.C21_speed_of_sound_partial`, `Dream.C21_temperature`, `Dream.C21_velocity`, `Dream.C22_density`, `Dream.C22_energy`, `Dream.C22_enthalpy`, `Dream.C22_fails_specific_enthalpy`, `Dream.C22_inner_energy`, `Dream.C22_kinetic_energy`, `Dream.C22_momentum`, `Dream.C22_pressure`, `Dream.C22_specific_energy`, `Dream.C22_specific_enthalpy_partial`, `Dream.C22_specific_inner_energy`, `Dream.C22_specific_kinetic_energy`, `Dream.C22_speed_of_sound`, `Dream.C22_temperature`, `Dream.C22_velocity`, `Dream.C23_density_gradient`, `Dream.C23_energy_gradient`, `Dream.C23_enthalpy_gradient`, `Dream.C23_inner_energy_gradient`, `Dream.C23_kinetic_energy_gradient`, `Dream.C23_momentum_gradient`, `Dream.C23_pressure_gradient`, `Dream.C23_specific_energy_gradient`, `Dream.C23_specific_inner_energy_gradient`, `Dream.C23_specific_kinetic_energy_gradient`, `Dream.C23_temperature_gradient`, `Dream.C23_velocity_gradient`, `Dream.C24_admissible`, `Dream.C24_fields`, `Dream.C24_gradient_fields`, `Dream.C24_initial_round_trip`, `Dream.C24_round_trip`, `Dream.C25_characteristic_conservative`, `Dream.C25_characteristic_primitive`, `Dream.C25_other_dimensions`, `Dream.C25_primitive_conservative`, `Dream.C26_conservative_diagonalised`, `Dream.C26_flux`, `Dream.C26_flux_conservative`, `Dream.C26_jacobian_is_derivative`, `Dream.C26_primitive_diagonalised`, `Dream.C26_primitive_to_conservative`, `Dream.C27_conservative`, `Dream.C27_identities`, `Dream.C27_identity_refuses`, `Dream.C27_primitive`, `Dream.C28_consistent`, `Dream.C28_dissipative`, `Dream.C28_flip_invariant`, `Dream.C28_flux`, `Dream.C28_hllem_le_hll`, `Dream.C28_lax_friedrich_conservative`, `Dream.C28_lax_friedrich_hll`, `Dream.C28_upwind_flip`, `Dream.C28_upwind_roe`, `Dream.C29_direction_only`, `Dream.C29_documented`, `Dream.C29_fails_aeroacoustic_docstring`, `Dream.C29_farfield`, `Dream.C29_inviscid`, `Dream.C29_refuses`, `Dream.C29_reynolds`, `Dream.C30_normalised`, `Dream.C30_other_laws`, `Dream.C30_positive_increasing`, `Dream.C30_scaling_independent`, `Dream.C30_sutherland`, `Dream.C31_dissipation`, `Dream.C31_flux`, `Dream.C31_flux_of_strain`, `Dream.C31_heat`, `Dream.C31_strain`, `Dream.C31_stress`, `Dream.C31_stress_of_strain`, `Dream.C32_conservative_partial`, `Dream.C32_fails_sutherland`, `Dream.C32_flux`, `Dream.C32_mixed`, `Dream.C33_cbc_partial`, `Dream.C33_cbc_target`, `Dream.C33_fails_adiabatic`, `Dream.C33_fails_farfield_identity`, `Dream.C33_fails_temperature_inflow`, `Dream.C33_farfield_identity_partial`, `Dream.C33_farfield_jacobian`, `Dream.C33_inviscid_wall`, `Dream.C33_isothermal_wall`, `Dream.C33_outflow`, `Dream.C33_sponge`, `Dream.C34_agrees`, `Dream.C34_answers`, `Dream.C34_entropy`, `Dream.C35_amplitudes`, `Dream.C35_amplitudes_flux`, `Dream.C35_normal_derivative`, `Dream.C35_variables`, `Dream.C36_fails_duplicate`, `Dream.C36_histories`, `Dream.C36_history_partial`, `Dream.C37_grouping_partial`, `Dream.C39_accepts`, `Dream.C39_invariant`, `Dream.C39_order_matters`, `Dream.C40_layers`, `Dream.C40_one_target`, `Dream.C40_pairs`, `Dream.C41_constant`, `Dream.C41_coordinate`, `Dream.C41_monotone_coordinate`, `Dream.C41_penta_smooth`, `Dream.C41_radial`, `Dream.C41_short_centre`, `Dream.C41_sponge`, `Dream.C42_exponential`, `Dream.C42_exponential_converges`, `Dream.C42_fails_polar_length`, `Dream.C42_linear`, `Dream.C42_polar`, `Dream.C42_tangential`, `Dream.C42_tangential_converges`, `Dream.C42_thickness`, `Dream.C44_boundary`, `Dream.C44_circles`, `Dream.C44_conforming`, `Dream.C44_fails_inverted`, `Dream.C44_halves`, `Dream.C44_orientation`, `Dream.C44_refused`, `Dream.C44_size`, `Dream.C45_abs_max_min`, `Dream.C45_as_matrix`, `Dream.C45_diagonal`, `Dream.C45_diagonal_matrix`, `Dream.C45_interval`, `Dream.C45_skew`, `Dream.C45_symmetric`, `Dream.C45_trace`, `Dream.C45_unit_vector`, `Dream.C46_regions`, `Dream.C46_round_trip`, `Dream.C47_delivered_partial`, `Dream.C47_fails_off_by_name`, `Dream.C48_fails_list2d`, `Dream.C48_fails_named`, `Dream.C48_list`, `Dream.C48_named_partial`, `Dream.C48_nscbc`, `Dream.C48_refuses`, `Dream.C48_scalar`, `Dream.C49_consistent_iff`, `Dream.C49_defaults`, `Dream.C49_fails_default_consistent`, `Dream.C49_farfield_partial`, `Dream.C49_scaling`, `Dream.C50_contraction`, `Dream.C50_iterate`, `Dream.C51_own_files_partial`, `Dream.C51_own_rows_partial`, `Dream.C52_one_handler`, `Dream.C52_single_configuration_partial`, `Dream.C53_histories`, `Dream.C53_initialize`, `Dream.C53_strain_heat_size`, `Dream.C54_fails_sign`, `Dream.C54_force_partial`, `Dream.C54_pressure_coefficient`, `Dream.C54_pressure_coefficient_answers`, `Dream.C55_check`, `Dream.C55_fails_gradient`, `Dream.C55_strain_heat_partial`, `Dream.C56_consistent`, `Dream.C56_damping`, `Dream.C56_dissipative`, `Dream.C57_element`, `Dream.C57_heat`, `Dream.C57_heat_element`, `Dream.C57_strain`, `Dream.C57_strain_element`, `Dream.C57_unique`, `Dream.C58_fails_inflow`, `Dream.C58_fails_outflow`, `Dream.C58_terms_partial`, `Dream.C58_uniform_partial`, `Dream.C59_final_levels_lost`, `Dream.C59_time_levels`, `Dream.C60_all`, `Dream.C60_covered_partial`, `Dream.C60_pattern`, `Dream.C60_reopen`, `Dream.C61_all_labels_yielded`, `Dream.C61_linear_exact`, `Dream.C61_steady_kept`, `Dream.C61_steady_necessary`, `Dream.C61_textbook_recursion`, `Dream.C61_timer_error`, `Dream.C62_converged_is_steady_partial`, `Dream.C62_fails_bdf2`, `Dream.C62_steady_residual_partial`, `Dream.C62_steady_state_kept`, `Dream.C63_bdf2_stable`, `Dream.C63_ie_contractive`, `Dream.C63_runs_stable`, `Dream.C64_error`, `Dream.C64_fails_error`, `Dream.C64_increment`, `Dream.C64_same_increment_partial`, `Dream.C65_condition_once_partial`, `Dream.C65_fails_names`, `Dream.C65_terms`, `Dream.C65_terms_partial`, `Dream.C66_balance`, `Dream.C66_closed`, `Dream.C66_container`, `Dream.C66_run`, `Dream.C67_fails_upwind`, `Dream.C67_wall_partial`, `Dream.C68_mask`, `Dream.C69_gradients`, `Dream.C69_missing`, `Dream.C69_pseudo`, `Dream.C69_run`, `Dream.C69_transient`, `Dream.C69_transient_viscous`, `Dream.C69_uniform`, `Dream.C69_viscous`, `Dream.C70_facet`, `Dream.C70_fails_overlap`, `Dream.C70_states_partial`, `Dream.C70_unset`, `Dream.C71_flow`, `Dream.C72_elements`, `Dream.C72_facets_partial`, `Dream.C73_best`, `Dream.C73_layers`, `Dream.C73_space`, `Dream.C75_accepted`, `Dream.C75_boundary_layer`, `Dream.C75_fails_sizes`, `Dream.C75_fails_unchecked`, `Dream.C75_nested`, `Dream.C75_outer`, `Dream.C75_sizes_partial`, `Dream.C75_wake`, `Dream.C76_cbc_partial`, `Dream.C76_convective`, `Dream.C76_diffusive`, `Dream.C76_euler`, `Dream.C76_fails_cbc_viscous`, `Dream.C76_farfield`, `Dream.C76_forces`, `Dream.C76_freestream`, `Dream.C76_isothermal`, `Dream.C76_mixed`, `Dream.C76_navier_stokes`, `Dream.C76_numerical`, `Dream.C76_outflow`, `Dream.C76_sponge`, `Dream.C76_step`, `Dream.C76_wall`, `Dream.C77_cbc`, `Dream.C77_cbc_viscous`, `Dream.C77_coefficients`, `Dream.C77_convective`, `Dream.C77_diffusive`, `Dream.C77_dimensionful_partial`, `Dream.C77_euler`, `Dream.C77_fails_dimensionful`, `Dream.C77_farfield`, `Dream.C77_freestream`, `Dream.C77_isothermal`, `Dream.C77_mach`, `Dream.C77_mixed`, `Dream.C77_navier_stokes`, `Dream.C77_numerical`, `Dream.C77_outflow`, `Dream.C77_relaxation`, `Dream.C77_sponge`, `Dream.C77_step`, `Dream.C77_units`, `Dream.C77_viscosity`, `Dream.C77_wall`, `Dream.C78_defaults`, `Dream.C78_documents`, `Dream.C78_fails`, `Dream.C78_fails_prefix`, `Dream.C78_fails_same_name`, `Dream.C78_fails_underscore`, `Dream.C78_gridfunction`, `Dream.C78_levels`, `Dream.C78_mesh_partial`, `Dream.C78_names`, `Dream.C78_replay`, `Dream.C78_separate_folders`, `Dream.C78_settings_partial`, `Dream.C78_states`, `Dream.C79_contact`, `Dream.C79_fails_rest`, `Dream.C79_fails_shear`, `Dream.C79_fails_smear`, `Dream.C79_lax_friedrich`, `Dream.C79_rest`, `Dream.C79_rest_run`, `Dream.C79_stationary`, `Dream.C79_transport`, `Dream.C80_couette`, `Dream.C80_density_wave`, `Dream.C80_euler`, `Dream.C80_limit`, `Dream.C80_mixed`, `Dream.C80_navier_stokes`, `Dream.C80_parallel_flow`, `Dream.C80_polynomial`, `Dream.C80_rotating_flow`, `Dream.C80_steady`, `Dream.C80_steady_viscous`, `Dream.C81_fails_overwrite`, `Dream.C81_fails_state_only`, `Dream.C81_fails_step_change`, `Dream.C81_first_file`, `Dream.C81_last_file`, `Dream.C81_other_files_partial`, `Dream.C81_restart`, `Dream.C81_restart_levels`, `Dream.C81_split`, `Dream.C81_state_only`, `Dream.C82_assembly_waits`, `Dream.C82_fails_new_timer`, `Dream.C82_fails_reinitialize`, `Dream.C82_in_force_partial`, `Dream.C82_needs_initialize`, `Dream.C82_new_method_refused`, `Dream.C82_new_scheme_refused`, `Dream.C82_new_solver_refused`, `Dream.C82_options_wait`, `Dream.C82_refines_partial`, `Dream.C83_container`, `Dream.C83_embedding`, `Dream.C83_extrusion`, `Dream.C83_numerical_flux`, `Dream.C83_plane`, `Dream.C83_refused`, `Dream.C83_signal_speeds`, `Dream.C83_supported`, `Dream.C83_uniform`, `Dream.C83_viscous_refused`, `Dream.C83_wall`, `Dream.C84_components`, `Dream.C84_constants`, `Dream.C84_container`, `Dream.C84_defect`, `Dream.C84_gauss`, `Dream.C84_gauss_mixed`, `Dream.C84_missing`, `Dream.C84_mixed_exact`, `Dream.C84_mixed_solvable`, `Dream.C84_moved`, `Dream.C84_moved_mesh`, `Dream.C84_moved_space`, `Dream.C84_rest`, `Dream.C84_rotating`, `Dream.C84_side_rules`, `Dream.C84_steady`, `Dream.C84_total`, `Dream.C84_uniform`, `Dream.C84_uniform_viscous`, `Dream.C84_units`, `Dream.C84_volume_rules`, `Dream.C85_fails_initial`, `Dream.C85_fails_pseudo`, `Dream.C85_fails_pseudo_step`, `Dream.C85_fails_rerun_label`, `Dream.C85_fails_start_label`, `Dream.C85_repeat_partial`, `Dream.C86_conserved`, `Dream.C86_drift`, `Dream.C86_pseudo`, `Dream.C86_triangulation`, `Dream.C86_viscous`, `Dream.C87_bdf2_order_one_partial`, `Dream.C87_bdf2_started_partial`, `Dream.C87_fails_bdf2_order_two`, `Dream.C87_implicit_euler`, `Dream.C87_inexact_bdf2`, `Dream.C87_inexact_converges`, `Dream.C87_inexact_euler`, `Dream.C87_runs_converge_partial`, `Dream.C87_runs_partial`, `Dream.C88_appended_partial`, `Dream.C88_fails_shift`, `Dream.C88_fails_stationary`, `Dream.C88_read_back_partial`, `Dream.C89_container`, `Dream.C89_fails_bdf2`, `Dream.C89_run`, `Dream.C89_step`, `Dream.C89_triangulation`, `Dream.C90_linear`, `Dream.C90_other_dampings`, `Dream.C90_overrelaxed`, `Dream.C90_quadratic`, `Dream.C90_reported`, `Dream.C90_small_steps`, `Dream.C91_amplitudes`, `Dream.C91_directional`, `Dream.C91_identities`, `Dream.C91_jacobians`, `Dream.C91_transformations`, `Dream.C91_variables`, `Dream.C91_velocities`, `Dream.C92_vtk_run`, `Dream.C93_fails_upwind`, `Dream.C93_fails_upwind_instance`, `Dream.C93_fails_viscous`, `Dream.C93_fails_viscous_instance`, `Dream.C93_fluxes`, `Dream.C93_restrict_partial`, `Dream.C93_run_partial`, `Dream.C93_step_partial`, `Dream.C93_traction`, `Dream.C93_triangulation_partial`, `Dream.C93_triangulation_restrict_partial`, `Dream.C94_rules`, `Dream.C94_runs`, `Dream.C94_step`, `Dream.C94_triangulation`, `Dream.C95_matrix`, `Dream.C95_runs`, `Dream.C95_transient`, `Dream.C95_triangulation`, `Dream.C96_converges`, `Dream.C96_triangulation`, `Dream.C97_converges`, `Dream.C97_facets`, `Dream.C97_fails_facets`, `Dream.C97_fails_newton`, `Dream.C97_fails_newton_triangulation`, `Dream.C97_fails_triangulation`, `Dream.C97_matrix`, `Dream.C97_newton_runs`, `Dream.C97_newton_transient`, `Dream.C97_newton_triangulation`, `Dream.C97_runs`, `Dream.C97_triangulation`, `Dream.C98_casts`, `Dream.C98_fails_shapes`, `Dream.C98_idempotent`, `Dream.C98_outer`, `Dream.C98_shapes_partial`, `Dream.C98_tests`, `Dream.C98_zero`, `Dream.C99_long_runs`, `Dream.C99_long_runs_solvers`, `Dream.C99_returns`, `Dream.C99_returns_solvers`, `Dream.C99_triangulation_long`, `Dream.C99_triangulation_returns`, `Dream.Ptr.C18_fails_shared`, `Dream.Ptr.C18_history_partial`, `Dream.Ptr.C18_sensors`
