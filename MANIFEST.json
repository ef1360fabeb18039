{
 "claims": [
  {
   "property": "C01",
   "status": "proved",
   "theorems": [
    "Dream.C01_timer_visits_interval",
    "Dream.C01_timer_hits_end",
    "Dream.C01_timer_zero_step",
    "Dream.C01_history"
   ],
   "note": "Rational arithmetic here, floating point in C111; the step count uses round-half-even as Python does. A zero step raises ZeroDivisionError."
  },
  {
   "property": "C02",
   "status": "partial",
   "theorems": [
    "Dream.C02_labels_exact_partial",
    "Dream.C02_labels_distinct_partial",
    "Dream.C02_exact_labels_nodup_partial",
    "Dream.C02_digit_counts_decimals",
    "Dream.C02_fails_labels_collide",
    "Dream.C02_configured_partial"
   ],
   "note": "The property holds only if the start time is also a multiple of 10^-digit; C02_fails_labels_collide is a concrete collision otherwise."
  },
  {
   "property": "C03",
   "status": "partial",
   "theorems": [
    "Dream.C03_mach",
    "Dream.C03_positive",
    "Dream.C03_interval",
    "Dream.C03_rate",
    "Dream.C03_rate_refused",
    "Dream.C03_not_a_number",
    "Dream.C03_rejected",
    "Dream.C03_history_partial",
    "Dream.C03_init",
    "Dream.C03_fails_nan",
    "Dream.C03_fails_rounding"
   ],
   "note": "All histories of values other than nan whose finite numbers are floats; nan passes every check (C03_fails_nan) and exact numbers are checked before they are rounded (C03_fails_rounding)."
  },
  {
   "property": "C04",
   "status": "proved",
   "theorems": [
    "Dream.C04_levels_hold_recent_solutions",
    "Dream.C04_bdf2"
   ],
   "note": "Any number of time levels and variables, any number of steps."
  },
  {
   "property": "C05",
   "status": "proved",
   "theorems": [
    "Dream.C05_ie_forms_agree",
    "Dream.C05_bdf2_forms_agree",
    "Dream.C05_ie_exact_affine",
    "Dream.C05_bdf2_exact_quadratic",
    "Dream.C05_sharp",
    "Dream.C05_consistent",
    "Dream.C05_bdf2_first_step"
   ],
   "note": "Both schemes; also shows that the first BDF2 step after constant start-up is an implicit Euler step of 2/3 dt."
  },
  {
   "property": "C06",
   "status": "proved",
   "theorems": [
    "Dream.C06_solve_outcome",
    "Dream.C06_flags",
    "Dream.C06_newton_affine_geometric",
    "Dream.C06_newton_affine_converges"
   ],
   "note": "For an arbitrary linear-solve oracle, including NaN errors."
  },
  {
   "property": "C07",
   "status": "proved",
   "theorems": [
    "Dream.C07_pseudo_step_closed_form",
    "Dream.C07_pseudo_step_monotone_bounded",
    "Dream.C07_fractional_factor"
   ],
   "note": "Closed form and monotonicity over any number of iterations."
  },
  {
   "property": "C08",
   "status": "proved",
   "theorems": [
    "Dream.C08_vtk",
    "Dream.C08_sensor",
    "Dream.C08_gridfunction",
    "Dream.C08_schedule",
    "Dream.C08_pseudo",
    "Dream.C08_interrupted"
   ],
   "note": "For an undisturbed run; under any interruption the records written are a prefix of the schedule (C08_interrupted)."
  },
  {
   "property": "C09",
   "status": "partial",
   "theorems": [
    "Dream.C09_transient_partial",
    "Dream.C09_pseudo_partial",
    "Dream.C09_stationary_partial",
    "Dream.C09_fails_open",
    "Dream.C09_fails_close"
   ],
   "note": "Proved for every interruption point once all streams are opened and when closing itself does not raise; C09_fails_open and C09_fails_close show that an exception while opening or closing leaves streams open."
  },
  {
   "property": "C10",
   "status": "partial",
   "theorems": [
    "Dream.C10_rate_one_partial",
    "Dream.C10_fails_stride",
    "Dream.C10_replay_iff",
    "Dream.C10_every_rate",
    "Dream.C10_subsample"
   ],
   "note": "C10_every_rate says for every rate what replaying does: all states with rate 1, the last state with a rate equal to the number of steps, nothing from twice that on; with all other rates it fails (C10_fails_stride). C10_replay_iff also covers replaying with another rate."
  },
  {
   "property": "C11",
   "status": "partial",
   "theorems": [
    "Dream.C11_kinds",
    "Dream.C11_header_partial",
    "Dream.C11_data",
    "Dream.C11_rectangular_partial",
    "Dream.C11_no_fields",
    "Dream.C11_inconsistent_refused",
    "Dream.C11_fails_nine",
    "Dream.C11_fails_stationary"
   ],
   "note": "Header and data agree, cell by cell, for scalars, vectors, square matrices and all longer shapes; 9x1 and 1x9 matrices are labelled as 3x3 (C11_fails_nine), stationary rows are one cell short (C11_fails_stationary), and a sensor without locations raises."
  },
  {
   "property": "C12",
   "status": "partial",
   "theorems": [
    "Dream.C12_transient_partial",
    "Dream.C12_fails_single",
    "Dream.C12_fails_stationary_vtk",
    "Dream.C12_fails_stationary",
    "Dream.C12_pseudo_partial"
   ],
   "note": "Proved for at least one step without mesh or settings streams; those raise TypeError, zero steps raise UnboundLocalError and the stationary routine raises AttributeError."
  },
  {
   "property": "C13",
   "status": "partial",
   "theorems": [
    "Dream.C13_relative_partial",
    "Dream.C13_absolute",
    "Dream.C13_fails_never_ends",
    "Dream.C13_ends_iff",
    "Dream.C13_effect",
    "Dream.C13_fails_reachable",
    "Dream.C13_fails_same_place"
   ],
   "note": "The claim holds if no other folder coincides with the old or new location; otherwise the assignment never ends (C13_fails_never_ends, reachable by three assignments) or leaves a folder behind (C13_fails_same_place). C13_ends_iff says exactly when it ends, C13_effect what it does then, for all folders."
  },
  {
   "property": "C14",
   "status": "proved",
   "theorems": [
    "Dream.C14_switchboard",
    "Dream.C14_opened"
   ],
   "note": "All histories of assignments to stream switches."
  },
  {
   "property": "C15",
   "status": "proved",
   "theorems": [
    "Dream.C15_last_assigned",
    "Dream.C15_other_entries",
    "Dream.C15_iteration",
    "Dream.C15_fails_symbol_lookup"
   ],
   "note": "Reading by attribute or canonical name, for all histories; subscripting by symbol raises KeyError and setdefault overwrites (C15_fails_symbol_lookup)."
  },
  {
   "property": "C16",
   "status": "partial",
   "theorems": [
    "Dream.C16_restore_partial",
    "Dream.C16_export_stable",
    "Dream.C16_fails_log",
    "Dream.C16_fails_stream"
   ],
   "note": "All histories of updates in class hierarchies without streams and with idempotent setters, any depth. With streams it is false: the log stream exports a name its setter rejects (C16_fails_log) and a stream that is off in the target stays off (C16_fails_stream)."
  },
  {
   "property": "C17",
   "status": "proved",
   "theorems": [
    "Dream.C17_sequential",
    "Dream.C17_order",
    "Dream.C17_frame",
    "Dream.C17_effect",
    "Dream.C17_unknown",
    "Dream.C17_below_value",
    "Dream.C17_nested_dict",
    "Dream.C17_fails_order"
   ],
   "note": "All dictionaries of dotted keys in which a selection precedes the options of what is selected; the opposite order always raises TypeError (C17_fails_order), and a key below a plain value raises AttributeError (C17_below_value)."
  },
  {
   "property": "C18",
   "status": "partial",
   "theorems": [
    "Dream.Ptr.C18_history_partial",
    "Dream.Ptr.C18_sensors",
    "Dream.Ptr.C18_fails_sensor",
    "Dream.Ptr.C18_fails_shared"
   ],
   "note": "All histories that attach only instances which are not part of another configuration; a shared instance refers to the last solver (C18_fails_shared), a sensor refers to itself until its stream is opened (C18_fails_sensor, C18_sensors)."
  },
  {
   "property": "C19",
   "status": "partial",
   "theorems": [
    "Dream.C19_upper",
    "Dream.C19_derived",
    "Dream.C19_define",
    "Dream.C19_stable",
    "Dream.C19_listed",
    "Dream.C19_select",
    "Dream.C19_new_objects",
    "Dream.C19_history_partial",
    "Dream.C19_fails_derived",
    "Dream.C19_fails_inherited_alias",
    "Dream.C19_lower_case",
    "Dream.C19_fails_unnamed",
    "Dream.C19_package"
   ],
   "note": "Registration proved for all sequences of class statements; selection follows the last known name if no selectable class derives from another. Naming a base class keeps a derived implementation (C19_fails_derived); a derived class without its own aliases is refused but leaves its name registered (C19_fails_inherited_alias); classes without a name of their own all get the name of the common base class, so only the first is accepted (C19_fails_unnamed)."
  },
  {
   "property": "C20",
   "status": "proved",
   "theorems": [
    "Dream.C20_identity",
    "Dream.C20_assign",
    "Dream.C20_history",
    "Dream.C20_copied",
    "Dream.C20_reset",
    "Dream.C20_fails_unchecked"
   ],
   "note": "All histories; setting the object itself skips the validation (C20_fails_unchecked)."
  },
  {
   "property": "C21",
   "status": "partial",
   "theorems": [
    "Dream.C21_density",
    "Dream.C21_pressure",
    "Dream.C21_temperature",
    "Dream.C21_velocity",
    "Dream.C21_momentum",
    "Dream.C21_kinetic_energy",
    "Dream.C21_specific_kinetic_energy",
    "Dream.C21_specific_energy",
    "Dream.C21_enthalpy",
    "Dream.C21_inner_energy",
    "Dream.C21_specific_inner_energy",
    "Dream.C21_energy",
    "Dream.C21_specific_enthalpy",
    "Dream.C21_speed_of_sound_partial",
    "Dream.C21_fails_speed_of_sound",
    "Dream.C21_local_mach_number_partial"
   ],
   "note": "Every getter agrees with the ideal gas laws for every subset of given fields, except speed_of_sound computed from the specific inner energy, which is off by a factor (C21_fails_speed_of_sound: the code returns sqrt((gamma-1)/gamma Ei), i.e. c/gamma)."
  },
  {
   "property": "C22",
   "status": "partial",
   "theorems": [
    "Dream.C22_density",
    "Dream.C22_pressure",
    "Dream.C22_temperature",
    "Dream.C22_inner_energy",
    "Dream.C22_specific_inner_energy",
    "Dream.C22_speed_of_sound",
    "Dream.C22_velocity",
    "Dream.C22_momentum",
    "Dream.C22_kinetic_energy",
    "Dream.C22_specific_kinetic_energy",
    "Dream.C22_specific_energy",
    "Dream.C22_enthalpy",
    "Dream.C22_energy",
    "Dream.C22_specific_enthalpy_partial",
    "Dream.C22_fails_specific_enthalpy"
   ],
   "note": "All getters either compute or raise ValueError, except specific_enthalpy (C22_fails_specific_enthalpy)."
  },
  {
   "property": "C23",
   "status": "proved",
   "theorems": [
    "Dream.C23_density_gradient",
    "Dream.C23_pressure_gradient",
    "Dream.C23_temperature_gradient",
    "Dream.C23_velocity_gradient",
    "Dream.C23_momentum_gradient",
    "Dream.C23_energy_gradient",
    "Dream.C23_specific_energy_gradient",
    "Dream.C23_inner_energy_gradient",
    "Dream.C23_specific_inner_energy_gradient",
    "Dream.C23_enthalpy_gradient",
    "Dream.C23_kinetic_energy_gradient",
    "Dream.C23_specific_kinetic_energy_gradient"
   ],
   "note": ""
  },
  {
   "property": "C24",
   "status": "proved",
   "theorems": [
    "Dream.C24_fields",
    "Dream.C24_admissible",
    "Dream.C24_round_trip",
    "Dream.C24_initial_round_trip",
    "Dream.C24_gradient_fields"
   ],
   "note": ""
  },
  {
   "property": "C25",
   "status": "proved",
   "theorems": [
    "Dream.C25_primitive_conservative",
    "Dream.C25_characteristic_primitive",
    "Dream.C25_characteristic_conservative",
    "Dream.C25_other_dimensions"
   ],
   "note": "Two space dimensions, the only implemented case; C25_other_dimensions shows that all other dimensions are refused."
  },
  {
   "property": "C26",
   "status": "proved",
   "theorems": [
    "Dream.C26_conservative_diagonalised",
    "Dream.C26_primitive_diagonalised",
    "Dream.C26_primitive_to_conservative",
    "Dream.C26_flux",
    "Dream.C26_flux_conservative",
    "Dream.C26_jacobian_is_derivative"
   ],
   "note": "Jacobians in two dimensions (the implemented case), flux in any dimension."
  },
  {
   "property": "C27",
   "status": "proved",
   "theorems": [
    "Dream.C27_conservative",
    "Dream.C27_primitive",
    "Dream.C27_identities",
    "Dream.C27_identity_refuses"
   ],
   "note": ""
  },
  {
   "property": "C28",
   "status": "proved",
   "theorems": [
    "Dream.C28_dissipative",
    "Dream.C28_upwind_roe",
    "Dream.C28_lax_friedrich_hll",
    "Dream.C28_hllem_le_hll",
    "Dream.C28_consistent",
    "Dream.C28_flux",
    "Dream.C28_flip_invariant",
    "Dream.C28_upwind_flip",
    "Dream.C28_lax_friedrich_conservative"
   ],
   "note": "Two dimensions; Lax-Friedrichs and HLL in any dimension."
  },
  {
   "property": "C29",
   "status": "proved",
   "theorems": [
    "Dream.C29_farfield",
    "Dream.C29_direction_only",
    "Dream.C29_documented",
    "Dream.C29_fails_aeroacoustic_docstring",
    "Dream.C29_refuses",
    "Dream.C29_inviscid",
    "Dream.C29_reynolds"
   ],
   "note": "All scalings, configurations, dimensions and directions. The docstring formula of the aeroacoustic scaling disagrees with the code (C29_fails_aeroacoustic_docstring); the documented reference-speed convention holds."
  },
  {
   "property": "C30",
   "status": "proved",
   "theorems": [
    "Dream.C30_sutherland",
    "Dream.C30_scaling_independent",
    "Dream.C30_normalised",
    "Dream.C30_positive_increasing",
    "Dream.C30_other_laws"
   ],
   "note": ""
  },
  {
   "property": "C31",
   "status": "proved",
   "theorems": [
    "Dream.C31_strain",
    "Dream.C31_stress",
    "Dream.C31_dissipation",
    "Dream.C31_stress_of_strain",
    "Dream.C31_heat",
    "Dream.C31_flux",
    "Dream.C31_flux_of_strain"
   ],
   "note": "Any dimension; dissipation for dimension at most three."
  },
  {
   "property": "C32",
   "status": "partial",
   "theorems": [
    "Dream.C32_flux",
    "Dream.C32_mixed",
    "Dream.C32_conservative_partial",
    "Dream.C32_fails_sutherland"
   ],
   "note": "Holds for the mixed variables always and for the conservative variables with constant viscosity; fails for the Sutherland law, whose dependence on the state is neglected (C32_fails_sutherland)."
  },
  {
   "property": "C33",
   "status": "partial",
   "theorems": [
    "Dream.C33_inviscid_wall",
    "Dream.C33_isothermal_wall",
    "Dream.C33_outflow",
    "Dream.C33_fails_adiabatic",
    "Dream.C33_sponge",
    "Dream.C33_farfield_jacobian",
    "Dream.C33_farfield_identity_partial",
    "Dream.C33_fails_farfield_identity",
    "Dream.C33_cbc_target",
    "Dream.C33_fails_temperature_inflow",
    "Dream.C33_cbc_partial"
   ],
   "note": "Walls, outflow, Jacobian farfield and sponge: exact characterisation. The identity-based farfield condition (the default) and the characteristic conditions need non-zero characteristic velocities: C33_fails_farfield_identity shows they are violated by every uniform flow parallel to the boundary. The adiabatic wall can never be built (C33_fails_adiabatic) and temperature_inflow ignores the prescribed temperature."
  },
  {
   "property": "C34",
   "status": "proved",
   "theorems": [
    "Dream.C34_agrees",
    "Dream.C34_answers",
    "Dream.C34_entropy"
   ],
   "note": ""
  },
  {
   "property": "C35",
   "status": "proved",
   "theorems": [
    "Dream.C35_variables",
    "Dream.C35_normal_derivative",
    "Dream.C35_amplitudes",
    "Dream.C35_amplitudes_flux"
   ],
   "note": ""
  },
  {
   "property": "C36",
   "status": "partial",
   "theorems": [
    "Dream.C36_init",
    "Dream.C36_history_partial",
    "Dream.C36_fails_duplicate",
    "Dream.C36_by_name",
    "Dream.C36_clear",
    "Dream.C36_histories",
    "Dream.C36_queries",
    "Dream.C36_partition",
    "Dream.C36_named"
   ],
   "note": "C36_histories gives the exact result for every history of assignments (by object, by name, refused) and clears. As stated the property holds for histories whose patterns name no region twice; a pattern that repeats a region appends the condition twice (C36_fails_duplicate)."
  },
  {
   "property": "C37",
   "status": "partial",
   "theorems": [
    "Dream.C37_grouping_partial",
    "Dream.C37_collisions",
    "Dream.C37_fails_same_regions"
   ],
   "note": "Proved in every set order if distinct conditions have distinct region sets; two conditions on the same regions collide and one is lost in every order (C37_fails_same_regions)."
  },
  {
   "property": "C38",
   "status": "partial",
   "theorems": [
    "Dream.C38_boundary",
    "Dream.C38_domain_partial",
    "Dream.C38_all_added",
    "Dream.C38_fails_psponge",
    "Dream.C38_fails_offered",
    "Dream.C38_fails_initial_and_sponge"
   ],
   "note": "Boundary conditions, initial conditions and sponge layers proved; p-sponge layers get the plain sponge formulation, four offered domain conditions raise TypeError, and a sponge layer sharing its regions with an initial condition may be dropped."
  },
  {
   "property": "C39",
   "status": "proved",
   "theorems": [
    "Dream.C39_invariant",
    "Dream.C39_accepts",
    "Dream.C39_order_matters"
   ],
   "note": "All histories of rational inputs; C39_order_matters shows that a valid pair can be refused when low_order is set first."
  },
  {
   "property": "C40",
   "status": "proved",
   "theorems": [
    "Dream.C40_pairs",
    "Dream.C40_one_target",
    "Dream.C40_layers"
   ],
   "note": "C40_pairs for the chain, C40_one_target and C40_layers for the formulation, pointwise and with the interpolation as an input. Through the solver the formulation is never reached, see C38."
  },
  {
   "property": "C41",
   "status": "proved",
   "theorems": [
    "Dream.C41_radial",
    "Dream.C41_short_centre",
    "Dream.C41_coordinate",
    "Dream.C41_monotone_coordinate",
    "Dream.C41_sponge",
    "Dream.C41_penta_smooth",
    "Dream.C41_constant"
   ],
   "note": ""
  },
  {
   "property": "C42",
   "status": "proved",
   "theorems": [
    "Dream.C42_exponential_converges",
    "Dream.C42_tangential_converges",
    "Dream.C42_linear",
    "Dream.C42_exponential",
    "Dream.C42_tangential",
    "Dream.C42_polar",
    "Dream.C42_fails_polar_length",
    "Dream.C42_thickness"
   ],
   "note": "Real arithmetic. Linear, exponential and tangential mappings; the thickness is exact in the limit of the iteration and within the stated error when it stops at the tolerance. Cartesian components of polar mappings are proved away from the axes; their reported length is 0 (C42_fails_polar_length)."
  },
  {
   "property": "C43",
   "status": "partial",
   "theorems": [
    "Dream.C43_current_partial",
    "Dream.C43_read_back",
    "Dream.C43_fails_none",
    "Dream.C43_fails_dim",
    "Dream.C43_fails_apply",
    "Dream.C43_init"
   ],
   "note": "Proved for assignments of mappings with fixed dimension; assigning None or changing dim leaves a stale deformation, and applying the deformation of a solver always raises AttributeError."
  },
  {
   "property": "C44",
   "status": "proved",
   "theorems": [
    "Dream.C44_size",
    "Dream.C44_conforming",
    "Dream.C44_boundary",
    "Dream.C44_refused",
    "Dream.C44_circles",
    "Dream.C44_halves",
    "Dream.C44_orientation",
    "Dream.C44_fails_inverted"
   ],
   "note": "All integers n_polar, n_radial: either an exception or a conforming mesh. The argument checks do not prevent geometrically inverted elements (C44_fails_inverted)."
  },
  {
   "property": "C45",
   "status": "proved",
   "theorems": [
    "Dream.C45_abs_max_min",
    "Dream.C45_interval",
    "Dream.C45_diagonal",
    "Dream.C45_diagonal_matrix",
    "Dream.C45_trace",
    "Dream.C45_as_matrix",
    "Dream.C45_symmetric",
    "Dream.C45_skew",
    "Dream.C45_unit_vector"
   ],
   "note": ""
  },
  {
   "property": "C46",
   "status": "proved",
   "theorems": [
    "Dream.C46_round_trip",
    "Dream.C46_pattern_of_parts",
    "Dream.C46_regions",
    "Dream.C46_fails_empty"
   ],
   "note": ""
  },
  {
   "property": "C47",
   "status": "partial",
   "theorems": [
    "Dream.C47_delivered_partial",
    "Dream.C47_reported",
    "Dream.C47_fails_off_by_name"
   ],
   "note": "Fields requested are delivered or reported; switching off a default field by its symbol or name with False is ignored (C47_fails_off_by_name)."
  },
  {
   "property": "C48",
   "status": "partial",
   "theorems": [
    "Dream.C48_scalar",
    "Dream.C48_list",
    "Dream.C48_nscbc",
    "Dream.C48_named_partial",
    "Dream.C48_fails_named",
    "Dream.C48_fails_list2d",
    "Dream.C48_refuses"
   ],
   "note": "Scalars and lists of five are proved; names in a dictionary are ignored (C48_fails_named) and lists of four in 2D lose their last factor (C48_fails_list2d)."
  },
  {
   "property": "C49",
   "status": "partial",
   "theorems": [
    "Dream.C49_scaling",
    "Dream.C49_defaults",
    "Dream.C49_consistent_iff",
    "Dream.C49_fails_default_consistent",
    "Dream.C49_farfield_partial"
   ],
   "note": "The scaling law is proved for every field; consistency of the dimensional state holds only if the reference values are consistent, which the defaults are not, and the farfield temperature is not the reference temperature in general."
  },
  {
   "property": "C50",
   "status": "proved",
   "theorems": [
    "Dream.C50_iterate",
    "Dream.C50_contraction"
   ],
   "note": ""
  },
  {
   "property": "C51",
   "status": "partial",
   "theorems": [
    "Dream.C51_own_files_partial",
    "Dream.C51_own_rows_partial",
    "Dream.C51_fails_same_name"
   ],
   "note": "Sensors with distinct names; two sensors of different kind with the same name share one file and leave one open (C51_fails_same_name)."
  },
  {
   "property": "C52",
   "status": "partial",
   "theorems": [
    "Dream.C52_one_handler",
    "Dream.C52_single_configuration_partial",
    "Dream.C52_fails_two_configurations",
    "Dream.C52_fails_unopenable",
    "Dream.C52_fails_file_left_open"
   ],
   "note": "One configuration, all histories whose log file can be opened; two configurations share the logger and double the output, an unopenable file leaves the option set without handler, and switching off leaves the file open."
  },
  {
   "property": "C53",
   "status": "proved",
   "theorems": [
    "Dream.C53_initialize",
    "Dream.C53_histories",
    "Dream.C53_strain_heat_size"
   ],
   "note": "All histories of boundary conditions, including repeated regions, refused assignments and clears (C53_histories)."
  },
  {
   "property": "C54",
   "status": "partial",
   "theorems": [
    "Dream.C54_pressure_coefficient",
    "Dream.C54_pressure_coefficient_answers",
    "Dream.C54_force_partial",
    "Dream.C54_fails_sign"
   ],
   "note": "Pressure coefficient proved; drag and lift have the opposite sign (C54_fails_sign)."
  },
  {
   "property": "C55",
   "status": "partial",
   "theorems": [
    "Dream.C55_check",
    "Dream.C55_strain_heat_partial",
    "Dream.C55_fails_gradient"
   ],
   "note": "Acceptance check and strain-heat method proved; the gradient method can never evaluate the viscous flux (C55_fails_gradient)."
  },
  {
   "property": "C56",
   "status": "proved",
   "theorems": [
    "Dream.C56_consistent",
    "Dream.C56_dissipative",
    "Dream.C56_damping"
   ],
   "note": "Consistency in two dimensions (strain-heat is implemented there only), dissipation in any dimension."
  },
  {
   "property": "C57",
   "status": "proved",
   "theorems": [
    "Dream.C57_strain",
    "Dream.C57_heat",
    "Dream.C57_strain_element",
    "Dream.C57_heat_element",
    "Dream.C57_element",
    "Dream.C57_unique"
   ],
   "note": "C57_strain and C57_heat are pointwise; C57_element integrates over an arbitrary triangle and its sides (Lebesgue integral, divergence theorem proved in Lemmas/Triangle.lean), C57_unique shows uniqueness. Exact integration."
  },
  {
   "property": "C58",
   "status": "partial",
   "theorems": [
    "Dream.C58_fails_outflow",
    "Dream.C58_fails_inflow",
    "Dream.C58_uniform_partial",
    "Dream.C58_terms_partial"
   ],
   "note": "Uniform flow proved; C58_fails_outflow and C58_fails_inflow show that the wrong component is used (flat index 2 of a 2x2 matrix)."
  },
  {
   "property": "C59",
   "status": "proved",
   "theorems": [
    "Dream.C59_time_levels",
    "Dream.C59_final_levels_lost"
   ],
   "note": "Exact characterisation; with the default rate the levels of the final step are not available (C59_final_levels_lost)."
  },
  {
   "property": "C60",
   "status": "partial",
   "theorems": [
    "Dream.C60_pattern",
    "Dream.C60_sequence",
    "Dream.C60_all",
    "Dream.C60_reopen",
    "Dream.C60_fails_missing",
    "Dream.C60_covered_partial",
    "Dream.C60_fails_boundary_default"
   ],
   "note": "All cases but boundary sensors without regions, which integrate over the volume (C60_fails_boundary_default); a misspelt single region is handled differently as string and as sequence (C60_fails_missing)."
  },
  {
   "property": "C61",
   "status": "proved",
   "theorems": [
    "Dream.C61_steady_kept",
    "Dream.C61_steady_necessary",
    "Dream.C61_textbook_recursion",
    "Dream.C61_timer_error",
    "Dream.C61_all_labels_yielded",
    "Dream.C61_linear_exact"
   ],
   "note": "Any spatial form, mass form and linear solver; the residual is that of the assembled form at the current time levels."
  },
  {
   "property": "C62",
   "status": "partial",
   "theorems": [
    "Dream.C62_steady_residual_partial",
    "Dream.C62_converged_is_steady_partial",
    "Dream.C62_steady_state_kept",
    "Dream.C62_fails_bdf2"
   ],
   "note": "Implicit Euler proved for every history; with BDF2 convergence can be reported at a state that is not steady (C62_fails_bdf2)."
  },
  {
   "property": "C63",
   "status": "proved",
   "theorems": [
    "Dream.C63_ie_contractive",
    "Dream.C63_bdf2_stable",
    "Dream.C63_runs_stable"
   ],
   "note": "Real arithmetic; any finite element space and quadrature with non-negative weights."
  },
  {
   "property": "C64",
   "status": "partial",
   "theorems": [
    "Dream.C64_increment",
    "Dream.C64_same_increment_partial",
    "Dream.C64_error",
    "Dream.C64_fails_error"
   ],
   "note": "The increments agree; the reported errors do not (C64_fails_error)."
  },
  {
   "property": "C65",
   "status": "partial",
   "theorems": [
    "Dream.C65_terms_partial",
    "Dream.C65_terms",
    "Dream.C65_condition_once_partial",
    "Dream.C65_stationary_cbc",
    "Dream.C65_fails_names"
   ],
   "note": "Proved for all configurations with the built-in condition classes and at most one condition per set of regions; user-defined condition names can collide (C65_fails_names)."
  },
  {
   "property": "C66",
   "status": "proved",
   "theorems": [
    "Dream.C66_balance",
    "Dream.C66_run",
    "Dream.C66_closed",
    "Dream.C66_container"
   ],
   "note": "The container theorem takes the wall condition to hold pointwise at the quadrature points; Upwind is excluded (C67_fails_upwind)."
  },
  {
   "property": "C67",
   "status": "partial",
   "theorems": [
    "Dream.C67_wall_partial",
    "Dream.C67_fails_upwind"
   ],
   "note": "All Riemann solvers but Upwind, for which the claim is false (C67_fails_upwind)."
  },
  {
   "property": "C68",
   "status": "proved",
   "theorems": [
    "Dream.C68_mask"
   ],
   "note": ""
  },
  {
   "property": "C69",
   "status": "proved",
   "theorems": [
    "Dream.C69_uniform",
    "Dream.C69_run",
    "Dream.C69_missing",
    "Dream.C69_gradients",
    "Dream.C69_viscous",
    "Dream.C69_transient",
    "Dream.C69_pseudo",
    "Dream.C69_transient_viscous"
   ],
   "note": "Two dimensions; viscous fluxes with the strain-heat method; quadrature and spaces enter through the discrete divergence theorem."
  },
  {
   "property": "C70",
   "status": "partial",
   "theorems": [
    "Dream.C70_states_partial",
    "Dream.C70_unset",
    "Dream.C70_fails_overlap",
    "Dream.C70_facet"
   ],
   "note": "All assignments in which a region has at most one initial condition; with several the result depends on memory addresses (C70_fails_overlap)."
  },
  {
   "property": "C71",
   "status": "proved",
   "theorems": [
    "Dream.C71_trial_test",
    "Dream.C71_values",
    "Dream.C71_empty",
    "Dream.C71_flow"
   ],
   "note": "Spaces that are themselves products of spaces are not used by the code and excluded."
  },
  {
   "property": "C72",
   "status": "partial",
   "theorems": [
    "Dream.C72_elements",
    "Dream.C72_space_refused",
    "Dream.C72_refused",
    "Dream.C72_facets_partial",
    "Dream.C72_fails_lowest_first"
   ],
   "note": "Elements proved for at most one layer per region; facets proved if the unknowns are numbered facet by facet. With all constants first, as in NGSolve, wrong unknowns are removed (C72_fails_lowest_first)."
  },
  {
   "property": "C73",
   "status": "proved",
   "theorems": [
    "Dream.C73_best",
    "Dream.C73_layers",
    "Dream.C73_space"
   ],
   "note": "In quadrature; the finite element space enters as a linear space of functions."
  },
  {
   "property": "C74",
   "status": "partial",
   "theorems": [
    "Dream.Mapping.C74_others",
    "Dream.Mapping.C74_read",
    "Dream.Mapping.C74_deleted",
    "Dream.Mapping.C74_reassign",
    "Dream.Mapping.C74_order",
    "Dream.Mapping.C74_clear",
    "Dream.Mapping.C74_keys",
    "Dream.Mapping.C74_pop_partial",
    "Dream.Mapping.C74_undeclared",
    "Dream.Mapping.C74_fails_get"
   ],
   "note": "All histories for declared plain and parameter options; get, pop and setdefault raise AttributeError for undeclared names (C74_fails_get), a deleted parameter cannot be assigned again (C74_reassign), misspelt options are accepted silently (C74_undeclared). Sub-configurations are C16-C19."
  },
  {
   "property": "C75",
   "status": "partial",
   "theorems": [
    "Dream.C75_accepted",
    "Dream.C75_nested",
    "Dream.C75_sizes_partial",
    "Dream.C75_fails_sizes",
    "Dream.C75_boundary_layer",
    "Dream.C75_outer",
    "Dream.C75_wake",
    "Dream.C75_fails_unchecked"
   ],
   "note": "Radii, nesting and boundary layer proved; the mesh sizes of the transition rings are reversed (C75_fails_sizes; right only for growth 1, C75_sizes_partial), and the order of transition region and farfield is not checked (C75_fails_unchecked). The CAD kernel and the mesh generator are not modelled."
  },
  {
   "property": "C76",
   "status": "partial",
   "theorems": [
    "Dream.C76_convective",
    "Dream.C76_numerical",
    "Dream.C76_farfield",
    "Dream.C76_wall",
    "Dream.C76_isothermal",
    "Dream.C76_outflow",
    "Dream.C76_cbc_partial",
    "Dream.C76_sponge",
    "Dream.C76_diffusive",
    "Dream.C76_mixed",
    "Dream.C76_step",
    "Dream.C76_euler",
    "Dream.C76_navier_stokes",
    "Dream.C76_freestream",
    "Dream.C76_forces",
    "Dream.C76_fails_cbc_viscous"
   ],
   "note": "All orthogonal matrices of the plane (convective flux and free stream in any dimension); meshes and spaces enter through quadrature points, normals and test functions. The viscous terms of the characteristic conditions do depend on the axes (C76_fails_cbc_viscous)."
  },
  {
   "property": "C77",
   "status": "partial",
   "theorems": [
    "Dream.C77_convective",
    "Dream.C77_numerical",
    "Dream.C77_farfield",
    "Dream.C77_wall",
    "Dream.C77_isothermal",
    "Dream.C77_outflow",
    "Dream.C77_cbc",
    "Dream.C77_relaxation",
    "Dream.C77_sponge",
    "Dream.C77_units",
    "Dream.C77_freestream",
    "Dream.C77_viscosity",
    "Dream.C77_diffusive",
    "Dream.C77_cbc_viscous",
    "Dream.C77_mixed",
    "Dream.C77_step",
    "Dream.C77_euler",
    "Dream.C77_navier_stokes",
    "Dream.C77_coefficients",
    "Dream.C77_mach",
    "Dream.C77_dimensionful_partial",
    "Dream.C77_fails_dimensionful"
   ],
   "note": "All pairs of scalings; plane flows, strain-heat method. Strength of sponge layers, wall temperatures and outflow pressures given by the user are converted by the user. The dimensional state of the free stream depends on the scaling unless the reference values are changed with it (C77_fails_dimensionful)."
  },
  {
   "property": "C78",
   "status": "partial",
   "theorems": [
    "Dream.C78_mesh_partial",
    "Dream.C78_settings_partial",
    "Dream.C78_gridfunction",
    "Dream.C78_documents",
    "Dream.C78_separate_folders",
    "Dream.C78_defaults",
    "Dream.C78_fails_same_name",
    "Dream.C78_fails",
    "Dream.C78_names",
    "Dream.C78_states",
    "Dream.C78_replay",
    "Dream.C78_levels",
    "Dream.C78_fails_underscore",
    "Dream.C78_fails_prefix"
   ],
   "note": "Proved for gridfunctions, text and YAML documents without provisos, for mesh and settings as long as their folders or names differ (C78_fails_same_name otherwise). File names without separators; pickling and unpickling is trusted."
  },
  {
   "property": "C79",
   "status": "proved",
   "theorems": [
    "Dream.C79_contact",
    "Dream.C79_transport",
    "Dream.C79_lax_friedrich",
    "Dream.C79_stationary",
    "Dream.C79_fails_smear",
    "Dream.C79_rest",
    "Dream.C79_rest_run",
    "Dream.C79_fails_rest",
    "Dream.C79_fails_shear"
   ],
   "note": "Two dimensions. The theorems named C79_fails_… show what the more diffusive solvers do, and that shear layers are not kept exactly by any solver."
  },
  {
   "property": "C80",
   "status": "proved",
   "theorems": [
    "Dream.C80_euler",
    "Dream.C80_steady",
    "Dream.C80_polynomial",
    "Dream.C80_limit",
    "Dream.C80_mixed",
    "Dream.C80_navier_stokes",
    "Dream.C80_steady_viscous",
    "Dream.C80_parallel_flow",
    "Dream.C80_density_wave",
    "Dream.C80_rotating_flow",
    "Dream.C80_couette"
   ],
   "note": "Two dimensions, the strain-heat method; states are what the integrals see at the quadrature points. Characteristic conditions only where the exact solution has no tangential variation and no viscous terms (as in C69). Exact solutions (parallel flow, rigid rotation, Couette flow, density wave) show that the hypotheses are met."
  },
  {
   "property": "C81",
   "status": "partial",
   "theorems": [
    "Dream.C81_split",
    "Dream.C81_first_file",
    "Dream.C81_last_file",
    "Dream.C81_other_files_partial",
    "Dream.C81_restart",
    "Dream.C81_fails_overwrite",
    "Dream.C81_restart_levels",
    "Dream.C81_state_only",
    "Dream.C81_fails_state_only",
    "Dream.C81_fails_step_change"
   ],
   "note": "Splitting and restarting are proved for times in rational arithmetic whose labels are distinct. The theorems C81_fails_… show what does not hold: the file of time 0 is overwritten by a restart, loading only the unknowns has no effect on the next run, and BDF2 is inconsistent after a change of the step. The rest of the files (written first: C81_first_file) is left alone (C81_other_files_partial)."
  },
  {
   "property": "C82",
   "status": "partial",
   "theorems": [
    "Dream.C82_refines_partial",
    "Dream.C82_in_force_partial",
    "Dream.C82_options_wait",
    "Dream.C82_assembly_waits",
    "Dream.C82_needs_initialize",
    "Dream.C82_new_scheme_refused",
    "Dream.C82_new_solver_refused",
    "Dream.C82_new_method_refused",
    "Dream.C82_fails_new_timer",
    "Dream.C82_fails_reinitialize"
   ],
   "note": "Histories in which every run comes after an initialize that follows the last new scheme or timer, and reassembles if needed, are proved to behave like the specification; so are waiting options and the refusals. C82_fails_new_timer and C82_fails_reinitialize show the two silent failures outside this discipline. Transient solver; streams and validation of parameters are left out."
  },
  {
   "property": "C83",
   "status": "proved",
   "theorems": [
    "Dream.C83_signal_speeds",
    "Dream.C83_numerical_flux",
    "Dream.C83_wall",
    "Dream.C83_container",
    "Dream.C83_uniform",
    "Dream.C83_refused",
    "Dream.C83_supported",
    "Dream.C83_plane",
    "Dream.C83_viscous_refused",
    "Dream.C83_embedding",
    "Dream.C83_extrusion"
   ],
   "note": "Any dimension for the convective terms with Lax-Friedrichs or HLL, walls, outflows, isothermal walls and sponge layers. Setting up the equations is modelled at a point (in the code it is symbolic, so whether it raises does not depend on the point); the inviscid cases are decided exactly (C83_supported, C83_plane), viscous flow in three dimensions is always refused. Quadrature enters through the divergence theorem for the test functions, as in C69."
  },
  {
   "property": "C84",
   "status": "proved",
   "theorems": [
    "Dream.C84_gauss",
    "Dream.C84_gauss_mixed",
    "Dream.C84_constants",
    "Dream.C84_total",
    "Dream.C84_uniform",
    "Dream.C84_uniform_viscous",
    "Dream.C84_container",
    "Dream.C84_defect",
    "Dream.C84_steady",
    "Dream.C84_rest",
    "Dream.C84_side_rules",
    "Dream.C84_volume_rules",
    "Dream.C84_missing",
    "Dream.C84_rotating",
    "Dream.C84_mixed_solvable",
    "Dream.C84_mixed_exact",
    "Dream.C84_moved_mesh",
    "Dream.C84_moved_space",
    "Dream.C84_moved",
    "Dream.C84_components",
    "Dream.C84_units"
   ],
   "note": "Two dimensions, triangles with straight sides; curved elements and quadrilaterals are not covered. Rules exact for every degree exist (C84_volume_rules, C84_side_rules); that NGSolve chooses such rules is an assumption. The states are what the integrals see at the quadrature points."
  },
  {
   "property": "C85",
   "status": "partial",
   "theorems": [
    "Dream.C85_repeat_partial",
    "Dream.C85_fails_rerun_label",
    "Dream.C85_fails_start_label",
    "Dream.C85_fails_pseudo_step",
    "Dream.C85_fails_initial",
    "Dream.C85_fails_pseudo"
   ],
   "note": "The states and labels of a run of the transient solver after initialize are proved to depend on the settings only, if the initial state does not depend on the time (C85_repeat_partial). The theorems C85_fails_… show what does not hold: the label of the initial state is 0 or the end of the last run, initial states that depend on the time are evaluated there, and pseudo time stepping starts the next run with the step it ended with."
  },
  {
   "property": "C86",
   "status": "proved",
   "theorems": [
    "Dream.C86_conserved",
    "Dream.C86_drift",
    "Dream.C86_viscous",
    "Dream.C86_pseudo",
    "Dream.C86_triangulation"
   ],
   "note": "Closed domains only: with walls or other conditions the totals change while Newton iterates, see C66 for converged steps. That the linear systems are solved (up to a tolerance, in every equation) is a hypothesis on the linear solver, stated as a directional derivative (Spec/Drift.lean); the example on a ring of two cells with a nonlinear flux meets it. Rounding is not modelled."
  },
  {
   "property": "C87",
   "status": "partial",
   "theorems": [
    "Dream.C87_implicit_euler",
    "Dream.C87_bdf2_started_partial",
    "Dream.C87_bdf2_order_one_partial",
    "Dream.C87_runs_partial",
    "Dream.C87_runs_converge_partial",
    "Dream.C87_fails_bdf2_order_two",
    "Dream.C87_inexact_euler",
    "Dream.C87_inexact_bdf2",
    "Dream.C87_inexact_converges"
   ],
   "note": "Implicit Euler is proved to be of order one with an explicit constant, BDF2 of order two when its two levels are exact (C87_bdf2_started_partial) and of order one as the solver starts it (C87_bdf2_order_one_partial); C87_fails_bdf2_order_two shows that it is no better. Dissipative problems as in C63; complete runs for linear problems. Steps whose equations hold up to a residual add at most the residual times the elapsed time (C87_inexact_euler, C87_inexact_converges; four times that for BDF2, C87_inexact_bdf2); what residual the convergence criterion of the Newton iteration guarantees is not part of this. Convergence of the space discretisation is not treated (C80 for exact solutions)."
  },
  {
   "property": "C88",
   "status": "partial",
   "theorems": [
    "Dream.C88_read_back_partial",
    "Dream.C88_appended_partial",
    "Dream.C88_fails_stationary",
    "Dream.C88_fails_shift"
   ],
   "note": "Transient runs and appended runs are proved to be read back exactly, for fields whose components can be named (2x2, 3x3 or large matrices, see C11). C88_fails_stationary and C88_fails_shift show what happens in stationary computations. pandas.read_csv is modelled on lines split into cells (equal length of header lines, padding of short lines, error for long lines); printing and parsing of numbers is taken to be faithful."
  },
  {
   "property": "C89",
   "status": "proved",
   "theorems": [
    "Dream.C89_step",
    "Dream.C89_run",
    "Dream.C89_container",
    "Dream.C89_triangulation",
    "Dream.C89_fails_bdf2"
   ],
   "note": "For solutions of the discrete equations, whose existence is not claimed; the facet densities must not be zero (the velocities there are quotients). Pressure and temperature: see C110. Fluxes and conditions are those of the code (LowestOrder); C89_triangulation removes the assumptions on the mesh for triangles, with integration rules of positive weights. C89_fails_bdf2: with BDF2 a sponge layer makes the density negative in the second step."
  },
  {
   "property": "C90",
   "status": "proved",
   "theorems": [
    "Dream.C90_linear",
    "Dream.C90_quadratic",
    "Dream.C90_reported",
    "Dream.C90_other_dampings",
    "Dream.C90_small_steps",
    "Dream.C90_overrelaxed"
   ],
   "note": "The derivative and the solution of the linear systems are NGSolve's (SolvesSystems): systems with a unique solution are solved exactly, in exact arithmetic. The reported error is bounded by increment and residual with some constant c (1 for direct solvers without static condensation, direct_solves; with static condensation another one). C90_small_steps assumes that the equations of the unknowns without time derivative determine them to first order. C90_overrelaxed covers the factors from 1 to 2. C90_other_dampings is the negative part."
  },
  {
   "property": "C91",
   "status": "proved",
   "theorems": [
    "Dream.C91_transformations",
    "Dream.C91_jacobians",
    "Dream.C91_velocities",
    "Dream.C91_variables",
    "Dream.C91_amplitudes",
    "Dream.C91_directional",
    "Dream.C91_identities"
   ],
   "note": "In one and three dimensions primitive_from_characteristic and characteristic_from_primitive return a NotImplementedError object instead of raising it; the model treats this as raised, since the object fails in the first multiplication."
  },
  {
   "property": "C92",
   "status": "proved",
   "theorems": [
    "Dream.C92_sensors",
    "Dream.C92_vtk",
    "Dream.C92_vtk_run"
   ],
   "note": "VTKOutput itself (NGSolve) is trusted to evaluate the functions on the marked elements. Two sensors of different kinds with the same name are both measured but share a file (C51)."
  },
  {
   "property": "C93",
   "status": "partial",
   "theorems": [
    "Dream.C93_step_partial",
    "Dream.C93_fluxes",
    "Dream.C93_run_partial",
    "Dream.C93_restrict_partial",
    "Dream.C93_fails_upwind",
    "Dream.C93_traction",
    "Dream.C93_fails_viscous",
    "Dream.C93_fails_upwind_instance",
    "Dream.C93_fails_viscous_instance",
    "Dream.C93_triangulation_partial",
    "Dream.C93_triangulation_restrict_partial"
   ],
   "note": "Inviscid flow in two dimensions with every Riemann solver but Upwind is proved (C93_run_partial; on triangulations C93_triangulation_partial), the converse with Lax-Friedrichs and HLL (C93_restrict_partial), whose stabilisation can be solved for the facet values. C93_fails_upwind and C93_fails_viscous give the violations, with instances. The doubled domain is described by its quadrature points and test functions (Spec/Mirror.lean), the interface carrying one facet function seen from both sides."
  },
  {
   "property": "C94",
   "status": "proved",
   "theorems": [
    "Dream.C94_runs",
    "Dream.C94_step",
    "Dream.C94_triangulation",
    "Dream.C94_rules"
   ],
   "note": "Existence, stability and uniqueness of short runs near uniform flow, in any dimension (C94_runs, C94_step), and on triangulations with piecewise polynomials of any orders (C94_triangulation), with quadrature rules of positive weights, which exist (C94_rules). The signal speeds are not differentiable; the proof needs derivatives at the uniform state only. Real arithmetic; that Newton's method finds the solution is C90."
  },
  {
   "property": "C95",
   "status": "proved",
   "theorems": [
    "Dream.C95_runs",
    "Dream.C95_transient",
    "Dream.C95_matrix",
    "Dream.C95_triangulation"
   ],
   "note": "For coefficient vectors in any bases of the spaces of C94 (C95_runs), for the transient routine with its timer (C95_transient) and on triangulations (C95_triangulation). The matrix is any that consists of (one-sided) derivatives; the one that differentiates the IfPos branches of the code is one of them (C95_matrix). Linear systems with exactly one solution are assumed to be solved exactly, with a reported error bounded by increment and residual (SolvesSteps). Real arithmetic; bounds on step and distance exist but are not computed."
  },
  {
   "property": "C96",
   "status": "proved",
   "theorems": [
    "Dream.C96_converges",
    "Dream.C96_triangulation"
   ],
   "note": "For the states that solve the equations of the steps exactly (C94); what Newton's method adds is bounded in C95. First order for BDF2 too, since it starts from the initial state twice (C05). In continuous time only the discretisation in space is kept; convergence of that is not part of the claim."
  },
  {
   "property": "C97",
   "status": "proved",
   "theorems": [
    "Dream.C97_newton_runs",
    "Dream.C97_newton_transient",
    "Dream.C97_matrix",
    "Dream.C97_fails_newton",
    "Dream.C97_newton_triangulation",
    "Dream.C97_fails_newton_triangulation",
    "Dream.C97_runs",
    "Dream.C97_converges",
    "Dream.C97_facets",
    "Dream.C97_fails_facets",
    "Dream.C97_triangulation",
    "Dream.C97_fails_triangulation"
   ],
   "note": "C97_runs, C97_converges and C97_facets under the condition Riemann.Damps on interior facets, C97_triangulation for triangulations; C97_newton_runs, C97_newton_transient, C97_matrix and C97_newton_triangulation for Newton's method; the counterparts C97_fails_facets, C97_fails_triangulation, C97_fails_newton and C97_fails_newton_triangulation. Boundary conditions as in C94. Real arithmetic."
  },
  {
   "property": "C98",
   "status": "partial",
   "theorems": [
    "Dream.C98_tests",
    "Dream.C98_casts",
    "Dream.C98_idempotent",
    "Dream.C98_fails_shapes",
    "Dream.C98_shapes_partial",
    "Dream.C98_zero",
    "Dream.C98_outer"
   ],
   "note": "C98_shapes_partial: coefficient functions pass through every cast unchanged and a one-entry sequence becomes a scalar (C98_fails_shapes). The name of NGSolve's zero function is an input of the model."
  },
  {
   "property": "C99",
   "status": "proved",
   "theorems": [
    "Dream.C99_long_runs",
    "Dream.C99_returns",
    "Dream.C99_long_runs_solvers",
    "Dream.C99_returns_solvers",
    "Dream.C99_triangulation_long",
    "Dream.C99_triangulation_returns"
   ],
   "note": "C99_long_runs and C99_returns in any dimension, C99_long_runs_solvers and C99_returns_solvers in two dimensions, C99_triangulation_long and C99_triangulation_returns for triangulations. The deviation for which the claim about long runs holds depends on the final time, the factor does not. Outflows are excluded. The rate of return depends on the time step and on the scheme. Real arithmetic."
  },
  {
   "property": "C100",
   "status": "proved",
   "theorems": [
    "Dream.C100_pseudo",
    "Dream.C100_pseudo_solvers",
    "Dream.C100_triangulation"
   ],
   "note": "C100_pseudo in any dimension, C100_pseudo_solvers in two dimensions, C100_triangulation for triangulations, with existence of the matrix, the discrete flows and the linear solver. Implicit Euler only: with BDF2 pseudo stepping may report convergence at a state that is not steady (C62). The bound on the number of iterations depends on the lower bound of the steps and on the tolerance. Real arithmetic."
  },
  {
   "property": "C101",
   "status": "proved",
   "theorems": [
    "Dream.C101_resume",
    "Dream.C101_files",
    "Dream.C101_completed",
    "Dream.C101_too_early"
   ],
   "note": "C101_resume for any number of interruptions and all rates, C101_files for streams that save all steps, C101_completed (nothing else is written), C101_too_early (the condition on the stage is necessary). The labels have to be distinct (C02). A crash is modelled at the granularity of files; a file that was completely written is assumed to survive. Only the gridfunction stream."
  },
  {
   "property": "C102",
   "status": "partial",
   "theorems": [
    "Dream.C102_transient_partial",
    "Dream.C102_pseudo_partial",
    "Dream.C102_fails_single",
    "Dream.C102_states"
   ],
   "note": "C102_transient_partial and C102_pseudo_partial for the operations, C102_states for the states. The mesh and the settings stream are excluded: with them nothing is computed (C102_fails_single). Streams that raise do influence the computation."
  },
  {
   "property": "C103",
   "status": "proved",
   "theorems": [
    "Dream.C103_states",
    "Dream.C103_labels"
   ],
   "note": "C103_states for all delays, C103_labels for the labels. Time steps, digits and times are exact rationals; in floating point (C111) the times of a delayed run may be rounded differently, the labels not."
  },
  {
   "property": "C104",
   "status": "partial",
   "theorems": [
    "Dream.C104_whole",
    "Dream.C104_split",
    "Dream.C104_complete_partial",
    "Dream.C104_true",
    "Dream.C104_rate_one",
    "Dream.C104_fails_default",
    "Dream.C104_fails_resumed",
    "Dream.C104_fails_rate"
   ],
   "note": "C104_split gives the table of any number of runs that are told to append (mode 'a' after the first run) exactly; C104_complete_partial and C104_true derive the claim from it if the rate divides the numbers of steps of all runs but the last, C104_whole describes one run, C104_rate_one counts the rows. Without these conditions the claim is false of the code: by default (mode 'w') each run empties the file (C104_fails_default), otherwise the rows due in the middle may be missing because each run counts its steps from zero (C104_fails_rate), and a run resumed in a new process records its first state with time 0 (C104_fails_resumed)."
  },
  {
   "property": "C105",
   "status": "proved",
   "theorems": [
    "Dream.C105_inflow",
    "Dream.C105_facet",
    "Dream.C105_determined",
    "Dream.C105_step",
    "Dream.C105_run",
    "Dream.C105_compressive",
    "Dream.C105_exists",
    "Dream.C105_fails_lax_friedrich",
    "Dream.C105_fails_roe"
   ],
   "note": "C105_facet and C105_inflow at one side, C105_determined for the facet value, C105_step and C105_run on triangulations with any number of shocks, C105_compressive and C105_exists for the shocks themselves. C105_fails_lax_friedrich and C105_fails_roe: with these fluxes no facet value works; for Roe facet values that are sonic or flow along the side are excluded, because there the flux does not determine the facet value. That the discrete equations have no other solution near a shock is not claimed. Two dimensions."
  },
  {
   "property": "C106",
   "status": "proved",
   "theorems": [
    "Dream.C106_carried",
    "Dream.C106_strength",
    "Dream.C106_pressure",
    "Dream.C106_circulation"
   ],
   "note": "C106_carried, C106_strength, C106_pressure, C106_circulation. The example is the only user of these formulas; its numbers meet the hypotheses. CF.Diff is the derivative of the coefficient function; NGSolve's evaluation of the derivative of the square root in the very centre (0/0) is not modelled. That the discrete equations at this solution contain only truncation and quadrature errors is C80; its boundary conditions have the farfield as target, which the vortex reaches only approximately."
  },
  {
   "property": "C107",
   "status": "proved",
   "theorems": [
    "Dream.C107_potential",
    "Dream.C107_surface",
    "Dream.C107_far",
    "Dream.C107_bernoulli",
    "Dream.C107_low_mach",
    "Dream.C107_streamline",
    "Dream.C107_from_far"
   ],
   "note": "C107_potential, C107_surface and C107_far for the reference flow, C107_streamline and C107_from_far for the entropy and the total enthalpy, C107_bernoulli for the recorded values and C107_low_mach for the limit. That the compressible flows around the cylinder exist and that their speeds converge to those of the incompressible flow is an assumption of C107_low_mach (classical low Mach number analysis is not in Mathlib)."
  },
  {
   "property": "C108",
   "status": "proved",
   "theorems": [
    "Dream.C108_transient",
    "Dream.C108_each_field",
    "Dream.C108_pseudo",
    "Dream.C108_nothing_drawn",
    "Dream.C108_replay",
    "Dream.C108_interrupted",
    "Dream.C108_abandoned"
   ],
   "note": "C108_transient, C108_each_field, C108_pseudo, C108_replay, C108_nothing_drawn, C108_interrupted, C108_abandoned. What Draw and Redraw of NGSolve put on the screen is not modelled, only which of them are called, with which fields, and in which state of the solver. A redraw that raises counts as complete."
  },
  {
   "property": "C109",
   "status": "partial",
   "theorems": [
    "Dream.C109_follow_partial",
    "Dream.C109_fails_stale",
    "Dream.C109_after_run"
   ],
   "note": "C109_follow_partial: true until the solver is initialised again (C109_after_run: what a run yields last is what cfg.gfu contains). initialize makes new gridfunctions, but fields made before refer to the old ones: they show the last state before the second initialize for ever (C109_fails_stale), so pictures, vtk files and sensors that were set up before it record a frozen solution."
  },
  {
   "property": "C110",
   "status": "proved",
   "theorems": [
    "Dream.C110_step",
    "Dream.C110_run",
    "Dream.C110_fields",
    "Dream.C110_triangulation",
    "Dream.C110_fails_bdf2"
   ],
   "note": "C110_step, C110_run, C110_fields, C110_triangulation. For solutions of the discrete equations, whose existence is not claimed. LowestOrder.Sound assumes that the square root of the speed of sound on the facets is taken of a number that is not negative; otherwise the code gets nan there. That the facet densities are positive is not assumed but shown. Without viscosity only. C110_fails_bdf2: with BDF2 a sponge layer leaves no gas after the second step."
  },
  {
   "property": "C111",
   "status": "partial",
   "theorems": [
    "Dream.C111_digits_partial",
    "Dream.C111_refines_partial",
    "Dream.C111_labels_partial",
    "Dream.C111_increasing_partial",
    "Dream.C111_double",
    "Dream.C111_fails_above_one"
   ],
   "note": "C111_refines_partial, C111_labels_partial, C111_increasing_partial for every rounding with relative error u, C111_double for IEEE double precision (exponent range not limited). The interval must not end near the middle between two visited times, where the number of steps depends on the rounding. The number of decimals is that of the typed step for steps below 0.45 (C111_digits_partial) and for steps that are floats. C111_fails_above_one: the step 1.1 is taken to have sixteen decimals, labels are not rounded, and the third is 3.3000000000000003."
  },
  {
   "property": "C112",
   "status": "proved",
   "theorems": [
    "Dream.C112_trace",
    "Dream.C112_leaves",
    "Dream.C112_outflow",
    "Dream.C112_supersonic",
    "Dream.C112_oblique",
    "Dream.C112_pressure_outlet",
    "Dream.C112_exists",
    "Dream.C112_wall"
   ],
   "note": "C112_trace, C112_leaves, C112_outflow, C112_supersonic, C112_oblique for families of traces that depend differentiably on the amplitude, C112_exists (inverse function theorem): such families exist; C112_pressure_outlet and C112_wall for the reflecting conditions. Two dimensions, pointwise on the boundary: that the interior responds to the trace as the linearised equations do is not claimed. Velocities 0 and +-c through the boundary are excluded, see C33 for them."
  },
  {
   "property": "C113",
   "status": "proved",
   "theorems": [
    "Dream.C113_step",
    "Dream.C113_leaves",
    "Dream.C113_relaxes",
    "Dream.C113_rate",
    "Dream.C113_grcbc",
    "Dream.C113_exists",
    "Dream.C113_outlet"
   ],
   "note": "C113_step, C113_leaves, C113_relaxes, C113_rate, C113_grcbc, C113_outlet for families of traces that depend differentiably on the amplitude (CbcRun), C113_exists (implicit function theorem): such families exist for all steps. The target temperature_inflow (see C33_fails_temperature_inflow), tangential relaxation of waves that change along the boundary and viscous terms are not included. Pointwise on the boundary, as C112."
  },
  {
   "property": "C114",
   "status": "partial",
   "theorems": [
    "Dream.C114_wall",
    "Dream.C114_exact_iff",
    "Dream.C114_viscous",
    "Dream.C114_balance",
    "Dream.C114_written",
    "Dream.C114_sensor_partial",
    "Dream.C114_steady_partial",
    "Dream.C114_fails_through",
    "Dream.C114_exists"
   ],
   "note": "C114_balance and C114_written in general. C114_sensor_partial, C114_steady_partial: the table is exact, up to the sign (C54_fails_sign), for isothermal walls whose condition the gas in the elements meets (C114_viscous) and for inviscid walls through which no gas moves in the elements, and only there (C114_exact_iff): the wall condition binds the trace only, the sensor evaluates the element. C114_wall gives the difference exactly, C114_fails_through its consequence for the sensor. Upwind lets mass through walls (C67_fails_upwind) and is excluded. Two dimensions, strain-heat method; the sensor is taken to integrate with the quadrature of the equations."
  },
  {
   "property": "C115",
   "status": "proved",
   "theorems": [
    "Dream.C115_symmetric",
    "Dream.C115_pseudo",
    "Dream.C115_no_lift",
    "Dream.C115_viscous",
    "Dream.C115_viscous_pseudo",
    "Dream.C115_viscous_no_lift"
   ],
   "note": "C115_symmetric, C115_pseudo, C115_no_lift without viscosity; C115_viscous, C115_viscous_pseudo, C115_viscous_no_lift with the strain-heat method, for both laws of viscosity. Assumed of the linear solver: increments that are used (no NaN) were computed at gases and are the only solution of the linearised equations, by any rule of differentiation that looks at the residual near the state only (HasDerivAt and one-sided derivatives are such rules). Two dimensions, without characteristic conditions (their viscous terms depend on the axes, C76_fails_cbc_viscous); arithmetic is exact."
  },
  {
   "property": "C116",
   "status": "proved",
   "theorems": [
    "Dream.C116_state",
    "Dream.C116_round",
    "Dream.C116_share",
    "Dream.C116_spot"
   ],
   "note": "C116_state, C116_round, C116_share, C116_spot. The numbers of the example meet the hypotheses. C116_share gives the exact share of the disturbance that is not sound in the initial state, C116_spot that this part alone is an exact solution carried by the stream; how it interacts with the sound of a strong pulse is not treated. A symmetric mesh with this state is a case of C115."
  },
  {
   "property": "C117",
   "status": "proved",
   "theorems": [
    "Dream.C117_accepted",
    "Dream.C117_history",
    "Dream.C117_unchecked",
    "Dream.C117_frozen"
   ],
   "note": "C117_accepted, C117_history, C117_unchecked, C117_frozen. Strings, which int() would parse, are not modelled. What a negative order does in NGSolve is not modelled."
  },
  {
   "property": "C118",
   "status": "proved",
   "theorems": [
    "Dream.C118_damped",
    "Dream.C118_factors",
    "Dream.C118_undamped"
   ],
   "note": "C118_damped, C118_factors, C118_undamped. Exact arithmetic; the inverse is exact; the factor applies to the same vector the error is computed from. NaN as an option value is not in the reals and is covered by C03 and C117."
  },
  {
   "property": "C119",
   "status": "proved",
   "theorems": [
    "Dream.C119_documentation",
    "Dream.C119_text",
    "Dream.C119_read",
    "Dream.C119_breaks"
   ],
   "note": "C119_documentation, C119_text, C119_read, C119_breaks. C119_breaks shows that the proviso about line breaks in printed values is needed. Blanks at the ends of the lines of the acknowledgements are left out. How Python prints values is not modelled."
  }
 ]
}