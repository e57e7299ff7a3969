{
 "claims": [
  {
   "property": "C01",
   "status": "proved",
   "theorems": [
    "SpatialDyn.C01_transform_compose",
    "SpatialDyn.C01_transform_inverse",
    "SpatialDyn.C01_rigid_group",
    "SpatialDyn.C01_translation_overloads"
   ],
   "note": ""
  },
  {
   "property": "C02",
   "status": "proved",
   "theorems": [
    "SpatialDyn.C02_power_invariant",
    "SpatialDyn.C02_cross_equivariant",
    "SpatialDyn.C02_cross_laws"
   ],
   "note": ""
  },
  {
   "property": "C03",
   "status": "proved",
   "theorems": [
    "SpatialDyn.C03_inertia_symmetric",
    "SpatialDyn.C03_inertia_energy",
    "SpatialDyn.C03_inertia_equivariant",
    "SpatialDyn.C03_inertia_matrix",
    "SpatialDyn.C03_matrix_needs_symmetry"
   ],
   "note": ""
  },
  {
   "property": "C04",
   "status": "proved",
   "theorems": [
    "SpatialDyn.C04_inertia_add",
    "SpatialDyn.C04_inertia_add_assoc",
    "SpatialDyn.C04_inertia_add_phys",
    "SpatialDyn.C04_zero_mass_undefined"
   ],
   "note": ""
  },
  {
   "property": "C05",
   "status": "proved",
   "theorems": [
    "SpatialDyn.C05_flat_round_trip",
    "SpatialDyn.C05_flat_of_ctor",
    "SpatialDyn.C05_flat_order"
   ],
   "note": ""
  },
  {
   "property": "C06",
   "status": "proved",
   "theorems": [
    "SpatialDyn.C06_joint_group",
    "SpatialDyn.C06_joint_rigid",
    "SpatialDyn.C06_joint_derivative",
    "SpatialDyn.C06_subspace_unit",
    "SpatialDyn.C06_kind"
   ],
   "note": ""
  },
  {
   "property": "C07",
   "status": "proved",
   "theorems": [
    "SpatialDyn.C07_step",
    "SpatialDyn.C07_joint_limits_invariant",
    "SpatialDyn.C07_rejected_no_change",
    "SpatialDyn.C07_accept_iff",
    "SpatialDyn.C07_nan_breaks_limits",
    "SpatialDyn.C07_subspace_matches_type"
   ],
   "note": ""
  },
  {
   "property": "C08",
   "status": "proved",
   "theorems": [
    "SpatialDyn.C08_joint_name_round_trip",
    "SpatialDyn.C08_joint_name_rejects",
    "SpatialDyn.C08_joint_name_injective"
   ],
   "note": ""
  },
  {
   "property": "C09",
   "status": "proved",
   "theorems": [
    "SpatialDyn.C09_add_accepts",
    "SpatialDyn.C09_reject_no_change",
    "SpatialDyn.C09_add_additive"
   ],
   "note": ""
  },
  {
   "property": "C10",
   "status": "proved",
   "theorems": [
    "SpatialDyn.C10_tree_well_formed"
   ],
   "note": ""
  },
  {
   "property": "C11",
   "status": "proved",
   "theorems": [
    "SpatialDyn.C11_set_q",
    "SpatialDyn.C11_set_dq",
    "SpatialDyn.C11_set_other"
   ],
   "note": ""
  },
  {
   "property": "C12",
   "status": "proved",
   "theorems": [
    "SpatialDyn.C12_negative_index",
    "SpatialDyn.C12_out_of_range",
    "SpatialDyn.C12_base_index",
    "SpatialDyn.C12_load_index"
   ],
   "note": ""
  },
  {
   "property": "C13",
   "status": "proved",
   "theorems": [
    "SpatialDyn.C13_load_map",
    "SpatialDyn.C13_load_action",
    "SpatialDyn.C13_other_links"
   ],
   "note": ""
  },
  {
   "property": "C14",
   "status": "proved",
   "theorems": [
    "SpatialDyn.C14_history_independent",
    "SpatialDyn.C14_as_freshly_constructed",
    "SpatialDyn.C14_queries_commute"
   ],
   "note": ""
  },
  {
   "property": "C15",
   "status": "partial",
   "theorems": [
    "SpatialDyn.C15_base_honoured_partial",
    "SpatialDyn.C15_all_queries_partial",
    "SpatialDyn.C15_stale_after_query",
    "SpatialDyn.C15_violated",
    "SpatialDyn.C15_set_q_recovers"
   ],
   "note": "False of the code (C15_stale_after_query, C15_violated): cached transforms survive set_T_base_to_world. Proved: holds when no query preceded since q changed, and set_q to another configuration repairs every answer."
  },
  {
   "property": "C16",
   "status": "partial",
   "theorems": [
    "SpatialDyn.C16_independent",
    "SpatialDyn.C16_copy_answers_partial",
    "SpatialDyn.C16_copy_defined",
    "SpatialDyn.C16_assign_answers_partial",
    "SpatialDyn.C16_violated",
    "SpatialDyn.C16_violated_witness"
   ],
   "note": "False of the code for inertia_base() only (C16_violated, with witness): no copy operation copies it. Independence and equality of every other answer are proved for all programs."
  },
  {
   "property": "C17",
   "status": "partial",
   "theorems": [
    "SpatialDyn.C17_halves",
    "SpatialDyn.C17_T_to_world",
    "SpatialDyn.C17_position",
    "SpatialDyn.C17_orientation",
    "SpatialDyn.C17_cartesian_pose",
    "SpatialDyn.C17_position_q",
    "SpatialDyn.C17_orientation_q",
    "SpatialDyn.C17_variants_agree_partial",
    "SpatialDyn.C17_violated"
   ],
   "note": "False of the code for T_to_world(i, q) and CartesianPose(q, ...) (C17_violated: uninitialised transform). All other variants are proved."
  },
  {
   "property": "C18",
   "status": "proved",
   "theorems": [
    "SpatialDyn.C18_velocity",
    "SpatialDyn.C18_columns"
   ],
   "note": ""
  },
  {
   "property": "C19",
   "status": "proved",
   "theorems": [
    "SpatialDyn.C19_support",
    "SpatialDyn.C19_offset"
   ],
   "note": ""
  },
  {
   "property": "C20",
   "status": "proved",
   "theorems": [
    "SpatialDyn.C20_jacobian_velocity"
   ],
   "note": ""
  },
  {
   "property": "C21",
   "status": "partial",
   "theorems": [
    "SpatialDyn.C21_linear",
    "SpatialDyn.C21_symmetric",
    "SpatialDyn.C21_angular_partial",
    "SpatialDyn.C21_angular_violated",
    "SpatialDyn.C21_violated"
   ],
   "note": "Linear rows and symmetry are proved in full. Angular rows below the diagonal are wrong in the code (C21_angular_violated, C21_violated); the others are proved."
  },
  {
   "property": "C22",
   "status": "proved",
   "theorems": [
    "SpatialDyn.C22_virtual_work"
   ],
   "note": ""
  },
  {
   "property": "C23",
   "status": "proved",
   "theorems": [
    "SpatialDyn.C23_decomposition",
    "SpatialDyn.C23_paths_agree"
   ],
   "note": ""
  },
  {
   "property": "C24",
   "status": "proved",
   "theorems": [
    "SpatialDyn.C24_symmetric",
    "SpatialDyn.C24_kinetic_energy",
    "SpatialDyn.C24_positive",
    "SpatialDyn.C24_positive_definite",
    "SpatialDyn.C24_branches"
   ],
   "note": ""
  },
  {
   "property": "C25",
   "status": "proved",
   "theorems": [
    "SpatialDyn.C25_power",
    "SpatialDyn.C25_gradient",
    "SpatialDyn.C25_linear"
   ],
   "note": ""
  },
  {
   "property": "C26",
   "status": "proved",
   "theorems": [
    "SpatialDyn.C26_energy_balance"
   ],
   "note": ""
  },
  {
   "property": "C27",
   "status": "proved",
   "theorems": [
    "SpatialDyn.C27_jacobian_transpose",
    "SpatialDyn.C27_linear",
    "SpatialDyn.C27_other_keys"
   ],
   "note": ""
  },
  {
   "property": "C28",
   "status": "proved",
   "theorems": [
    "SpatialDyn.C28_composite"
   ],
   "note": ""
  },
  {
   "property": "C29",
   "status": "proved",
   "theorems": [
    "SpatialDyn.C29_forward_inverse",
    "SpatialDyn.C29_inverse_forward"
   ],
   "note": ""
  },
  {
   "property": "C30",
   "status": "partial",
   "theorems": [
    "SpatialDyn.C30_aba_base",
    "SpatialDyn.C30_aba_partial",
    "SpatialDyn.C30_violated"
   ],
   "note": "Exact answer for every base proved (C30_aba_base). Equality with ForwardDynamics fails for bases turned against gravity (C30_violated) and is proved otherwise."
  },
  {
   "property": "C31",
   "status": "partial",
   "theorems": [
    "SpatialDyn.C31_related_partial",
    "SpatialDyn.C31_chain",
    "SpatialDyn.C31_between_branches",
    "SpatialDyn.C31_violated"
   ],
   "note": "Proved on serial chains and for all pairs on one root path of any tree. Entries between branches are uninitialised in the code (C31_between_branches, C31_violated)."
  },
  {
   "property": "C32",
   "status": "partial",
   "theorems": [
    "SpatialDyn.C32_rest",
    "SpatialDyn.C32_rest_bounds",
    "SpatialDyn.C32_moving_partial",
    "SpatialDyn.C32_compensate",
    "SpatialDyn.C32_zero",
    "SpatialDyn.C32_inverse_dynamics",
    "SpatialDyn.C32_violated"
   ],
   "note": "False of the code for stiction without Coulomb friction (C32_violated). Everything else is proved for all coefficients and states."
  },
  {
   "property": "C33",
   "status": "proved",
   "theorems": [
    "SpatialDyn.C33_scheme",
    "SpatialDyn.C33_scheme_limits"
   ],
   "note": ""
  },
  {
   "property": "C34",
   "status": "proved",
   "theorems": [
    "SpatialDyn.C34_limits"
   ],
   "note": ""
  },
  {
   "property": "C35",
   "status": "proved",
   "theorems": [
    "SpatialDyn.C35_inertia_inverse",
    "SpatialDyn.C35_inertia",
    "SpatialDyn.C35_jbar",
    "SpatialDyn.C35_nullspace",
    "SpatialDyn.C35_regular"
   ],
   "note": ""
  },
  {
   "property": "C36",
   "status": "proved",
   "theorems": [
    "SpatialDyn.C36_regular",
    "SpatialDyn.C36_realises",
    "SpatialDyn.C36_priorities"
   ],
   "note": ""
  },
  {
   "property": "C37",
   "status": "partial",
   "theorems": [
    "SpatialDyn.C37_inertia_inverse",
    "SpatialDyn.C37_inertia",
    "SpatialDyn.C37_is_singular",
    "SpatialDyn.C37_jbar_partial",
    "SpatialDyn.C37_stale_jbar"
   ],
   "note": "Three of the queries are proved for all histories. JacobianDynamicInverse returns stale values after a change of tolerance (C37_stale_jbar); proved for histories with one tolerance."
  },
  {
   "property": "C38",
   "status": "partial",
   "theorems": [
    "SpatialDyn.C38_inertia_inverse_partial",
    "SpatialDyn.C38_agrees_partial",
    "SpatialDyn.C38_inertia_partial",
    "SpatialDyn.C38_defined",
    "SpatialDyn.C38_offset_violated",
    "SpatialDyn.C38_loads_violated"
   ],
   "note": "False of the code with loads and for points off the link origin (C38_loads_violated, C38_offset_violated); proved for all other cases and all histories."
  },
  {
   "property": "C39",
   "status": "partial",
   "theorems": [
    "SpatialDyn.C39_first_call_partial",
    "SpatialDyn.C39_violated",
    "SpatialDyn.C39_violated_inhabited"
   ],
   "note": "False of the code (C39_violated: two calls in a row differ). The first call after set_q is characterised exactly."
  },
  {
   "property": "C40",
   "status": "proved",
   "theorems": [
    "SpatialDyn.C40_velocity_derivative",
    "SpatialDyn.C40_defined"
   ],
   "note": ""
  },
  {
   "property": "C41",
   "status": "partial",
   "theorems": [
    "SpatialDyn.C41_roots_partial",
    "SpatialDyn.C41_violated",
    "SpatialDyn.C41_defined"
   ],
   "note": "Undefined behaviour for every body with a parent link (C41_violated), so only bodies without one are covered (C41_roots_partial, C41_defined)."
  },
  {
   "property": "C42",
   "status": "proved",
   "theorems": [
    "SpatialDyn.C42_rest",
    "SpatialDyn.C42_equation",
    "SpatialDyn.C42_defined",
    "SpatialDyn.C42_step",
    "SpatialDyn.C42_consecutive",
    "SpatialDyn.C42_reset",
    "SpatialDyn.C42_verlet"
   ],
   "note": ""
  },
  {
   "property": "C43",
   "status": "partial",
   "theorems": [
    "SpatialDyn.C43_stops",
    "SpatialDyn.C43_reached_partial",
    "SpatialDyn.C43_met",
    "SpatialDyn.C43_violated_link",
    "SpatialDyn.C43_violated_static",
    "SpatialDyn.C43_violated_witness",
    "SpatialDyn.C43_violated_calls"
   ],
   "note": "Stopping rule proved for every call. As a statement about the link asked for it is false for links other than the last and after a call for a body of another size (C43_violated_*)."
  },
  {
   "property": "C44",
   "status": "proved",
   "theorems": [
    "SpatialDyn.C44_joints_made",
    "SpatialDyn.C44_append",
    "SpatialDyn.C44_round_trip",
    "SpatialDyn.C44_answers",
    "SpatialDyn.C44_state_not_saved"
   ],
   "note": ""
  },
  {
   "property": "C45",
   "status": "partial",
   "theorems": [
    "SpatialDyn.C45_reads_flat",
    "SpatialDyn.C45_round_trip_partial",
    "SpatialDyn.C45_violated"
   ],
   "note": "False of the code for every body in which some link hangs on another (C45_violated); what is read back is characterised for all bodies (C45_reads_flat)."
  },
  {
   "property": "C46",
   "status": "partial",
   "theorems": [
    "SpatialDyn.C46_loaded",
    "SpatialDyn.C46_layout",
    "SpatialDyn.C46_total_mass",
    "SpatialDyn.C46_violated_dropped",
    "SpatialDyn.C46_violated_single"
   ],
   "note": "Proved for every sound description. Links outside the first tree are lost and single links refused (C46_violated_dropped, C46_violated_single)."
  },
  {
   "property": "C47",
   "status": "partial",
   "theorems": [
    "SpatialDyn.C47_numbers",
    "SpatialDyn.C47_axis_partial",
    "SpatialDyn.C47_violated_axis",
    "SpatialDyn.C47_inertia_partial",
    "SpatialDyn.C47_inertia_straight",
    "SpatialDyn.C47_violated_tensor"
   ],
   "note": "Numbers proved in full. Axes and turned inertial frames are converted wrongly in the code (C47_violated_axis, C47_violated_tensor); proved where they are not."
  },
  {
   "property": "C48",
   "status": "proved",
   "theorems": [
    "SpatialDyn.C48_integration_to_forward",
    "SpatialDyn.C48_forward_to_inverse",
    "SpatialDyn.C48_commutes",
    "SpatialDyn.C48_discrete_to_forward",
    "SpatialDyn.C48_discrete_to_inverse",
    "SpatialDyn.C48_consistent",
    "SpatialDyn.C48_euler",
    "SpatialDyn.C48_euler_aba",
    "SpatialDyn.C48_discrete_guess"
   ],
   "note": ""
  },
  {
   "property": "C49",
   "status": "proved",
   "theorems": [
    "SpatialDyn.C49_query_preserves",
    "SpatialDyn.C49_queries_preserve"
   ],
   "note": ""
  },
  {
   "property": "C50",
   "status": "proved",
   "theorems": [
    "SpatialDyn.C50_moved_to",
    "SpatialDyn.C50_moved_from",
    "SpatialDyn.C50_assign_restores"
   ],
   "note": ""
  },
  {
   "property": "C51",
   "status": "partial",
   "theorems": [
    "SpatialDyn.C51_answers",
    "SpatialDyn.C51_status",
    "SpatialDyn.C51_no_step",
    "SpatialDyn.C51_step",
    "SpatialDyn.C51_torques_alone",
    "SpatialDyn.C51_gravity",
    "SpatialDyn.C51_violated_truthy",
    "SpatialDyn.C51_violated_optional",
    "SpatialDyn.C51_violated_far"
   ],
   "note": "Status bits, torques and stepping proved in full for the C++ function. The Python promises about thresholds and truth value are false (C51_violated_*)."
  },
  {
   "property": "C52",
   "status": "partial",
   "theorems": [
    "SpatialDyn.C52_holds_partial",
    "SpatialDyn.C52_aba_violated",
    "SpatialDyn.C52_aba_reduced",
    "SpatialDyn.C52_aba_equation",
    "SpatialDyn.C52_aba_holds"
   ],
   "note": "Proved for ForwardDynamics. False for ForwardDynamicsAba (C52_aba_violated), for which C52_aba_reduced says what its friction amounts to and C52_aba_holds when it holds a body."
  },
  {
   "property": "C53",
   "status": "partial",
   "theorems": [
    "SpatialDyn.C53_coriolis_partial",
    "SpatialDyn.C53_violated"
   ],
   "note": "Proved without loads at the origin of the link, for all histories. The offset argument and loads are ignored by the code as in C38; C53_violated is a free-flying body whose answers at a point one metre away differ."
  },
  {
   "property": "C54",
   "status": "partial",
   "theorems": [
    "SpatialDyn.C54_history_independent_partial",
    "SpatialDyn.C54_violated"
   ],
   "note": "False of the code after operational-space articulated-body calls on a loaded body (C54_violated); proved for all other histories."
  },
  {
   "property": "C55",
   "status": "partial",
   "theorems": [
    "SpatialDyn.C55_missing_viscous",
    "SpatialDyn.C55_violated_everywhere",
    "SpatialDyn.C55_violated"
   ],
   "note": "False of the code: the exact error is proved for all bodies (C55_missing_viscous, C55_violated_everywhere) with a witness."
  },
  {
   "property": "C56",
   "status": "partial",
   "theorems": [
    "SpatialDyn.C56_links_only_partial",
    "SpatialDyn.C56_violated"
   ],
   "note": "False of the code (C56_violated): loads are ignored; the equation without loads is proved."
  },
  {
   "property": "C57",
   "status": "partial",
   "theorems": [
    "SpatialDyn.C57_no_iterations_violated",
    "SpatialDyn.C57_stopped_violated",
    "SpatialDyn.C57_converged_partial"
   ],
   "note": "False of the code when the iterations run out or none is allowed (two theorems with witnesses); proved with convergence."
  },
  {
   "property": "C58",
   "status": "partial",
   "theorems": [
    "SpatialDyn.C58_pickle_partial",
    "SpatialDyn.C58_violated",
    "SpatialDyn.C58_violated_witness"
   ],
   "note": "False of the code for every body with an infinite limit (C58_violated, with witness); proved for all others."
  },
  {
   "property": "C59",
   "status": "proved",
   "theorems": [
    "SpatialDyn.C59_geometry_name_round_trip",
    "SpatialDyn.C59_geometry_name_rejects",
    "SpatialDyn.C59_geometry_name_injective"
   ],
   "note": ""
  },
  {
   "property": "C60",
   "status": "partial",
   "theorems": [
    "SpatialDyn.C60_partial",
    "SpatialDyn.C60_violated",
    "SpatialDyn.C60_read_twice_violated"
   ],
   "note": "False of the code for every nonempty object and document with inner parents (C60_violated, with witness); proved for all others."
  },
  {
   "property": "C61",
   "status": "proved",
   "theorems": [
    "SpatialDyn.C61_accepts",
    "SpatialDyn.C61_rejects",
    "SpatialDyn.C61_keywords",
    "SpatialDyn.C61_defaults"
   ],
   "note": ""
  },
  {
   "property": "C62",
   "status": "partial",
   "theorems": [
    "SpatialDyn.C62_default_round_trip",
    "SpatialDyn.C62_partial",
    "SpatialDyn.C62_violated"
   ],
   "note": "False of the code for moving bodies (C62_violated); the exact error is proved for all (C62_default_round_trip)."
  },
  {
   "property": "C63",
   "status": "proved",
   "theorems": [
    "SpatialDyn.C63_pose",
    "SpatialDyn.C63_position",
    "SpatialDyn.C63_defaults"
   ],
   "note": ""
  },
  {
   "property": "C64",
   "status": "partial",
   "theorems": [
    "SpatialDyn.C64_towards_goal_partial",
    "SpatialDyn.C64_task_frame",
    "SpatialDyn.C64_violated"
   ],
   "note": "False of the code with a task orientation (C64_violated); proved without one. Argument forms of orientations proved (C64_task_frame)."
  },
  {
   "property": "C65",
   "status": "proved",
   "theorems": [
    "SpatialDyn.C65_law",
    "SpatialDyn.C65_converged",
    "SpatialDyn.C65_no_step",
    "SpatialDyn.C65_step",
    "SpatialDyn.C65_answers"
   ],
   "note": ""
  },
  {
   "property": "C66",
   "status": "proved",
   "theorems": [
    "SpatialDyn.C66_opspace",
    "SpatialDyn.C66_joint",
    "SpatialDyn.C66_rests",
    "SpatialDyn.C66_answers"
   ],
   "note": ""
  },
  {
   "property": "C67",
   "status": "proved",
   "theorems": [
    "SpatialDyn.C67_clipped"
   ],
   "note": ""
  },
  {
   "property": "C68",
   "status": "partial",
   "theorems": [
    "SpatialDyn.C68_acceleration_partial",
    "SpatialDyn.C68_rest",
    "SpatialDyn.C68_violated_stiction",
    "SpatialDyn.C68_violated"
   ],
   "note": "False of the code for moving bodies (C68_violated); the acceleration really caused is proved for all (C68_acceleration_partial), as documented at rest."
  },
  {
   "property": "C69",
   "status": "partial",
   "theorems": [
    "SpatialDyn.C69_refused_partial",
    "SpatialDyn.C69_bad_joint",
    "SpatialDyn.C69_violated_ring",
    "SpatialDyn.C69_violated_empty_name",
    "SpatialDyn.C69_violated_no_child",
    "SpatialDyn.C69_violated_number",
    "SpatialDyn.C69_violated_unknown_type"
   ],
   "note": "Which malformed files are refused, undefined, endless or accepted is proved case by case (C69_violated_* are the failures)."
  },
  {
   "property": "C70",
   "status": "partial",
   "theorems": [
    "SpatialDyn.C70_shown_partial",
    "SpatialDyn.C70_violated_material"
   ],
   "note": "Materials are lost by the code (C70_violated_material); name, shape and pose of every visual are proved for all sound descriptions."
  },
  {
   "property": "C71",
   "status": "partial",
   "theorems": [
    "SpatialDyn.C71_violated_bare",
    "SpatialDyn.C71_stated_partial"
   ],
   "note": "False of the code for every link without inertial (C71_violated_bare); links with one weigh what it says (C71_stated_partial)."
  },
  {
   "property": "C72",
   "status": "proved",
   "theorems": [
    "SpatialDyn.C72_pose",
    "SpatialDyn.C72_position",
    "SpatialDyn.C72_defaults"
   ],
   "note": ""
  },
  {
   "property": "C73",
   "status": "proved",
   "theorems": [
    "SpatialDyn.C73_lagrange"
   ],
   "note": ""
  },
  {
   "property": "C74",
   "status": "proved",
   "theorems": [
    "SpatialDyn.C74_root_momentum",
    "SpatialDyn.C74_conserved"
   ],
   "note": ""
  },
  {
   "property": "C75",
   "status": "proved",
   "theorems": [
    "SpatialDyn.C75_christoffel"
   ],
   "note": ""
  },
  {
   "property": "C76",
   "status": "proved",
   "theorems": [
    "SpatialDyn.C76_poses",
    "SpatialDyn.C76_jacobian",
    "SpatialDyn.C76_dynamics",
    "SpatialDyn.C76_forward"
   ],
   "note": ""
  },
  {
   "property": "C77",
   "status": "proved",
   "theorems": [
    "SpatialDyn.C77_json_proper",
    "SpatialDyn.C77_yaml_proper",
    "SpatialDyn.C77_json_content",
    "SpatialDyn.C77_yaml_content",
    "SpatialDyn.C77_malformed_refused",
    "SpatialDyn.C77_parent_refused"
   ],
   "note": ""
  },
  {
   "property": "C78",
   "status": "proved",
   "theorems": [
    "SpatialDyn.C78_unique",
    "SpatialDyn.C78_exists"
   ],
   "note": ""
  },
  {
   "property": "C79",
   "status": "proved",
   "theorems": [
    "SpatialDyn.C79_convergence"
   ],
   "note": ""
  },
  {
   "property": "C80",
   "status": "proved",
   "theorems": [
    "SpatialDyn.C80_energy_drift"
   ],
   "note": ""
  },
  {
   "property": "C81",
   "status": "proved",
   "theorems": [
    "SpatialDyn.C81_stable",
    "SpatialDyn.C81_global",
    "SpatialDyn.C81_exists",
    "SpatialDyn.C81_defaults"
   ],
   "note": ""
  },
  {
   "property": "C82",
   "status": "proved",
   "theorems": [
    "SpatialDyn.C82_sampled",
    "SpatialDyn.C82_reports",
    "SpatialDyn.C82_defaults"
   ],
   "note": ""
  },
  {
   "property": "C83",
   "status": "proved",
   "theorems": [
    "SpatialDyn.Mex.C83_inertia",
    "SpatialDyn.Mex.C83_gravity",
    "SpatialDyn.Mex.C83_hessian",
    "SpatialDyn.Mex.C83_centrifugal_coriolis",
    "SpatialDyn.Mex.C83_inverse_dynamics",
    "SpatialDyn.Mex.C83_velocity_derivative",
    "SpatialDyn.Mex.C83_position_derivative",
    "SpatialDyn.Mex.C83_jacobian_dynamic_inverse"
   ],
   "note": "The position derivative is covered for bodies without parent links; for all others the library function is undefined (C41)."
  },
  {
   "property": "C84",
   "status": "partial",
   "theorems": [
    "SpatialDyn.Mex.C84_position",
    "SpatialDyn.Mex.C84_jacobian",
    "SpatialDyn.Mex.C84_ignored",
    "SpatialDyn.Mex.C84_violated"
   ],
   "note": "Proved for position and jacobian. jacobian_dynamic_inverse ignores both arguments (C84_ignored, C84_violated with witness)."
  },
  {
   "property": "C85",
   "status": "proved",
   "theorems": [
    "SpatialDyn.Mex.C85_discrete_inverse_dynamics"
   ],
   "note": ""
  },
  {
   "property": "C86",
   "status": "partial",
   "theorems": [
    "SpatialDyn.Mex.C86_violated",
    "SpatialDyn.Mex.C86_ignored_violated",
    "SpatialDyn.Mex.C86_guess_violated",
    "SpatialDyn.Mex.C86_partial",
    "SpatialDyn.Mex.C86_refused_violated"
   ],
   "note": "False of the code: undefined for the documented call, for every body (C86_violated); what a call with a second column does is proved (C86_partial)."
  },
  {
   "property": "C87",
   "status": "partial",
   "theorems": [
    "SpatialDyn.Mex.C87_positions",
    "SpatialDyn.Mex.C87_motions",
    "SpatialDyn.Mex.C87_discrete",
    "SpatialDyn.Mex.C87_named",
    "SpatialDyn.Mex.C87_current",
    "SpatialDyn.Mex.C87_coriolis_violated",
    "SpatialDyn.Mex.C87_columns_violated",
    "SpatialDyn.Mex.C87_inverse_violated"
   ],
   "note": "Proved for all functions but centrifugal_coriolis and jacobian_dynamic_inverse with the body alone (C87_*_violated)."
  },
  {
   "property": "C88",
   "status": "proved",
   "theorems": [
    "SpatialDyn.C88_balance",
    "SpatialDyn.C88_conserved"
   ],
   "note": ""
  },
  {
   "property": "C89",
   "status": "proved",
   "theorems": [
    "SpatialDyn.C89_drag",
    "SpatialDyn.C89_impulse",
    "SpatialDyn.C89_elsewhere"
   ],
   "note": ""
  },
  {
   "property": "C90",
   "status": "partial",
   "theorems": [
    "SpatialDyn.C90_cycle",
    "SpatialDyn.C90_missing_key",
    "SpatialDyn.C90_run",
    "SpatialDyn.C90_violated",
    "SpatialDyn.C90_wrong_type"
   ],
   "note": "Proved for complete messages about existing links. Other messages can be undefined behaviour (C90_violated, for every robot)."
  },
  {
   "property": "C91",
   "status": "proved",
   "theorems": [
    "SpatialDyn.C91_keys"
   ],
   "note": ""
  },
  {
   "property": "C92",
   "status": "proved",
   "theorems": [
    "SpatialDyn.C92_start",
    "SpatialDyn.C92_rest"
   ],
   "note": ""
  },
  {
   "property": "C93",
   "status": "proved",
   "theorems": [
    "SpatialDyn.Mex.C93_remembers",
    "SpatialDyn.Mex.C93_remembers_velocities",
    "SpatialDyn.Mex.C93_remembers_inverse",
    "SpatialDyn.Mex.C93_meaning",
    "SpatialDyn.Mex.C93_error",
    "SpatialDyn.Mex.C93_exact",
    "SpatialDyn.Mex.C93_shared",
    "SpatialDyn.Mex.C93_others"
   ],
   "note": ""
  },
  {
   "property": "C94",
   "status": "partial",
   "theorems": [
    "SpatialDyn.Mex.C94_deleted_violated",
    "SpatialDyn.Mex.C94_violated",
    "SpatialDyn.Mex.C94_reuse_violated",
    "SpatialDyn.Mex.C94_leak_violated",
    "SpatialDyn.Mex.C94_freed"
   ],
   "note": "False of the code (C94_deleted_violated, C94_reuse_violated, C94_leak_violated); what explicit deletion frees is proved."
  },
  {
   "property": "C95",
   "status": "proved",
   "theorems": [
    "SpatialDyn.C95_point_stable",
    "SpatialDyn.C95_point_exists",
    "SpatialDyn.C95_pose_stable",
    "SpatialDyn.C95_pose_exists",
    "SpatialDyn.C95_python"
   ],
   "note": ""
  },
  {
   "property": "C96",
   "status": "proved",
   "theorems": [
    "SpatialDyn.C96_point_sampled",
    "SpatialDyn.C96_pose_sampled",
    "SpatialDyn.C96_point_reports",
    "SpatialDyn.C96_pose_reports"
   ],
   "note": ""
  },
  {
   "property": "C97",
   "status": "partial",
   "theorems": [
    "SpatialDyn.C97_edit_honoured_partial",
    "SpatialDyn.C97_as_constructed_partial",
    "SpatialDyn.C97_set_q_recovers",
    "SpatialDyn.C97_stale",
    "SpatialDyn.C97_stale_pose",
    "SpatialDyn.C97_violated"
   ],
   "note": "False of the code: nothing is invalidated (C97_stale, C97_stale_pose for every body, C97_violated concrete). Proved when links are changed before the first query since q changed (limits and friction at any time), and after any program once set_q changes q."
  },
  {
   "property": "C98",
   "status": "partial",
   "theorems": [
    "SpatialDyn.C98_joint_limits",
    "SpatialDyn.C98_mass_partial",
    "SpatialDyn.C98_rejected_iff",
    "SpatialDyn.C98_mass_violated"
   ],
   "note": "Limits and friction proved in full. False for masses (C98_mass_violated): the mass attribute of an inertia is a plain field. C98_mass_partial excludes assignments to that attribute."
  },
  {
   "property": "C99",
   "status": "partial",
   "theorems": [
    "SpatialDyn.C99_results_keep",
    "SpatialDyn.C99_q_follows",
    "SpatialDyn.C99_dq_follows",
    "SpatialDyn.C99_link_alias",
    "SpatialDyn.C99_link_dangling",
    "SpatialDyn.C99_load_alias",
    "SpatialDyn.C99_load_dangling",
    "SpatialDyn.C99_violated"
   ],
   "note": "The claim that every returned object keeps its value is false for q and dq (C99_q_follows, C99_dq_follows for every program, C99_violated concrete). The lifetime of links and loads is characterised exactly."
  },
  {
   "property": "C100",
   "status": "partial",
   "theorems": [
    "SpatialDyn.C100_no_nullspace",
    "SpatialDyn.C100_dimensions",
    "SpatialDyn.C100_update",
    "SpatialDyn.C100_empty",
    "SpatialDyn.C100_priorities",
    "SpatialDyn.C100_converted",
    "SpatialDyn.C100_violated"
   ],
   "note": "Proved for arrays of doubles. False for converted objects (C100_converted for every body and stack, C100_violated concrete)."
  },
  {
   "property": "C101",
   "status": "partial",
   "theorems": [
    "SpatialDyn.C101_last_cycle_partial",
    "SpatialDyn.C101_violated"
   ],
   "note": "False of the program for every robot at rest (C101_violated). C101_last_cycle_partial is the exact stopping condition."
  },
  {
   "property": "C102",
   "status": "partial",
   "theorems": [
    "SpatialDyn.C102_json",
    "SpatialDyn.C102_text_partial",
    "SpatialDyn.C102_violated"
   ],
   "note": "The JSON document is proved for every sound description. The text form is proved when every kept joint is bounded and false of the code otherwise (C102_violated)."
  },
  {
   "property": "C103",
   "status": "partial",
   "theorems": [
    "SpatialDyn.C103_dynamics_partial",
    "SpatialDyn.C103_violated"
   ],
   "note": "Proved with simplify = true (the default). False of the code without merging, for every description with a fixed joint (C103_violated)."
  },
  {
   "property": "C104",
   "status": "partial",
   "theorems": [
    "SpatialDyn.C104_reads",
    "SpatialDyn.C104_keeps_partial",
    "SpatialDyn.C104_setters_leave",
    "SpatialDyn.C104_dangling",
    "SpatialDyn.C104_violated",
    "SpatialDyn.C104_violated_task"
   ],
   "note": "False of the code for two Jacobians or two tasks (C104_violated, C104_violated_task). Proved for every other history of queries (C104_keeps_partial), and in full for C104_reads, C104_setters_leave and C104_dangling."
  },
  {
   "property": "C105",
   "status": "partial",
   "theorems": [
    "SpatialDyn.C105_loads_are_links_partial",
    "SpatialDyn.C105_violated"
   ],
   "note": "False of the code for opspace::InertiaInverseAba (C105_violated). Proved for the other queries that involve masses, the task ones being Inertia, InertiaInverse and IsSingular (C105_loads_are_links_partial)."
  },
  {
   "property": "C106",
   "status": "proved",
   "theorems": [
    "SpatialDyn.C106_pose",
    "SpatialDyn.C106_jacobian",
    "SpatialDyn.C106_inertia",
    "SpatialDyn.C106_torques",
    "SpatialDyn.C106_inverse_dynamics",
    "SpatialDyn.C106_forward_dynamics",
    "SpatialDyn.C106_forward_dynamics_aba",
    "SpatialDyn.C106_opspace_inertia"
   ],
   "note": ""
  },
  {
   "property": "C107",
   "status": "proved",
   "theorems": [
    "SpatialDyn.C107_inertia",
    "SpatialDyn.C107_torques",
    "SpatialDyn.C107_accelerations",
    "SpatialDyn.C107_accelerations_aba",
    "SpatialDyn.C107_reversible"
   ],
   "note": ""
  },
  {
   "property": "C108",
   "status": "partial",
   "theorems": [
    "SpatialDyn.Redisgl.C108_registry_partial",
    "SpatialDyn.Redisgl.C108_empty",
    "SpatialDyn.Redisgl.C108_others",
    "SpatialDyn.Redisgl.C108_robots_stay",
    "SpatialDyn.Redisgl.C108_violated"
   ],
   "note": "Proved for all programs whose namespaces have no colon. False otherwise (C108_violated)."
  },
  {
   "property": "C109",
   "status": "partial",
   "theorems": [
    "SpatialDyn.Redisgl.C109_graphics",
    "SpatialDyn.Redisgl.C109_object",
    "SpatialDyn.Redisgl.C109_robot_partial",
    "SpatialDyn.Redisgl.C109_violated",
    "SpatialDyn.Redisgl.C109_pose_violated"
   ],
   "note": "Objects proved in full. Robots proved when every limit is finite, false otherwise (C109_violated). Poses are never read back (C109_pose_violated)."
  },
  {
   "property": "C110",
   "status": "partial",
   "theorems": [
    "SpatialDyn.Redisgl.C110_defaults_partial",
    "SpatialDyn.Redisgl.C110_violated",
    "SpatialDyn.Redisgl.C110_assigned",
    "SpatialDyn.Redisgl.C110_made"
   ],
   "note": "Proved for programs that change no default object in place. False otherwise (C110_violated)."
  },
  {
   "property": "C111",
   "status": "proved",
   "theorems": [
    "SpatialDyn.C111_not_counted",
    "SpatialDyn.C111_counted",
    "SpatialDyn.C111_value"
   ],
   "note": "Describes the code as it is: it pins down exactly the behaviour behind C38_loads_violated and C54_violated."
  },
  {
   "property": "C112",
   "status": "proved",
   "theorems": [
    "SpatialDyn.C112_geometric",
    "SpatialDyn.C112_root",
    "SpatialDyn.C112_converges",
    "SpatialDyn.C112_step",
    "SpatialDyn.C112_fresh",
    "SpatialDyn.C112_true_converges",
    "SpatialDyn.C112_true_step"
   ],
   "note": "Assumes of ctrl_utils::Log and LogMapDerivative their first-order behaviour near the identity (Ext.NearLog); the C112_true theorems derive it from Ext.TrueLog, which says that they are the logarithm of the group of rigid motions and its derivative."
  },
  {
   "property": "C113",
   "status": "proved",
   "theorems": [
    "SpatialDyn.C113_convergence",
    "SpatialDyn.C113_first_order",
    "SpatialDyn.C113_true_log"
   ],
   "note": "Assumes of ctrl_utils::Log and LogMapDerivative their behaviour near the identity to second order (Ext.NearLog2); C113_true_log derives it from Ext.TrueLog, which says that they are the logarithm of the group of rigid motions and its derivative."
  },
  {
   "property": "C114",
   "status": "proved",
   "theorems": [
    "SpatialDyn.C114_stationary",
    "SpatialDyn.C114_run",
    "SpatialDyn.C114_motion"
   ],
   "note": "Assumes that ctrl_utils::Log and LogMapDerivative are the logarithm of the group of rigid motions near the identity and its derivative (Ext.TrueLog); such a pair is constructed."
  },
  {
   "property": "C115",
   "status": "proved",
   "theorems": [
    "SpatialDyn.C115_energy_drift"
   ],
   "note": "Assumes Ext.NearLog2 of the external logarithm, which Ext.TrueLog implies."
  },
  {
   "property": "C116",
   "status": "partial",
   "theorems": [
    "SpatialDyn.C116_off",
    "SpatialDyn.C116_step",
    "SpatialDyn.C116_violated_euler",
    "SpatialDyn.C116_only_stops",
    "SpatialDyn.C116_idle",
    "SpatialDyn.C116_stops_partial",
    "SpatialDyn.C116_violated_opposite",
    "SpatialDyn.C116_violated_pull",
    "SpatialDyn.C116_violated_opposite_witness",
    "SpatialDyn.C116_violated_pull_witness"
   ],
   "note": "False of the code: Euler is undefined (C116_violated_euler), joints at opposite limits are not stopped (C116_violated_opposite), stops pull (C116_violated_pull). Proved when no two joints are at limits on different sides (C116_stops_partial). The QP solver is a parameter assumed exact; there is one (Qp.exists_exact)."
  },
  {
   "property": "C117",
   "status": "proved",
   "theorems": [
    "SpatialDyn.C117_constant",
    "SpatialDyn.C117_exact"
   ],
   "note": "Without friction and joint limits."
  },
  {
   "property": "C118",
   "status": "proved",
   "theorems": [
    "SpatialDyn.C118_reaches",
    "SpatialDyn.C118_rest",
    "SpatialDyn.C118_wasted"
   ],
   "note": "Assumes that PseudoInverse flags every singular matrix (Ext.Flags) and inverts regular ones (Regular), and the control laws (Ctl.Law). Orientation is checked by the code on the last link, whatever link the goal names."
  },
  {
   "property": "C119",
   "status": "proved",
   "theorems": [
    "SpatialDyn.C119_cycles",
    "SpatialDyn.C119_tracks",
    "SpatialDyn.C119_iff"
   ],
   "note": "The loop (torqueLoop) is the specification's own program over the modelled InverseDynamics and Integrate. Without friction and joint limits, method Euler, with ForwardDynamics inside Integrate, or with ABA if the base does not turn gravity."
  },
  {
   "property": "C120",
   "status": "proved",
   "theorems": [
    "SpatialDyn.C120_iff",
    "SpatialDyn.C120_defaults"
   ],
   "note": "Assumes the control laws of ctrl_utils (Ctl.Law) and no clipping of accelerations."
  },
  {
   "property": "C121",
   "status": "partial",
   "theorems": [
    "SpatialDyn.Redisgl.C121_published",
    "SpatialDyn.Redisgl.C121_readable_partial",
    "SpatialDyn.Redisgl.C121_failed",
    "SpatialDyn.Redisgl.C121_fails",
    "SpatialDyn.Redisgl.C121_registry_partial",
    "SpatialDyn.Redisgl.C121_violated"
   ],
   "note": "Proved in full for the entries written and for failures. Reading the description back: exactly when every moving joint is bounded (C121_readable_partial, both directions). Registry: names without colon; false otherwise (C121_violated)."
  },
  {
   "property": "C122",
   "status": "partial",
   "theorems": [
    "SpatialDyn.C122_accepted",
    "SpatialDyn.C122_json_beginning",
    "SpatialDyn.C122_yaml_beginning",
    "SpatialDyn.C122_legal",
    "SpatialDyn.C122_kept",
    "SpatialDyn.C122_unchanged_partial",
    "SpatialDyn.C122_violated"
   ],
   "note": "Proved in full: same acceptance as reading into a new object, equality with a shorter document, legality, old links and state kept. That nothing changes holds when nothing precedes the refused entry (C122_unchanged_partial), false otherwise (C122_violated)."
  },
  {
   "property": "C123",
   "status": "proved",
   "theorems": [
    "SpatialDyn.C123_gauss",
    "SpatialDyn.C123_minimum",
    "SpatialDyn.C123_aba"
   ],
   "note": "Proved for all robots with positive definite inertia. For the articulated-body version the condition on the base is needed (C30_violated)."
  },
  {
   "property": "C124",
   "status": "proved",
   "theorems": [
    "SpatialDyn.C124_task",
    "SpatialDyn.C124_stack",
    "SpatialDyn.C124_velocity",
    "SpatialDyn.C124_inertia"
   ],
   "note": "Proved. A single task needs nothing of PseudoInverse; stacks and JacobianDynamicInverse need regular tasks and a PseudoInverse that inverts them."
  },
  {
   "property": "C125",
   "status": "proved",
   "theorems": [
    "SpatialDyn.C125_response",
    "SpatialDyn.C125_reciprocity",
    "SpatialDyn.C125_passive",
    "SpatialDyn.C125_superposition",
    "SpatialDyn.C125_aba"
   ],
   "note": "Proved: response against any test motion, reciprocity, passivity, superposition, and equality of the responses of both methods on any base."
  },
  {
   "property": "C126",
   "status": "proved",
   "theorems": [
    "SpatialDyn.C126_energy",
    "SpatialDyn.C126_heavier",
    "SpatialDyn.C126_yields_less",
    "SpatialDyn.C126_opspace"
   ],
   "note": "Proved: exact increment of the inertia form, monotone response, monotone operational-space inertia."
  },
  {
   "property": "C127",
   "status": "partial",
   "theorems": [
    "SpatialDyn.C127_kinematics",
    "SpatialDyn.C127_kinematics_violated",
    "SpatialDyn.C127_as_set_q",
    "SpatialDyn.C127_setters",
    "SpatialDyn.C127_only_the_path",
    "SpatialDyn.C127_exact",
    "SpatialDyn.C127_short_violated",
    "SpatialDyn.C127_long_violated",
    "SpatialDyn.C127_history_violated",
    "SpatialDyn.C127_friction"
   ],
   "note": "Right sizes proved in full (C127_exact, C127_as_set_q, C127_setters); what wrong sizes do is characterised exactly, and is undefined behaviour in the cases named (the _violated theorems)."
  },
  {
   "property": "C128",
   "status": "proved",
   "theorems": [
    "SpatialDyn.C128_current_q",
    "SpatialDyn.C128_halves",
    "SpatialDyn.C128_arguments",
    "SpatialDyn.C128_hessian"
   ],
   "note": "Proved. cartesian_pose and T_to_world with q are excluded: they return an uninitialised value (C17_violated)."
  },
  {
   "property": "C129",
   "status": "proved",
   "theorems": [
    "SpatialDyn.C129_circulation"
   ],
   "note": "Proved for TrueLog externals (extLog is one). The loop has to vary smoothly with its parameter; the example is a circle of states of a mass on a rail for any number of steps."
  },
  {
   "property": "C130",
   "status": "partial",
   "theorems": [
    "SpatialDyn.C130_alone",
    "SpatialDyn.C130_shared",
    "SpatialDyn.C130_same_call_violated",
    "SpatialDyn.C130_inverseDynamics_violated",
    "SpatialDyn.C130_forwardDynamics_violated",
    "SpatialDyn.C130_externalTorques_violated",
    "SpatialDyn.C130_jacobian_violated",
    "SpatialDyn.C130_setter_violated",
    "SpatialDyn.C130_first_time_violated",
    "SpatialDyn.C130_swapped_violated"
   ],
   "note": "C130_alone links the programs of member accesses to the model of the calls, C130_shared is the positive statement for all interleavings. The C130_*_violated theorems show which const queries race; C130_swapped_violated is an interleaving in which both threads get the Jacobian one of them asked for. A member (an array, a matrix, a flag) is one memory location; calls not spelled out access by access read and write every member."
  },
  {
   "property": "C131",
   "status": "partial",
   "theorems": [
    "SpatialDyn.C131_pose",
    "SpatialDyn.C131_legal",
    "SpatialDyn.C131_rigid_iff",
    "SpatialDyn.C131_sign",
    "SpatialDyn.C131_shape_violated",
    "SpatialDyn.C131_defined",
    "SpatialDyn.C131_orientation",
    "SpatialDyn.C131_orientation_q",
    "SpatialDyn.C131_round_trip",
    "SpatialDyn.C131_continuous_violated",
    "SpatialDyn.C131_near",
    "SpatialDyn.C131_controllers"
   ],
   "note": "Eigen's conversions are external and written out from its source; unit quaternions are compared with Mathlib's quaternions. C131_rigid_iff says exactly which quaternions give rigid poses; C131_shape_violated and C131_continuous_violated are the two failures, for every reachable body. C131_controllers: the assumptions of the controller theorems on quaternions hold of Eigen's."
  },
  {
   "property": "C132",
   "status": "partial",
   "theorems": [
    "SpatialDyn.C132_follows_partial",
    "SpatialDyn.C132_exists_partial",
    "SpatialDyn.C132_violated"
   ],
   "note": "The claim fails: C132_violated, for every body with a joint that accelerates, and one bound c for all tolerances. C132_follows_partial says what is computed instead (the motion with 2/3 of the accelerations, to first order) and C132_exists_partial that this motion exists for a while. C113 is the positive result when the tolerance is small compared with the step."
  },
  {
   "property": "C133",
   "status": "proved",
   "theorems": [
    "SpatialDyn.C133_pose",
    "SpatialDyn.C133_jacobian",
    "SpatialDyn.C133_inertia",
    "SpatialDyn.C133_torques",
    "SpatialDyn.C133_inverse_dynamics",
    "SpatialDyn.C133_forward_dynamics",
    "SpatialDyn.C133_urdf"
   ],
   "note": "Welds says when one body is another with links merged, from masses (with loads), joints, parents and poses; C133_urdf shows that the two ways of loading a description give such a pair, links matched by name. ForwardDynamics of the unmerged robot divides by a singular inertia (C103_violated), so that forward dynamics is compared through InverseDynamics."
  },
  {
   "property": "C134",
   "status": "proved",
   "theorems": [
    "SpatialDyn.C134_pose",
    "SpatialDyn.C134_jacobian",
    "SpatialDyn.C134_inertia",
    "SpatialDyn.C134_torques",
    "SpatialDyn.C134_inverse_dynamics",
    "SpatialDyn.C134_forward_dynamics",
    "SpatialDyn.C134_forward_dynamics_aba",
    "SpatialDyn.C134_simulation",
    "SpatialDyn.C134_motion"
   ],
   "note": "Similarity and Similar say when one body is the image of another, from link poses, joint types, total inertias and states. Simulation and motion without friction and joint limits (friction coefficients and limits are not lengths); InverseDynamics and ForwardDynamics with friction for mirror images."
  },
  {
   "property": "C135",
   "status": "proved",
   "theorems": [
    "SpatialDyn.C135_answers",
    "SpatialDyn.C135_opspace",
    "SpatialDyn.C135_simulation"
   ],
   "note": "FullTurns is stated from joint types and position lists alone. Simulation without joint limits (limits break the symmetry, as they should). The orientation-error and quaternion queries of the opspace controllers are not covered."
  },
  {
   "property": "C136",
   "status": "proved",
   "theorems": [
    "SpatialDyn.C136_reach",
    "SpatialDyn.C136_lever"
   ],
   "note": "Distances are Euclidean lengths in world coordinates. A witness robot meets the bound with equality."
  },
  {
   "property": "C137",
   "status": "proved",
   "theorems": [
    "SpatialDyn.C137_terms",
    "SpatialDyn.C137_regressor",
    "SpatialDyn.C137_same"
   ],
   "note": "SameGeometry compares links, joints, state, gravity and base and leaves inertias, loads and friction coefficients free. The parameters of a link are the sums over the link and its load. Friction off (stiction is not linear in its coefficient)."
  },
  {
   "property": "C138",
   "status": "proved",
   "theorems": [
    "SpatialDyn.C138_pose",
    "SpatialDyn.C138_position",
    "SpatialDyn.C138_position_q",
    "SpatialDyn.C138_small",
    "SpatialDyn.C138_operations",
    "SpatialDyn.C138_digits",
    "SpatialDyn.C138_double",
    "SpatialDyn.C138_agree",
    "SpatialDyn.C138_exact",
    "SpatialDyn.C138_orthonormal"
   ],
   "note": "The model of C17 with every operation replaced by one of an arbitrary arithmetic (Arith); exact arithmetic gives the exact functions (C138_exact). Overflow is left out, underflow of products is in the bound (l). The stored transforms of the links and the base are taken to be exact rotations. C138_digits instantiates the arithmetic with rounding to n binary digits."
  },
  {
   "property": "C139",
   "status": "proved",
   "theorems": [
    "SpatialDyn.C139_rests",
    "SpatialDyn.C139_only",
    "SpatialDyn.C139_stable",
    "SpatialDyn.C139_simulation",
    "SpatialDyn.C139_minimum"
   ],
   "note": "Friction and joint limits off; with aba the base must not turn the gravity vector (C30). C139_only speaks of all steps up to some length, because a single long step of kHeuns or kRk4 could return to its start by accident."
  },
  {
   "property": "C140",
   "status": "partial",
   "theorems": [
    "SpatialDyn.C140_rate",
    "SpatialDyn.C140_loss_partial",
    "SpatialDyn.C140_no_gain_partial",
    "SpatialDyn.C140_violated",
    "SpatialDyn.C140_stable_partial",
    "SpatialDyn.C140_violated_witness"
   ],
   "note": "Joint limits and aba off. The partial theorems ask that a joint with stiction also has Coulomb friction; without that the claim is false (C140_violated, for all sliding robots; C140_violated_witness gains 19.62 J each second). MovesOn follows a motion by right derivatives, since friction is discontinuous; that such motions exist for all starts is not claimed."
  },
  {
   "property": "C141",
   "status": "proved",
   "theorems": [
    "SpatialDyn.C141_link",
    "SpatialDyn.C141_link_repr",
    "SpatialDyn.C141_joint",
    "SpatialDyn.C141_joint_repr",
    "SpatialDyn.C141_repr",
    "SpatialDyn.C141_lines",
    "SpatialDyn.C141_state",
    "SpatialDyn.C141_structure",
    "SpatialDyn.C141_line_breaks"
   ],
   "note": "The text of a double is a parameter (it depends on precision, flags and locale of the stream). repr of an inertia is left out: it uses an external encoder."
  },
  {
   "property": "C142",
   "status": "partial",
   "theorems": [
    "SpatialDyn.C142_views",
    "SpatialDyn.C142_from_matrix",
    "SpatialDyn.C142_from_linear",
    "SpatialDyn.C142_act",
    "SpatialDyn.C142_inverse",
    "SpatialDyn.C142_undo_motion_iff",
    "SpatialDyn.C142_undo_force_iff",
    "SpatialDyn.C142_power_iff",
    "SpatialDyn.C142_violated",
    "SpatialDyn.C142_translation"
   ],
   "note": "That inverse() undoes a transform holds exactly under the stated condition (C142_undo_motion_iff, C142_undo_force_iff), which the interface does not enforce (C142_violated). Eigen's constructors and inverse and the sharing of memory by pybind11 are transcribed from the external libraries."
  },
  {
   "property": "C143",
   "status": "proved",
   "theorems": [
    "SpatialDyn.C143_exists",
    "SpatialDyn.C143_unique",
    "SpatialDyn.C143_convergence",
    "SpatialDyn.C143_rest",
    "SpatialDyn.C143_simulation"
   ],
   "note": "Coulomb friction and stiction are excluded (they make the vector field discontinuous; C139 and C140 are about them), joint limits are off, and for the claims about rest every joint must turn, since a sliding joint may fall for ever."
  },
  {
   "property": "C144",
   "status": "proved",
   "theorems": [
    "SpatialDyn.C144_inverse_dynamics",
    "SpatialDyn.C144_torques",
    "SpatialDyn.C144_inertia",
    "SpatialDyn.C144_jacobian",
    "SpatialDyn.C144_forward_dynamics",
    "SpatialDyn.C144_forward_dense",
    "SpatialDyn.C144_integrate",
    "SpatialDyn.C144_motion",
    "SpatialDyn.C144_solve",
    "SpatialDyn.C144_indefinite",
    "SpatialDyn.C144_exact",
    "SpatialDyn.C144_digits",
    "SpatialDyn.C144_enough"
   ],
   "note": "The constants are shown to exist, not computed; overflow is excluded. The algorithms are written again over an arbitrary arithmetic with the order of operations of the loops, without friction, joint limits and caching; within a sum of three or six products any order and fused operations are allowed. Eigen's LDLT (not in /repo) is modelled from its source column by column, with the order of the rows and of the sums left open; C144_indefinite shows that it needs definite matrices."
  },
  {
   "property": "C145",
   "status": "proved",
   "theorems": [
    "SpatialDyn.C145_torques",
    "SpatialDyn.C145_start",
    "SpatialDyn.C145_back",
    "SpatialDyn.C145_back_rounded"
   ],
   "note": "The constants are shown to exist, not computed; they depend on the motion."
  },
  {
   "property": "C146",
   "status": "proved",
   "theorems": [
    "SpatialDyn.C146_feedback",
    "SpatialDyn.C146_feedback_viscous",
    "SpatialDyn.C146_hold",
    "SpatialDyn.C146_reference",
    "SpatialDyn.C146_feedforward",
    "SpatialDyn.C146_pursuit"
   ],
   "note": "Without friction and joint limits, external forces constant. The constants are shown to exist, not computed. The sequence of calls with their own torques (drive) is the specification's own program over the modelled Integrate."
  },
  {
   "property": "C147",
   "status": "proved",
   "theorems": [
    "SpatialDyn.C147_free",
    "SpatialDyn.C147_held",
    "SpatialDyn.C147_exists",
    "SpatialDyn.C147_alone",
    "SpatialDyn.C147_aba",
    "SpatialDyn.C147_push"
   ],
   "note": "Proved in full; C147_exists shows that any set of joints can be held."
  },
  {
   "property": "C148",
   "status": "partial",
   "theorems": [
    "SpatialDyn.C148_violated",
    "SpatialDyn.C148_mouse",
    "SpatialDyn.C148_cycle_partial",
    "SpatialDyn.C148_torques_partial",
    "SpatialDyn.C148_rest_partial"
   ],
   "note": "Violated for every robot and every input (C148_violated): the bindings lack two functions, so no cycle is completed and only zero torques are published. The partial theorems hold for bindings that had them."
  },
  {
   "property": "C149",
   "status": "proved",
   "theorems": [
    "SpatialDyn.C149_inertia",
    "SpatialDyn.C149_gravity",
    "SpatialDyn.C149_external",
    "SpatialDyn.C149_coriolis",
    "SpatialDyn.C149_forward",
    "SpatialDyn.C149_aba",
    "SpatialDyn.C149_inverse",
    "SpatialDyn.C149_slides",
    "SpatialDyn.C149_opspace"
   ],
   "note": ""
  },
  {
   "property": "C150",
   "status": "proved",
   "theorems": [
    "SpatialDyn.C150_speed",
    "SpatialDyn.C150_simulation"
   ],
   "note": ""
  },
  {
   "property": "C151",
   "status": "proved",
   "theorems": [
    "SpatialDyn.C151_terminal",
    "SpatialDyn.C151_simulation"
   ],
   "note": ""
  },
  {
   "property": "C152",
   "status": "proved",
   "theorems": [
    "SpatialDyn.C152_gravity",
    "SpatialDyn.C152_inertia",
    "SpatialDyn.C152_coriolis",
    "SpatialDyn.C152_inverse",
    "SpatialDyn.C152_forward",
    "SpatialDyn.C152_aba",
    "SpatialDyn.C152_slides",
    "SpatialDyn.C152_viscous",
    "SpatialDyn.C152_coulomb",
    "SpatialDyn.C152_pose",
    "SpatialDyn.C152_jacobian"
   ],
   "note": ""
  },
  {
   "property": "C153",
   "status": "proved",
   "theorems": [
    "SpatialDyn.C153_only",
    "SpatialDyn.C153_offset",
    "SpatialDyn.C153_exists",
    "SpatialDyn.C153_unique"
   ],
   "note": ""
  },
  {
   "property": "C154",
   "status": "proved",
   "theorems": [
    "SpatialDyn.C154_viscous",
    "SpatialDyn.C154_simulation",
    "SpatialDyn.C154_viscous_simulation",
    "SpatialDyn.C154_settles",
    "SpatialDyn.C154_reaches",
    "SpatialDyn.C154_motion"
   ],
   "note": ""
  },
  {
   "property": "C155",
   "status": "proved",
   "theorems": [
    "SpatialDyn.C155_reaches",
    "SpatialDyn.C155_motion",
    "SpatialDyn.C155_simulation",
    "SpatialDyn.C155_energy",
    "SpatialDyn.C155_overshoot",
    "SpatialDyn.C155_viscous",
    "SpatialDyn.C155_viscous_motion",
    "SpatialDyn.C155_viscous_energy",
    "SpatialDyn.C155_viscous_overshoot",
    "SpatialDyn.C155_viscous_simulation"
   ],
   "note": ""
  },
  {
   "property": "C156",
   "status": "proved",
   "theorems": [
    "SpatialDyn.C156_follows",
    "SpatialDyn.C156_tracks",
    "SpatialDyn.C156_motion",
    "SpatialDyn.C156_robust",
    "SpatialDyn.C156_stays",
    "SpatialDyn.C156_undamped",
    "SpatialDyn.C156_simulation"
   ],
   "note": ""
  }
 ]
}