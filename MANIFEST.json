{
 "claims": [
  {
   "property": "C01",
   "status": "proved",
   "theorems": [
    "Wiz.C01_rodrigues",
    "Wiz.C01_isometry",
    "Wiz.C01_proper",
    "Wiz.C01_zero",
    "Wiz.C01_compose"
   ],
   "note": ""
  },
  {
   "property": "C02",
   "status": "proved",
   "theorems": [
    "Wiz.C02_round_trip",
    "Wiz.C02_round_trip_float"
   ],
   "note": ""
  },
  {
   "property": "C03",
   "status": "proved",
   "theorems": [
    "Wiz.C03_orth_vect"
   ],
   "note": ""
  },
  {
   "property": "C04",
   "status": "proved",
   "theorems": [
    "Wiz.C04_rotor_disk"
   ],
   "note": ""
  },
  {
   "property": "C05",
   "status": "proved",
   "theorems": [
    "Wiz.C05_last_yaw",
    "Wiz.C05_unit_horizontal"
   ],
   "note": ""
  },
  {
   "property": "C06",
   "status": "proved",
   "theorems": [
    "Wiz.C06_yaw_wind",
    "Wiz.C06_current_wind",
    "Wiz.C06_opposed"
   ],
   "note": ""
  },
  {
   "property": "C07",
   "status": "partial",
   "theorems": [
    "Wiz.C07_yaw_error_partial",
    "Wiz.C07_opposed_refuted"
   ],
   "note": "C07_yaw_error_partial covers every horizontal wind not exactly opposed to the shaft; C07_opposed_refuted shows that for opposed wind the code returns 0."
  },
  {
   "property": "C08",
   "status": "proved",
   "theorems": [
    "Wiz.C08_wake_follows_wind",
    "Wiz.C08_slope"
   ],
   "note": ""
  },
  {
   "property": "C09",
   "status": "partial",
   "theorems": [
    "Wiz.C09_only_chi_partial",
    "Wiz.C09_set_chi_partial",
    "Wiz.C09_fresh_partial",
    "Wiz.C09_latched",
    "Wiz.C09_refuted"
   ],
   "note": "The property is false of the code: C09_refuted is a history on which chi stays latched. The _partial theorems give the histories on which it holds (set_chi used, or no evaluation before), C09_latched that chi changes only through set_chi."
  },
  {
   "property": "C10",
   "status": "proved",
   "theorems": [
    "Wiz.C10_refuses",
    "Wiz.C10_accepts"
   ],
   "note": ""
  },
  {
   "property": "C11",
   "status": "proved",
   "theorems": [
    "Wiz.C11_only_ind",
    "Wiz.C11_length"
   ],
   "note": ""
  },
  {
   "property": "C12",
   "status": "proved",
   "theorems": [
    "Wiz.C12_translation"
   ],
   "note": ""
  },
  {
   "property": "C13",
   "status": "proved",
   "theorems": [
    "Wiz.C13_rotation"
   ],
   "note": ""
  },
  {
   "property": "C14",
   "status": "proved",
   "theorems": [
    "Wiz.C14_no_wake"
   ],
   "note": ""
  },
  {
   "property": "C15",
   "status": "proved",
   "theorems": [
    "Wiz.C15_no_penetration",
    "Wiz.C15_doubling"
   ],
   "note": ""
  },
  {
   "property": "C16",
   "status": "proved",
   "theorems": [
    "Wiz.C16_single",
    "Wiz.C16_multi",
    "Wiz.C16_field_multi_all",
    "Wiz.C16_field",
    "Wiz.C16_field_multi"
   ],
   "note": ""
  },
  {
   "property": "C17",
   "status": "proved",
   "theorems": [
    "Wiz.C17_one_cylinder",
    "Wiz.C17_nan_refuted"
   ],
   "note": "The statement excludes nan strengths; C17_nan_refuted shows the exclusion is necessary."
  },
  {
   "property": "C18",
   "status": "proved",
   "theorems": [
    "Wiz.C18_sum",
    "Wiz.C18_succeeds_iff",
    "Wiz.C18_empty",
    "Wiz.C18_repeatable"
   ],
   "note": ""
  },
  {
   "property": "C19",
   "status": "proved",
   "theorems": [
    "Wiz.C19_order"
   ],
   "note": ""
  },
  {
   "property": "C20",
   "status": "proved",
   "theorems": [
    "Wiz.C20_appends",
    "Wiz.C20_constructor_unchecked",
    "Wiz.C20_history",
    "Wiz.C20_only_turbines",
    "Wiz.C20_extend_unchecked"
   ],
   "note": ""
  },
  {
   "property": "C21",
   "status": "proved",
   "theorems": [
    "Wiz.C21_set",
    "Wiz.C21_round_trip",
    "Wiz.C21_atomic",
    "Wiz.C21_get_copies",
    "Wiz.C21_set_aliases",
    "Wiz.C21_position_aliases"
   ],
   "note": ""
  },
  {
   "property": "C22",
   "status": "proved",
   "theorems": [
    "Wiz.C22_positions",
    "Wiz.C22_distinct",
    "Wiz.C22_none"
   ],
   "note": ""
  },
  {
   "property": "C23",
   "status": "proved",
   "theorems": [
    "Wiz.C23_mirror_is_ground",
    "Wiz.C23_impermeable",
    "Wiz.C23_overloaded"
   ],
   "note": ""
  },
  {
   "property": "C24",
   "status": "proved",
   "theorems": [
    "Wiz.C24_shape",
    "Wiz.C24_no_tip"
   ],
   "note": ""
  },
  {
   "property": "C25",
   "status": "proved",
   "theorems": [
    "Wiz.C25_axial",
    "Wiz.C25_tangential",
    "Wiz.C25_overload"
   ],
   "note": ""
  },
  {
   "property": "C26",
   "status": "proved",
   "theorems": [
    "Wiz.C26_unique_root",
    "Wiz.C26_unimodal",
    "Wiz.C26_residual_bound",
    "Wiz.C26_reproduces",
    "Wiz.C26_no_swirl"
   ],
   "note": ""
  },
  {
   "property": "C27",
   "status": "proved",
   "theorems": [
    "Wiz.C27_effective_thrust",
    "Wiz.C27_without_correction",
    "Wiz.C27_default_cylinders",
    "Wiz.C27_rejects"
   ],
   "note": ""
  },
  {
   "property": "C28",
   "status": "proved",
   "theorems": [
    "Wiz.C28_recursion",
    "Wiz.C28_telescoped"
   ],
   "note": ""
  },
  {
   "property": "C29",
   "status": "proved",
   "theorems": [
    "Wiz.C29_continuous_solver",
    "Wiz.C29_monotone_continuous",
    "Wiz.C29_differentiable"
   ],
   "note": ""
  },
  {
   "property": "C30",
   "status": "proved",
   "theorems": [
    "Wiz.C30_discrete",
    "Wiz.C30_continuous"
   ],
   "note": ""
  },
  {
   "property": "C31",
   "status": "partial",
   "theorems": [
    "Wiz.C31_switch",
    "Wiz.C31_infinite_partial",
    "Wiz.C31_refuted"
   ],
   "note": "Holds for R>=U0/40 (C31_infinite_partial); C31_refuted is a small rotor where Omega=800 triggers the swirl branch."
  },
  {
   "property": "C32",
   "status": "partial",
   "theorems": [
    "Wiz.C32_contents_interfaces",
    "Wiz.C32_contents_inductions",
    "Wiz.C32_contents_continuous",
    "Wiz.C32_discrete",
    "Wiz.C32_interfaces",
    "Wiz.C32_continuous_partial",
    "Wiz.C32_refuted",
    "Wiz.C32_contents"
   ],
   "note": "C32_continuous_partial holds when the first radius is not 0; C32_refuted shows the caller's array overwritten otherwise. C32_contents_* prove that the heap-level solvers return what the value-level model returns."
  },
  {
   "property": "C33",
   "status": "proved",
   "theorems": [
    "Wiz.C33_agree"
   ],
   "note": ""
  },
  {
   "property": "C34",
   "status": "proved",
   "theorems": [
    "Wiz.C34_update_loading",
    "Wiz.C34_single"
   ],
   "note": ""
  },
  {
   "property": "C35",
   "status": "partial",
   "theorems": [
    "Wiz.C35_units_swirl",
    "Wiz.C35_no_swirl_refuted",
    "Wiz.C35_lengths_no_swirl_partial"
   ],
   "note": "With swirl proved; without swirl the velocity scale enters squared in the wrong place (C35_no_swirl_refuted), only a change of the length unit alone is consistent (C35_lengths_no_swirl_partial)."
  },
  {
   "property": "C36",
   "status": "proved",
   "theorems": [
    "Wiz.C36_spread_thrust",
    "Wiz.C36_spread_circulation",
    "Wiz.C36_spread_rejects",
    "Wiz.C36_strengths",
    "Wiz.C36_atomic",
    "Wiz.C36_rejects",
    "Wiz.C36_records"
   ],
   "note": ""
  },
  {
   "property": "C37",
   "status": "proved",
   "theorems": [
    "Wiz.C37_stopping",
    "Wiz.C37_shared_schedule",
    "Wiz.C37_length"
   ],
   "note": ""
  },
  {
   "property": "C38",
   "status": "proved",
   "theorems": [
    "Wiz.C38_finite",
    "Wiz.C38_n_zero"
   ],
   "note": ""
  },
  {
   "property": "C39",
   "status": "proved",
   "theorems": [
    "Wiz.C39_rc_deviation",
    "Wiz.C39_rj_deviation",
    "Wiz.C39_rf_step",
    "Wiz.C39_rj_step",
    "Wiz.C39_rc_step",
    "Wiz.C39_rf_deviation"
   ],
   "note": ""
  },
  {
   "property": "C40",
   "status": "proved",
   "theorems": [
    "Wiz.C40_finite"
   ],
   "note": ""
  },
  {
   "property": "C41",
   "status": "proved",
   "theorems": [
    "Wiz.C41_linear",
    "Wiz.C41_cancel"
   ],
   "note": ""
  },
  {
   "property": "C42",
   "status": "proved",
   "theorems": [
    "Wiz.C42_polar",
    "Wiz.C42_direction",
    "Wiz.C42_rotation",
    "Wiz.C42_mirror"
   ],
   "note": ""
  },
  {
   "property": "C43",
   "status": "proved",
   "theorems": [
    "Wiz.C43_rotor_plane"
   ],
   "note": ""
  },
  {
   "property": "C44",
   "status": "proved",
   "theorems": [
    "Wiz.C44_two_halves"
   ],
   "note": ""
  },
  {
   "property": "C45",
   "status": "proved",
   "theorems": [
    "Wiz.C45_difference_raw",
    "Wiz.C45_difference"
   ],
   "note": ""
  },
  {
   "property": "C46",
   "status": "proved",
   "theorems": [
    "Wiz.C46_scale"
   ],
   "note": ""
  },
  {
   "property": "C47",
   "status": "proved",
   "theorems": [
    "Wiz.C47_biot_savart",
    "Wiz.C47_batch"
   ],
   "note": ""
  },
  {
   "property": "C48",
   "status": "proved",
   "theorems": [
    "Wiz.C48_ring_superposition",
    "Wiz.C48_profile"
   ],
   "note": ""
  },
  {
   "property": "C49",
   "status": "proved",
   "theorems": [
    "Wiz.C49_inside",
    "Wiz.C49_inside_pointwise",
    "Wiz.C49_outside",
    "Wiz.C49_upstream_error"
   ],
   "note": ""
  },
  {
   "property": "C50",
   "status": "proved",
   "theorems": [
    "Wiz.C50_tang_sum",
    "Wiz.C50_longi_sum",
    "Wiz.C50_zero_strength",
    "Wiz.C50_order_groups",
    "Wiz.C50_order_cyls"
   ],
   "note": ""
  },
  {
   "property": "C51",
   "status": "proved",
   "theorems": [
    "Wiz.C51_formulations_agree",
    "Wiz.C51_regular_branches"
   ],
   "note": ""
  },
  {
   "property": "C52",
   "status": "proved",
   "theorems": [
    "Wiz.C52_on_ring",
    "Wiz.C52_biot_savart",
    "Wiz.C52_biot_savart_polar",
    "Wiz.C52_axis",
    "Wiz.C52_finite"
   ],
   "note": ""
  },
  {
   "property": "C53",
   "status": "partial",
   "theorems": [
    "Wiz.C53_superposition",
    "Wiz.C53_full_sum",
    "Wiz.C53_order",
    "Wiz.C53_coaxial_polar",
    "Wiz.C53_polar_refuted"
   ],
   "note": "Cartesian output and coaxial polar output proved; C53_polar_refuted shows two non-coaxial rings whose polar sum is not the polar form of the field."
  },
  {
   "property": "C54",
   "status": "partial",
   "theorems": [
    "Wiz.C54_core_value",
    "Wiz.C54_linear_core",
    "Wiz.C54_scaling_partial",
    "Wiz.C54_linear_refuted",
    "Wiz.C54_unknown_method"
   ],
   "note": "C54_scaling_partial covers the singular and Saffman branches; C54_linear_refuted shows the branch 'linear' not scaling with Gamma; C54_core_value gives the value on the ring. What the linear option returns inside its core is C54_linear_core."
  },
  {
   "property": "C55",
   "status": "proved",
   "theorems": [
    "Wiz.C55_field",
    "Wiz.C55_linear",
    "Wiz.C55_translation",
    "Wiz.C55_even",
    "Wiz.C55_polar"
   ],
   "note": ""
  },
  {
   "property": "C56",
   "status": "proved",
   "theorems": [
    "Wiz.C56_improper_integrals"
   ],
   "note": ""
  },
  {
   "property": "C57",
   "status": "partial",
   "theorems": [
    "Wiz.C57_finite_partial",
    "Wiz.C57_refuted",
    "Wiz.C57_on_axis",
    "Wiz.C57_limit"
   ],
   "note": "The code's finite-interval primitive for the 5/2 integral has a wrong coefficient (2 instead of 3, VortexDoublet.py:346): C57_refuted is the witness; the other three integrals, the on-axis branch and the limit L->inf are proved."
  },
  {
   "property": "C58",
   "status": "partial",
   "theorems": [
    "Wiz.C58_semi_infinite",
    "Wiz.C58_finite_partial",
    "Wiz.C58_finite_refuted"
   ],
   "note": "Semi-infinite lines proved; finite lines refuted because of the C57 defect; C58_finite_partial covers the part that holds."
  },
  {
   "property": "C59",
   "status": "proved",
   "theorems": [
    "Wiz.C59_point_source",
    "Wiz.C59_polar",
    "Wiz.C59_polar_masks"
   ],
   "note": ""
  },
  {
   "property": "C60",
   "status": "proved",
   "theorems": [
    "Wiz.C60_halfline_biot_savart"
   ],
   "note": ""
  },
  {
   "property": "C61",
   "status": "proved",
   "theorems": [
    "Wiz.C61_straight_agrees",
    "Wiz.C61_polar_agrees"
   ],
   "note": ""
  },
  {
   "property": "C62",
   "status": "proved",
   "theorems": [
    "Wiz.C62_models_1_4_raise",
    "Wiz.C62_other_models",
    "Wiz.C62_cutoff_bounded"
   ],
   "note": ""
  },
  {
   "property": "C63",
   "status": "proved",
   "theorems": [
    "Wiz.C63_tang_polar_agrees"
   ],
   "note": ""
  },
  {
   "property": "C64",
   "status": "partial",
   "theorems": [
    "Wiz.C64_longi_polar_partial",
    "Wiz.C64_longi_polar_refuted"
   ],
   "note": "C64_longi_polar_partial gives what does hold (the axial component, the Cartesian route, and the polar output where u_psi happens to agree); C64_longi_polar_refuted is the witness that the polar output returns u_r in place of u_psi."
  },
  {
   "property": "C65",
   "status": "proved",
   "theorems": [
    "Wiz.C65_cartesian",
    "Wiz.C65_tang_exact_lines",
    "Wiz.C65_longi_exact_lines",
    "Wiz.C65_converges"
   ],
   "note": ""
  },
  {
   "property": "C66",
   "status": "proved",
   "theorems": [
    "Wiz.C66_rotor_centre"
   ],
   "note": ""
  },
  {
   "property": "C67",
   "status": "proved",
   "theorems": [
    "Wiz.C67_horizontal",
    "Wiz.C67_root_biot_savart",
    "Wiz.C67_batch_dependence",
    "Wiz.C67_empty"
   ],
   "note": "C67_batch_dependence and C67_empty show the two cases in which the polar root routine depends on the whole batch."
  },
  {
   "property": "C68",
   "status": "partial",
   "theorems": [
    "Wiz.C68_tang_sum",
    "Wiz.C68_longi_partial",
    "Wiz.C68_longi_refuted",
    "Wiz.C68_straight_longi_refuted"
   ],
   "note": "The tangential case is proved for every list of cylinders; svcs_longi_u places the mirror cylinder at (-)Ycp0 in the vertical slot and vcs_longi_u ignores the ground flag: C68_longi_refuted / C68_straight_longi_refuted are the witnesses, C68_longi_partial is what does hold."
  },
  {
   "property": "C69",
   "status": "proved",
   "theorems": [
    "Wiz.C69_skew_isometry",
    "Wiz.C69_polar_isometry"
   ],
   "note": ""
  },
  {
   "property": "C70",
   "status": "proved",
   "theorems": [
    "Wiz.C70_superposition",
    "Wiz.C70_order",
    "Wiz.C70_single",
    "Wiz.C70_zero_core"
   ],
   "note": ""
  },
  {
   "property": "C71",
   "status": "proved",
   "theorems": [
    "Wiz.C71_impulse"
   ],
   "note": ""
  },
  {
   "property": "C72",
   "status": "proved",
   "theorems": [
    "Wiz.C72_rejection"
   ],
   "note": ""
  },
  {
   "property": "C73",
   "status": "proved",
   "theorems": [
    "Wiz.C73_zero_downstream",
    "Wiz.C73_sign_bound",
    "Wiz.C73_axis",
    "Wiz.C73_radial_decay",
    "Wiz.C73_linear",
    "Wiz.C73_default"
   ],
   "note": ""
  },
  {
   "property": "C74",
   "status": "proved",
   "theorems": [
    "Wiz.C74_other_files",
    "Wiz.C74_roundtrip",
    "Wiz.C74_tuple",
    "Wiz.C74_crash",
    "Wiz.C74_directory",
    "Wiz.C74_slashes",
    "Wiz.C74_same_place"
   ],
   "note": ""
  },
  {
   "property": "C75",
   "status": "proved",
   "theorems": [
    "Wiz.C75_too_few",
    "Wiz.C75_sum",
    "Wiz.C75_polar",
    "Wiz.C75_converges",
    "Wiz.C75_long_line"
   ],
   "note": ""
  },
  {
   "property": "C76",
   "status": "partial",
   "theorems": [
    "Wiz.C76_pass_invariant",
    "Wiz.C76_rj_pass_invariant",
    "Wiz.C76_rf_accuracy",
    "Wiz.C76_rc_accuracy",
    "Wiz.C76_rj_accuracy",
    "Wiz.C76_first_kind",
    "Wiz.C76_rate",
    "Wiz.C76_converges",
    "Wiz.C76_premature_stop_refuted"
   ],
   "note": "The recursion converges to Pi(n,m) with an explicit rate (C76_converges, C76_rate, C76_*_accuracy); the routine itself stops on a successive-difference test, and C76_premature_stop_refuted exhibits m in (0,1) for which it returns a value wrong by at least 0.05. C119 bounds what this can do to the velocity of a cylinder: at most 3% of its strength."
  },
  {
   "property": "C77",
   "status": "proved",
   "theorems": [
    "Wiz.C77_accuracy",
    "Wiz.C77_polar_accuracy",
    "Wiz.C77_multi",
    "Wiz.C77_biot_savart",
    "Wiz.C77_disk_plane"
   ],
   "note": "C77_biot_savart: exact difference; C77_accuracy, C77_polar_accuracy: its bound for every batch; C77_multi: vcs_longi_u."
  },
  {
   "property": "C78",
   "status": "proved",
   "theorems": [
    "Wiz.C78_fields",
    "Wiz.C78_converges"
   ],
   "note": ""
  },
  {
   "property": "C79",
   "status": "proved",
   "theorems": [
    "Wiz.C79_scaling",
    "Wiz.C79_linear"
   ],
   "note": ""
  },
  {
   "property": "C80",
   "status": "proved",
   "theorems": [
    "Wiz.C80_skew_reversal",
    "Wiz.C80_lateral_symmetry",
    "Wiz.C80_exact"
   ],
   "note": ""
  },
  {
   "property": "C81",
   "status": "proved",
   "theorems": [
    "Wiz.C81_rotor_plane",
    "Wiz.C81_axis",
    "Wiz.C81_momentum"
   ],
   "note": ""
  },
  {
   "property": "C82",
   "status": "proved",
   "theorems": [
    "Wiz.C82_finite",
    "Wiz.C82_upstream",
    "Wiz.C82_radial",
    "Wiz.C82_rotor_plane",
    "Wiz.C82_limit"
   ],
   "note": ""
  },
  {
   "property": "C83",
   "status": "proved",
   "theorems": [
    "Wiz.C83_legacy_outputs",
    "Wiz.C83_legacy_root"
   ],
   "note": ""
  },
  {
   "property": "C84",
   "status": "partial",
   "theorems": [
    "Wiz.C84_complete_wake",
    "Wiz.C84_polar_flag_ignored",
    "Wiz.C84_polar_out_refuted"
   ],
   "note": "The Cartesian sum is proved (C84_complete_wake); polar_out is ignored by the code (C84_polar_flag_ignored), C84_polar_out_refuted is the witness."
  },
  {
   "property": "C85",
   "status": "proved",
   "theorems": [
    "Wiz.C85_ellipse_is_vortex_sheet",
    "Wiz.C85_cylinder_is_biot_savart",
    "Wiz.C85_no_axial",
    "Wiz.C85_far_wake",
    "Wiz.C85_vortex_points",
    "Wiz.C85_ellipse_converges"
   ],
   "note": ""
  },
  {
   "property": "C86",
   "status": "partial",
   "theorems": [
    "Wiz.C86_rotor_plane",
    "Wiz.C86_closed_form",
    "Wiz.C86_quadratures",
    "Wiz.C86_quadrature_xi",
    "Wiz.C86_amplitudes",
    "Wiz.C86_outputs",
    "Wiz.C86_xi_no_skew",
    "Wiz.C86_xi_skew_refuted",
    "Wiz.C86_xi_inconsistent",
    "Wiz.C86_rim_nan",
    "Wiz.C86_shipped_partial",
    "Wiz.C86_shipped_refuted"
   ],
   "note": "Closed form of fKzt proved equal to K_z with exact elliptic integrals (C86_closed_form). As shipped it is false: C86_shipped_refuted gives a radius at which, for arbitrarily small skew, the returned number is off by any amount (the early stop of C76, divided by the skew); C86_shipped_partial bounds the error by 0.06 plus an explicit factor times the error of one of the two elliptic integrals. Quadratures and meaning proved; C86_xi_skew_refuted shows the closed form of fKxit is wrong with skew."
  },
  {
   "property": "C87",
   "status": "partial",
   "theorems": [
    "Wiz.C87_skewed_cylinder",
    "Wiz.C87_half_line",
    "Wiz.C87_point_vortices",
    "Wiz.C87_self_similar_refuted",
    "Wiz.C87_ring_axis_refuted",
    "Wiz.C87_turbine_skewed",
    "Wiz.C87_farm",
    "Wiz.C87_straight_refuted"
   ],
   "note": "Proved for skewed cylinders at every quadrature size, half-lines, point vortices, turbines with skewed wakes, farms. C87_self_similar_refuted, C87_ring_axis_refuted and C87_straight_refuted show the three places where the code does not conserve mass. For the straight vc_tang_u the cause is the early stop of the Carlson recursion (premature_pi: the returned Pi is off by at least 1/100 for some n,m); the exact counterpart conserves mass (C88_cylinder) and the error is at most 3% of the strength (C119)."
  },
  {
   "property": "C88",
   "status": "proved",
   "theorems": [
    "Wiz.C88_cylinder",
    "Wiz.C88_ring",
    "Wiz.C88_doublet",
    "Wiz.C88_doublet_line",
    "Wiz.C88_turbine_doublet"
   ],
   "note": "For the cylinders the theorem is about the exact field which the routines evaluate (C47, C78) or converge to (C65)."
  },
  {
   "property": "C89",
   "status": "proved",
   "theorems": [
    "Wiz.C89_find_nearest",
    "Wiz.C89_center",
    "Wiz.C89_axial",
    "Wiz.C89_radial"
   ],
   "note": ""
  },
  {
   "property": "C90",
   "status": "partial",
   "theorems": [
    "Wiz.C90_doublet_free_stream",
    "Wiz.C90_setup",
    "Wiz.C90_doublet_refuted",
    "Wiz.C90_match",
    "Wiz.C90_override",
    "Wiz.C90_match_models"
   ],
   "note": "Proved for the cylinder model (also yawed and with ground effect) and for the self-similar and far-field models unyawed; refuted for the doublet model, whose centre value is the free stream."
  },
  {
   "property": "C91",
   "status": "proved",
   "theorems": [
    "Wiz.C91_sampling",
    "Wiz.C91_height",
    "Wiz.C91_straight"
   ],
   "note": "C91_straight records that CT>1 makes the skew angle undefined, so the yaw of the wake is silently ignored."
  },
  {
   "property": "C92",
   "status": "proved",
   "theorems": [
    "Wiz.C92_floris",
    "Wiz.C92_empty",
    "Wiz.C92_field"
   ],
   "note": ""
  },
  {
   "property": "C93",
   "status": "proved",
   "theorems": [
    "Wiz.C93_ad_farm",
    "Wiz.C93_missing"
   ],
   "note": ""
  },
  {
   "property": "C94",
   "status": "proved",
   "theorems": [
    "Wiz.C94_mean",
    "Wiz.C94_point",
    "Wiz.C94_bound",
    "Wiz.C94_scaled"
   ],
   "note": ""
  },
  {
   "property": "C95",
   "status": "partial",
   "theorems": [
    "Wiz.C95_fit",
    "Wiz.C95_array",
    "Wiz.C95_disk",
    "Wiz.C95_wind_speed_refuted"
   ],
   "note": "C95_wind_speed_refuted: the function is documented as gamma_t/U0 but update_loading stores it without multiplying by the wind speed."
  },
  {
   "property": "C96",
   "status": "proved",
   "theorems": [
    "Wiz.C96_value",
    "Wiz.C96_bounds",
    "Wiz.C96_units",
    "Wiz.C96_profile"
   ],
   "note": ""
  },
  {
   "property": "C97",
   "status": "partial",
   "theorems": [
    "Wiz.C97_fields",
    "Wiz.C97_months",
    "Wiz.C97_length_partial",
    "Wiz.C97_length_refuted"
   ],
   "note": "C97_fields and C97_months give the written value; C97_length_partial the length below one year; C97_length_refuted: two years are written '2.0y', four characters."
  },
  {
   "property": "C98",
   "status": "proved",
   "theorems": [
    "Wiz.C98_rows",
    "Wiz.C98_too_many",
    "Wiz.C98_valid",
    "Wiz.C98_white"
   ],
   "note": ""
  },
  {
   "property": "C99",
   "status": "proved",
   "theorems": [
    "Wiz.C99_converges",
    "Wiz.C99_agree",
    "Wiz.C99_straight",
    "Wiz.C99_cutoff"
   ],
   "note": ""
  },
  {
   "property": "C100",
   "status": "proved",
   "theorems": [
    "Wiz.C100_along_wake",
    "Wiz.C100_opposite",
    "Wiz.C100_diameter",
    "Wiz.C100_far_wake"
   ],
   "note": ""
  },
  {
   "property": "C101",
   "status": "proved",
   "theorems": [
    "Wiz.C101_ring",
    "Wiz.C101_cylinder",
    "Wiz.C101_cylinder_cutoff"
   ],
   "note": ""
  },
  {
   "property": "C102",
   "status": "proved",
   "theorems": [
    "Wiz.C102_ring_doublet"
   ],
   "note": ""
  },
  {
   "property": "C103",
   "status": "proved",
   "theorems": [
    "Wiz.C103_skewed",
    "Wiz.C103_straight",
    "Wiz.C103_inside_wake",
    "Wiz.C103_rim",
    "Wiz.C103_axis"
   ],
   "note": ""
  },
  {
   "property": "C104",
   "status": "partial",
   "theorems": [
    "Wiz.C104_swirl",
    "Wiz.C104_no_swirl",
    "Wiz.C104_consistency_refuted"
   ],
   "note": "C104_swirl and C104_no_swirl prove the formulas for every array; C104_consistency_refuted shows that the returned cylinders do not induce the reported induction (pitch uses 1-2a)."
  },
  {
   "property": "C105",
   "status": "proved",
   "theorems": [
    "Wiz.C105_longitudinal",
    "Wiz.C105_line",
    "Wiz.C105_ring",
    "Wiz.C105_finite"
   ],
   "note": ""
  },
  {
   "property": "C106",
   "status": "proved",
   "theorems": [
    "Wiz.C106_rim",
    "Wiz.C106_far",
    "Wiz.C106_axis"
   ],
   "note": ""
  },
  {
   "property": "C107",
   "status": "proved",
   "theorems": [
    "Wiz.C107_converges",
    "Wiz.C107_error"
   ],
   "note": ""
  },
  {
   "property": "C108",
   "status": "partial",
   "theorems": [
    "Wiz.C108_no_swirl_partial",
    "Wiz.C108_swirl",
    "Wiz.C108_swirl_refuted"
   ],
   "note": "C108_no_swirl_partial proves the identity without swirl below the high-thrust limit; C108_swirl gives the exact relation with swirl; C108_swirl_refuted is a one-cylinder counterexample to the identity."
  },
  {
   "property": "C109",
   "status": "proved",
   "theorems": [
    "Wiz.C109_torque",
    "Wiz.C109_applies",
    "Wiz.C109_ignores_swirl_switch"
   ],
   "note": ""
  },
  {
   "property": "C110",
   "status": "proved",
   "theorems": [
    "Wiz.C110_property",
    "Wiz.C110_modulus_zero"
   ],
   "note": ""
  },
  {
   "property": "C111",
   "status": "proved",
   "theorems": [
    "Wiz.C111_solid_angle",
    "Wiz.C111_batch",
    "Wiz.C111_axis",
    "Wiz.C111_monotone",
    "Wiz.C111_expansion",
    "Wiz.C111_turbine"
   ],
   "note": ""
  },
  {
   "property": "C112",
   "status": "proved",
   "theorems": [
    "Wiz.C112_round_trip",
    "Wiz.C112_turbine",
    "Wiz.C112_free_stream",
    "Wiz.C112_root",
    "Wiz.C112_superposition",
    "Wiz.C112_projection",
    "Wiz.C112_clip",
    "Wiz.C112_rings",
    "Wiz.C112_scripts_agree"
   ],
   "note": ""
  },
  {
   "property": "C113",
   "status": "partial",
   "theorems": [
    "Wiz.C113_shape",
    "Wiz.C113_slope",
    "Wiz.C113_slope_partial",
    "Wiz.C113_slope_refuted"
   ],
   "note": "Shape, limit and slope of the circulation proved; proportionality of the strengths is false (C113_slope_refuted: cos(rh/tau) is used instead of cos(pi rh) and a factor pi is missing), true only at hub and tip (C113_slope_partial)."
  },
  {
   "property": "C114",
   "status": "proved",
   "theorems": [
    "Wiz.C114_tang",
    "Wiz.C114_longi",
    "Wiz.C114_turbine",
    "Wiz.C114_upstream",
    "Wiz.C114_hub"
   ],
   "note": ""
  },
  {
   "property": "C115",
   "status": "proved",
   "theorems": [
    "Wiz.C115_farm",
    "Wiz.C115_reference",
    "Wiz.C115_spacing",
    "Wiz.C115_ground"
   ],
   "note": "C115_farm for any batch and grid; C115_reference, C115_spacing and C115_ground for the numbers plotted by the two article scripts. The truncation of ellipticPiCarlson is kept as an explicit error term per rotor."
  },
  {
   "property": "C116",
   "status": "partial",
   "theorems": [
    "Wiz.C116_available",
    "Wiz.C116_types",
    "Wiz.C116_same_files_partial",
    "Wiz.C116_exact_ct_refuted",
    "Wiz.C116_ground_partial",
    "Wiz.C116_ground_refuted"
   ],
   "note": "False as stated at two points: the recorded CT is the requested one, not that of the file (C116_exact_ct_refuted), and for a hub at exactly 9 radii ground data are compared with a model without ground (C116_ground_refuted). The partial theorems give the claim up to truncation and for every other hub height."
  },
  {
   "property": "C117",
   "status": "partial",
   "theorems": [
    "Wiz.C117_entry",
    "Wiz.C117_mean",
    "Wiz.C117_short_offsets_partial",
    "Wiz.C117_short_offsets_refuted",
    "Wiz.C117_errors",
    "Wiz.C117_centre"
   ],
   "note": "False when there are fewer offsets than angles, even if the offsets are not used: the remaining directions keep error 0 and bias the mean (C117_short_offsets_refuted, C117_short_offsets_partial). Everything else proved in full."
  },
  {
   "property": "C118",
   "status": "proved",
   "theorems": [
    "Wiz.C118_tang_centre",
    "Wiz.C118_longi_centre",
    "Wiz.C118_default",
    "Wiz.C118_hub",
    "Wiz.C118_scale"
   ],
   "note": "Proved in full."
  },
  {
   "property": "C119",
   "status": "proved",
   "theorems": [
    "Wiz.C119_tang",
    "Wiz.C119_batch",
    "Wiz.C119_bounded",
    "Wiz.C119_turbine",
    "Wiz.C119_grid",
    "Wiz.C119_multi",
    "Wiz.C119_turbine_multi",
    "Wiz.C119_turbine_ground"
   ],
   "note": "Proved in full. The points excluded from the accuracy bound are those of the edge cut-off (where the code returns gamma/4) and the radius of the sheet itself, where the velocity jumps; C119_bounded covers them."
  },
  {
   "property": "C120",
   "status": "proved",
   "theorems": [
    "Wiz.C120_jump",
    "Wiz.C120_boundary",
    "Wiz.C120_slip"
   ],
   "note": "Proved in full. C120_jump is about the Biot-Savart integral, C120_boundary ties the value returned on the boundary to it, C120_slip is about returned values."
  },
  {
   "property": "C121",
   "status": "proved",
   "theorems": [
    "Wiz.C121_accuracy",
    "Wiz.C121_finite_iff",
    "Wiz.C121_jump",
    "Wiz.C121_far",
    "Wiz.C121_turbine_nan",
    "Wiz.C121_turbine"
   ],
   "note": "Proved in full; C121_turbine_nan is the turbine-level form of the undefined points (finding 43)."
  },
  {
   "property": "C122",
   "status": "proved",
   "theorems": [
    "Wiz.C122_reachable",
    "Wiz.C122_effects",
    "Wiz.C122_stale_chi",
    "Wiz.C122_gamma_t"
   ],
   "note": "Proved in full. C122_reachable transports every theorem quantified over constructor arguments and histories to histories with set_yaw0_coord and attribute assignments. C122_gamma_t: with longi=True the code raises AttributeError on a never-loaded turbine (gamma_l is not initialised by the constructor)."
  },
  {
   "property": "C123",
   "status": "proved",
   "theorems": [
    "Wiz.C123_rounding",
    "Wiz.C123_farm",
    "Wiz.C123_same_flow",
    "Wiz.C123_key",
    "Wiz.C123_spacing",
    "Wiz.C123_single",
    "Wiz.C123_probe",
    "Wiz.C123_lines"
   ],
   "note": "Key injectivity proved on the printed names (decimal printing modelled, ties to even, exact arithmetic); layouts with signs, blanks or underscores are not modelled; C123_same_flow composes the database, the grid layout, the farm constructors and velocity_field. C123_rounding characterises the rounding of the key (nearest, ties to even)."
  },
  {
   "property": "C124",
   "status": "proved",
   "theorems": [
    "Wiz.C124_normal_form",
    "Wiz.C124_commute",
    "Wiz.C124_stale_wind"
   ],
   "note": "Equality of the whole modelled object. The remembered skew angle itself is the one of C122 (last set, or computed at the first evaluation after)."
  },
  {
   "property": "C125",
   "status": "proved",
   "theorems": [
    "Wiz.C125_mirror",
    "Wiz.C125_yaw_reversal",
    "Wiz.C125_symmetric",
    "Wiz.C125_opposed"
   ],
   "note": "Swirl (longi, root) is excluded: a mirror image reverses the sense of rotation, which the loading determines. C125_opposed shows the exclusion of opposed winds is needed."
  },
  {
   "property": "C126",
   "status": "proved",
   "theorems": [
    "Wiz.C126_rotated",
    "Wiz.C126_mirrored"
   ],
   "note": "In the mirrored statement swirl (longi, root) is excluded, as in C125."
  },
  {
   "property": "C127",
   "status": "partial",
   "theorems": [
    "Wiz.C127_length_unit",
    "Wiz.C127_length_and_speed_units",
    "Wiz.C127_loading",
    "Wiz.C127_doublet_refuted"
   ],
   "note": "Proved for the models VC and SS without root vortex, including infinite and undefined strengths. Refuted for VD (and VCFF, which uses the same routine): the tolerance 1e-8 of doublet_line_u is an absolute length. The unit of time is not immaterial when the solver is used (absolute rotational speeds 800 and 1000, see C31 and C35), hence the gamma_t_Ct hypothesis of the two-unit statement."
  },
  {
   "property": "C128",
   "status": "partial",
   "theorems": [
    "Wiz.C128_linear",
    "Wiz.C128_more_thrust",
    "Wiz.C128_across_limit_refuted"
   ],
   "note": "C128_linear and C128_more_thrust are proved; monotonicity across the high-thrust limit is false (C128_across_limit_refuted), because the swirl correction a'_c is dropped above the limit."
  },
  {
   "property": "C129",
   "status": "proved",
   "theorems": [
    "Wiz.C129_solid_angle",
    "Wiz.C129_field",
    "Wiz.C129_turbine",
    "Wiz.C129_row"
   ],
   "note": "Strict for the Biot-Savart field; for the computed values up to the 3% accuracy of C119, since the third-kind integral is truncated after a batch-dependent number of passes."
  },
  {
   "property": "C130",
   "status": "proved",
   "theorems": [
    "Wiz.C130_units",
    "Wiz.C130_stronger"
   ],
   "note": "Farm counterpart of C127/C128; the doublet models are excluded from C130_units because their tolerances are absolute lengths (C127_doublet_refuted) but not from C130_stronger."
  },
  {
   "property": "C131",
   "status": "proved",
   "theorems": [
    "Wiz.C131_symmetric",
    "Wiz.C131_plane",
    "Wiz.C131_grid"
   ],
   "note": "C131_symmetric from the mirrored-farm simulation (C126 machinery) and the order independence of the sum over turbines; C131_grid directly from the cylinder kernel, in Num (NaN and infinities included)."
  },
  {
   "property": "C132",
   "status": "proved",
   "theorems": [
    "Wiz.C132_farm",
    "Wiz.C132_thrust"
   ],
   "note": "C132_farm composes C119_turbine_ground (strengthened: no hypothesis on gamma_l, empty batches allowed) with C18; C132_thrust discharges every state hypothesis from the constructor arguments."
  },
  {
   "property": "C133",
   "status": "partial",
   "theorems": [
    "Wiz.C133_horizontal",
    "Wiz.C133_vertical",
    "Wiz.C133_axes",
    "Wiz.C133_inplane_refuted"
   ],
   "note": "Coordinates, axial velocity, plane choice, interpolation axes proved; C133_inplane_refuted: fVert returns w in the horizontal plane and v in the vertical one, right only where they coincide."
  },
  {
   "property": "C134",
   "status": "proved",
   "theorems": [
    "Wiz.C134_swirl",
    "Wiz.C134_tip",
    "Wiz.C134_no_swirl"
   ],
   "note": "C134_swirl (uniform bound), C134_tip (strict inequality at the tip), C134_no_swirl (exact agreement)."
  },
  {
   "property": "C135",
   "status": "proved",
   "theorems": [
    "Wiz.C135_farm",
    "Wiz.C135_thrust"
   ],
   "note": "C135_farm (any history, ground or not, general distance), C135_thrust (standard workflow, 3.01%)."
  },
  {
   "property": "C136",
   "status": "proved",
   "theorems": [
    "Wiz.C136_far",
    "Wiz.C136_doublet",
    "Wiz.C136_batch",
    "Wiz.C136_farm",
    "Wiz.C136_thrust"
   ],
   "note": "C136_far (VCFF, relative, per component), C136_doublet (VD), C136_batch (either side of the cut-off), C136_farm (any history), C136_thrust (standard workflow). Inside of the wake beyond the cut-off the models have the wrong sign: C103_inside_wake."
  },
  {
   "property": "C137",
   "status": "proved",
   "theorems": [
    "Wiz.C137_sinks",
    "Wiz.C137_blockage",
    "Wiz.C137_thrust"
   ],
   "note": "C137_sinks (exact, any history), C137_blockage (common shaft direction, upstream), C137_thrust (standard workflow)."
  },
  {
   "property": "C138",
   "status": "proved",
   "theorems": [
    "Wiz.C138_rotor_plane",
    "Wiz.C138_mirror",
    "Wiz.C138_far",
    "Wiz.C138_loading"
   ],
   "note": "C138_rotor_plane, C138_mirror, C138_far for whatever wake is stored (StoredWake), C138_loading from update_loading(Gamma). Ground effect off (the image swirls about another axis)."
  },
  {
   "property": "C139",
   "status": "partial",
   "theorems": [
    "Wiz.C139_one_station_partial",
    "Wiz.C139_upstream_partial",
    "Wiz.C139_upstream_refuted",
    "Wiz.C139_outside_refuted",
    "Wiz.C139_several_stations_partial"
   ],
   "note": "False of the code. C139_upstream_refuted and C139_outside_refuted are concrete turbines. Proved instead: C139_several_stations_partial (exactly zero outside in the rotor plane for n>=2 stations), C139_one_station_partial (the exact residual with one cylinder), C139_upstream_partial (the swirl upstream, within a bound)."
  },
  {
   "property": "C140",
   "status": "proved",
   "theorems": [
    "Wiz.C140_yawed",
    "Wiz.C140_aligned",
    "Wiz.C140_wind",
    "Wiz.C140_loading"
   ],
   "note": "C140_yawed (skewed, any stored chi), C140_wind (chi left to the program: the wake follows the wind), C140_loading (from update_loading of a circulation), C140_aligned (straight wake). Ground off; inside the regularised core of the skewed root vortex nothing is claimed."
  },
  {
   "property": "C141",
   "status": "partial",
   "theorems": [
    "Wiz.C141_yawed_partial",
    "Wiz.C141_root_partial",
    "Wiz.C141_root_refuted",
    "Wiz.C141_stations_partial",
    "Wiz.C141_stations_refuted"
   ],
   "note": "False for root vortices: C141_root_refuted is a concrete turbine, C141_root_partial the exact velocity through the ground for every history. C141_yawed_partial bounds it for the rings of skewed wakes (one cylinder). C141_stations_partial / _refuted (Props/GroundSkew2): several cylinders with root vortex and longitudinal vorticity, exact velocity through the ground in the rotor plane, from the loading, after any history; the longitudinal vorticity has no image (finding 59)."
  },
  {
   "property": "C142",
   "status": "proved",
   "theorems": [
    "Wiz.C142_stations",
    "Wiz.C142_spread"
   ],
   "note": "The minimiser is external: it is only assumed to return a k>=0 with residual at most delta at the stations (C26 shows an exact minimiser on [0,1.8] does this with delta=0 for attainable thrusts)."
  },
  {
   "property": "C143",
   "status": "proved",
   "theorems": [
    "Wiz.C143_circulation",
    "Wiz.C143_profile",
    "Wiz.C143_thrust",
    "Wiz.C143_spread"
   ],
   "note": "Rotor-plane points keep the guard 1e-8 r_j from each cylinder (the kernel's own tolerance). Exact minimiser for C143_thrust: K_i>=0 with zero residual at each station (C26)."
  },
  {
   "property": "C144",
   "status": "proved",
   "theorems": [
    "Wiz.C144_axial",
    "Wiz.C144_spread",
    "Wiz.C144_bounds"
   ],
   "note": "An infinite tip-speed ratio is 800 rad/s in the program (C31), so 20<=800 R/U0 is a hypothesis there. The radicands 1-E_k are assumed non-negative (otherwise the solver returns nan); by C144_bounds this holds when C + U0^2 C^2/(16 pi Omega^3 r_0^2) <= 1."
  },
  {
   "property": "C145",
   "status": "proved",
   "theorems": [
    "Wiz.C145_noswirl",
    "Wiz.C145_swirl"
   ],
   "note": "As in C144 an infinite tip-speed ratio is 800 rad/s in the program. The radicand hypothesis of C145_noswirl is an explicit bound on C; the minimiser hypothesis of C145_swirl says minimize_scalar returns the root (C29)."
  },
  {
   "property": "C146",
   "status": "proved",
   "theorems": [
    "Wiz.C146_rotor",
    "Wiz.C146_wake",
    "Wiz.C146_thrust"
   ],
   "note": "C146_rotor and C146_wake for any intensity, C146_thrust from the thrust coefficient. The quadrature bound is that of C114 at the distance (R-rho)cos(chi) from the wake surface (proved in inside_dist)."
  },
  {
   "property": "C147",
   "status": "proved",
   "theorems": [
    "Wiz.C147_field",
    "Wiz.C147_turbine",
    "Wiz.C147_thrust"
   ],
   "note": "C147_field is about the exact sheet; C147_turbine about the values returned by compute_u for any intensity; C147_thrust from the thrust coefficient. Generalises C111 (aligned rotor) and the rotor-disk part of C146 to all of space."
  },
  {
   "property": "C148",
   "status": "proved",
   "theorems": [
    "Wiz.C148_farm",
    "Wiz.C148_upstream"
   ],
   "note": "C148_farm everywhere, C148_upstream for the blockage region with explicit geometric hypotheses. Extends C115 (aligned grid farm) to yawed turbines of any layout. The independent spec of the angle is Spec/RotorAngle.lean."
  },
  {
   "property": "C149",
   "status": "proved",
   "theorems": [
    "Wiz.C149_spread",
    "Wiz.C149_field",
    "Wiz.C149_turbine",
    "Wiz.C149_thrust"
   ],
   "note": "C149_field (any skew, Biot-Savart), C149_turbine (along the wind, everywhere off the wakes), C149_thrust (from the loading, in the rotor plane); C149_spread: the same for a thrust distribution spread over nCyl=n cylinders."
  },
  {
   "property": "C150",
   "status": "proved",
   "theorems": [
    "Wiz.C150_turbine",
    "Wiz.C150_farm",
    "Wiz.C150_row"
   ],
   "note": "C150_turbine (one turbine, ground, stations), C150_farm (velocity_field of a row), C150_row (from the thrust coefficients)."
  },
  {
   "property": "C151",
   "status": "partial",
   "theorems": [
    "Wiz.C151_limits_partial",
    "Wiz.C151_given_limits",
    "Wiz.C151_limits_refuted",
    "Wiz.C151_values",
    "Wiz.C151_coupling",
    "Wiz.C151_vertical",
    "Wiz.C151_vertical_refuted",
    "Wiz.C151_picture",
    "Wiz.C151_streamlines",
    "Wiz.C151_optional_package"
   ],
   "note": "C151_values, C151_coupling, C151_vertical, C151_picture, C151_given_limits, C151_streamlines, C151_optional_package are full; C151_limits_partial needs data without NaN (C151_limits_refuted: NaN, and maxSpeed alone); C151_vertical_refuted: mirrored picture for decreasing coordinates."
  },
  {
   "property": "C152",
   "status": "proved",
   "theorems": [
    "Wiz.C152_turbine",
    "Wiz.C152_farm",
    "Wiz.C152_upstream"
   ],
   "note": "C152_turbine (one or several stations, ground), C152_farm (velocity_field), C152_upstream (solid angles). Generalises C132_farm to radial stations."
  },
  {
   "property": "C153",
   "status": "proved",
   "theorems": [
    "Wiz.C153_turbine",
    "Wiz.C153_farm",
    "Wiz.C153_several_longi",
    "Wiz.C153_wake"
   ],
   "note": "C153_turbine, C153_farm, C153_several_longi (what happens with the longitudinal vorticity of several cylinders), C153_wake (the complete wake over the ground). no_wake is excluded: it blanks the tube of the rotor only."
  },
  {
   "property": "C154",
   "status": "proved",
   "theorems": [
    "Wiz.C154_turbine",
    "Wiz.C154_farm",
    "Wiz.C154_along"
   ],
   "note": "C154_turbine, C154_farm, C154_along (along the wind, as solid angles)."
  },
  {
   "property": "C155",
   "status": "partial",
   "theorems": [
    "Wiz.C155_turbine",
    "Wiz.C155_frames",
    "Wiz.C155_two_errors_partial",
    "Wiz.C155_two_errors_opposed",
    "Wiz.C155_two_errors_refuted",
    "Wiz.C155_short",
    "Wiz.C155_farm"
   ],
   "note": "C155_turbine, C155_frames, C155_short, C155_farm in full. The agreement of the two yaw_err lines is false: C155_two_errors_partial (same up to whole turns; same number exactly when yaw_pos-yaw_wind is within half a turn), C155_two_errors_refuted (0 and 360 after update_yaw_pos(2*pi)), C155_two_errors_opposed (0 and 180+360k for every opposed wind). Conversion of one value to characters is not modelled."
  },
  {
   "property": "C156",
   "status": "partial",
   "theorems": [
    "Wiz.C156_before",
    "Wiz.C156_planar",
    "Wiz.C156_disk",
    "Wiz.C156_nodes_partial",
    "Wiz.C156_merged_refuted"
   ],
   "note": "C156_before, C156_planar, C156_disk, C156_nodes_partial (coordinates that increase and are whole multiples of 0.001). 'It suffices that the coordinates increase' is false: C156_merged_refuted. SciPy's interp2d is a parameter with the hypotheses of IsSpline (shown consistent)."
  },
  {
   "property": "C157",
   "status": "proved",
   "theorems": [
    "Wiz.C157_alone",
    "Wiz.C157_swirl",
    "Wiz.C157_noswirl"
   ],
   "note": "C157_alone (exact), C157_swirl and C157_noswirl (bounds of C145 in a farm). Hypotheses on the minimiser and the radicand as in C145."
  },
  {
   "property": "C158",
   "status": "proved",
   "theorems": [
    "Wiz.C158_shaft",
    "Wiz.C158_row",
    "Wiz.C158_swirl",
    "Wiz.C158_rotation"
   ],
   "note": "C158_shaft (1), C158_swirl (2), C158_rotation (3), C158_row (4). The bound of (2) tends to zero with 1/(n-1): the limit of the solver is the prescribed thrust less the radial-equilibrium pressure of the rotation. Minimiser hypothesis as in C145."
  },
  {
   "property": "C159",
   "status": "partial",
   "theorems": [
    "Wiz.C159_equal",
    "Wiz.C159_lengths",
    "Wiz.C159_rejects_partial",
    "Wiz.C159_method",
    "Wiz.C159_scalar_radius",
    "Wiz.C159_one_cylinder",
    "Wiz.C159_rejects_refuted"
   ],
   "note": "False for bTanInd_k=False: C159_rejects_refuted (two circulations, one radius: a single cylinder that ignores the second circulation, and two longitudinal strengths; C159_one_cylinder in general). C159_rejects_partial: true for the default options. C159_lengths: exact condition for a wake to be returned; C159_equal: on equal lengths it is the model used by the other properties; C159_scalar_radius; C159_method."
  },
  {
   "property": "C160",
   "status": "proved",
   "theorems": [
    "Wiz.C160_discrete",
    "Wiz.C160_prescribed",
    "Wiz.C160_continuous",
    "Wiz.C160_torque"
   ],
   "note": "C160_prescribed: through WakeVorticityFromCt with an exact minimiser; C160_discrete: for a given circulation; C160_continuous: the continuous solver. The bound is for Ct at most 0.8976 (the high-thrust correction starts there). C160_torque: prescribed torque."
  },
  {
   "property": "C161",
   "status": "proved",
   "theorems": [
    "Wiz.C161_impulse",
    "Wiz.C161_energy",
    "Wiz.C161_kirchhoff",
    "Wiz.C161_potential",
    "Wiz.C161_euler",
    "Wiz.C161_euler_total",
    "Wiz.C161_pair"
   ],
   "note": "C161_impulse, C161_energy with C161_kirchhoff (logarithm) and C161_potential (existence of the pair potential for every kernel), C161_euler, C161_euler_total; C161_pair is a motion to which they apply (two equal vortices circling)."
  },
  {
   "property": "C162",
   "status": "partial",
   "theorems": [
    "Wiz.C162_axes",
    "Wiz.C162_mirror",
    "Wiz.C162_wall",
    "Wiz.C162_linear",
    "Wiz.C162_units_partial",
    "Wiz.C162_units_refuted",
    "Wiz.C162_bounded",
    "Wiz.C162_cores",
    "Wiz.C162_circulation"
   ],
   "note": "All parts in full except the unit of length: the cut-off r2<1e-15 is an absolute area, C162_units_refuted; C162_units_partial away from the vortices. C162_cores shows that the common core of C71/C161 is needed."
  }
 ]
}