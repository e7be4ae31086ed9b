{
 "C57": {
  "note": "The code's finite-interval primitive for the 5/2 integral has a wrong coefficient (2 instead of 3, VortexDoublet.py:346): C57_refuted is the witness; the other three integrals, the on-axis branch and the limit L->inf are proved."
 },
 "C58": {
  "note": "Semi-infinite lines proved; finite lines refuted because of the C57 defect; C58_finite_partial covers the part that holds."
 },
 "C17": {
  "status": "proved",
  "note": "The statement excludes nan strengths; C17_nan_refuted shows the exclusion is necessary."
 },
 "C64": {
  "note": "C64_longi_polar_partial gives what does hold (the axial component, the Cartesian route, and the polar output where u_psi happens to agree); C64_longi_polar_refuted is the witness that the polar output returns u_r in place of u_psi."
 },
 "C67": {
  "note": "C67_batch_dependence and C67_empty show the two cases in which the polar root routine depends on the whole batch."
 },
 "C68": {
  "note": "The tangential case is proved for every list of cylinders; svcs_longi_u places the mirror cylinder at (-)Ycp0 in the vertical slot and vcs_longi_u ignores the ground flag: C68_longi_refuted / C68_straight_longi_refuted are the witnesses, C68_longi_partial is what does hold."
 },
 "C76": {
  "note": "The recursion converges to Pi(n,m) with an explicit rate (C76_converges, C76_rate, C76_*_accuracy); the routine itself stops on a successive-difference test, and C76_premature_stop_refuted exhibits m in (0,1) for which it returns a value wrong by at least 0.05. C119 bounds what this can do to the velocity of a cylinder: at most 3% of its strength."
 },
 "C84": {
  "note": "The Cartesian sum is proved (C84_complete_wake); polar_out is ignored by the code (C84_polar_flag_ignored), C84_polar_out_refuted is the witness."
 },
 "C86": {
  "note": "Closed form of fKzt proved equal to K_z with exact elliptic integrals (C86_closed_form). As shipped it is false: C86_shipped_refuted gives a radius at which, for arbitrarily small skew, the returned number is off by any amount (the early stop of C76, divided by the skew); C86_shipped_partial bounds the error by 0.06 plus an explicit factor times the error of one of the two elliptic integrals. Quadratures and meaning proved; C86_xi_skew_refuted shows the closed form of fKxit is wrong with skew."
 },
 "C87": {
  "status": "partial",
  "note": "Proved for skewed cylinders at every quadrature size, half-lines, point vortices, turbines with skewed wakes, farms. C87_self_similar_refuted, C87_ring_axis_refuted and C87_straight_refuted show the three places where the code does not conserve mass. For the straight vc_tang_u the cause is the early stop of the Carlson recursion (premature_pi: the returned Pi is off by at least 1/100 for some n,m); the exact counterpart conserves mass (C88_cylinder) and the error is at most 3% of the strength (C119)."
 },
 "C88": {
  "note": "For the cylinders the theorem is about the exact field which the routines evaluate (C47, C78) or converge to (C65)."
 },
 "C90": {
  "note": "Proved for the cylinder model (also yawed and with ground effect) and for the self-similar and far-field models unyawed; refuted for the doublet model, whose centre value is the free stream."
 },
 "C91": {
  "note": "C91_straight records that CT>1 makes the skew angle undefined, so the yaw of the wake is silently ignored."
 },
 "C95": {
  "note": "C95_wind_speed_refuted: the function is documented as gamma_t/U0 but update_loading stores it without multiplying by the wind speed."
 },
 "C07": {
  "note": "C07_yaw_error_partial covers every horizontal wind not exactly opposed to the shaft; C07_opposed_refuted shows that for opposed wind the code returns 0."
 },
 "C09": {
  "note": "The property is false of the code: C09_refuted is a history on which chi stays latched. The _partial theorems give the histories on which it holds (set_chi used, or no evaluation before), C09_latched that chi changes only through set_chi."
 },
 "C31": {
  "note": "Holds for R>=U0/40 (C31_infinite_partial); C31_refuted is a small rotor where Omega=800 triggers the swirl branch."
 },
 "C32": {
  "note": "C32_continuous_partial holds when the first radius is not 0; C32_refuted shows the caller's array overwritten otherwise. C32_contents_* prove that the heap-level solvers return what the value-level model returns."
 },
 "C35": {
  "note": "With swirl proved; without swirl the velocity scale enters squared in the wrong place (C35_no_swirl_refuted), only a change of the length unit alone is consistent (C35_lengths_no_swirl_partial)."
 },
 "C53": {
  "note": "Cartesian output and coaxial polar output proved; C53_polar_refuted shows two non-coaxial rings whose polar sum is not the polar form of the field."
 },
 "C54": {
  "note": "C54_scaling_partial covers the singular and Saffman branches; C54_linear_refuted shows the branch 'linear' not scaling with Gamma; C54_core_value gives the value on the ring. What the linear option returns inside its core is C54_linear_core."
 },
 "C97": {
  "note": "C97_fields and C97_months give the written value; C97_length_partial the length below one year; C97_length_refuted: two years are written '2.0y', four characters."
 },
 "C104": {
  "note": "C104_swirl and C104_no_swirl prove the formulas for every array; C104_consistency_refuted shows that the returned cylinders do not induce the reported induction (pitch uses 1-2a)."
 },
 "C108": {
  "note": "C108_no_swirl_partial proves the identity without swirl below the high-thrust limit; C108_swirl gives the exact relation with swirl; C108_swirl_refuted is a one-cylinder counterexample to the identity."
 },
 "C113": {
  "note": "Shape, limit and slope of the circulation proved; proportionality of the strengths is false (C113_slope_refuted: cos(rh/tau) is used instead of cos(pi rh) and a factor pi is missing), true only at hub and tip (C113_slope_partial)."
 },
 "C115": {
  "note": "C115_farm for any batch and grid; C115_reference, C115_spacing and C115_ground for the numbers plotted by the two article scripts. The truncation of ellipticPiCarlson is kept as an explicit error term per rotor."
 },
 "C116": {
  "note": "False as stated at two points: the recorded CT is the requested one, not that of the file (C116_exact_ct_refuted), and for a hub at exactly 9 radii ground data are compared with a model without ground (C116_ground_refuted). The partial theorems give the claim up to truncation and for every other hub height."
 },
 "C117": {
  "note": "False when there are fewer offsets than angles, even if the offsets are not used: the remaining directions keep error 0 and bias the mean (C117_short_offsets_refuted, C117_short_offsets_partial). Everything else proved in full."
 },
 "C118": {
  "note": "Proved in full."
 },
 "C119": {
  "note": "Proved in full. The points excluded from the accuracy bound are those of the edge cut-off (where the code returns gamma/4) and the radius of the sheet itself, where the velocity jumps; C119_bounded covers them."
 },
 "C120": {
  "note": "Proved in full. C120_jump is about the Biot-Savart integral, C120_boundary ties the value returned on the boundary to it, C120_slip is about returned values."
 },
 "C121": {
  "note": "Proved in full; C121_turbine_nan is the turbine-level form of the undefined points (finding 43)."
 },
 "C122": {
  "note": "Proved in full. C122_reachable transports every theorem quantified over constructor arguments and histories to histories with set_yaw0_coord and attribute assignments. C122_gamma_t: with longi=True the code raises AttributeError on a never-loaded turbine (gamma_l is not initialised by the constructor)."
 },
 "C123": {
  "note": "Key injectivity proved on the printed names (decimal printing modelled, ties to even, exact arithmetic); layouts with signs, blanks or underscores are not modelled; C123_same_flow composes the database, the grid layout, the farm constructors and velocity_field. C123_rounding characterises the rounding of the key (nearest, ties to even)."
 },
 "C124": {
  "note": "Equality of the whole modelled object. The remembered skew angle itself is the one of C122 (last set, or computed at the first evaluation after)."
 },
 "C125": {
  "note": "Swirl (longi, root) is excluded: a mirror image reverses the sense of rotation, which the loading determines. C125_opposed shows the exclusion of opposed winds is needed."
 },
 "C126": {
  "note": "In the mirrored statement swirl (longi, root) is excluded, as in C125."
 },
 "C127": {
  "note": "Proved for the models VC and SS without root vortex, including infinite and undefined strengths. Refuted for VD (and VCFF, which uses the same routine): the tolerance 1e-8 of doublet_line_u is an absolute length. The unit of time is not immaterial when the solver is used (absolute rotational speeds 800 and 1000, see C31 and C35), hence the gamma_t_Ct hypothesis of the two-unit statement."
 },
 "C128": {
  "note": "C128_linear and C128_more_thrust are proved; monotonicity across the high-thrust limit is false (C128_across_limit_refuted), because the swirl correction a'_c is dropped above the limit."
 },
 "C129": {
  "note": "Strict for the Biot-Savart field; for the computed values up to the 3% accuracy of C119, since the third-kind integral is truncated after a batch-dependent number of passes."
 },
 "C130": {
  "note": "Farm counterpart of C127/C128; the doublet models are excluded from C130_units because their tolerances are absolute lengths (C127_doublet_refuted) but not from C130_stronger."
 },
 "C131": {
  "note": "C131_symmetric from the mirrored-farm simulation (C126 machinery) and the order independence of the sum over turbines; C131_grid directly from the cylinder kernel, in Num (NaN and infinities included)."
 },
 "C132": {
  "note": "C132_farm composes C119_turbine_ground (strengthened: no hypothesis on gamma_l, empty batches allowed) with C18; C132_thrust discharges every state hypothesis from the constructor arguments."
 },
 "C133": {
  "note": "Coordinates, axial velocity, plane choice, interpolation axes proved; C133_inplane_refuted: fVert returns w in the horizontal plane and v in the vertical one, right only where they coincide."
 },
 "C134": {
  "note": "C134_swirl (uniform bound), C134_tip (strict inequality at the tip), C134_no_swirl (exact agreement)."
 },
 "C135": {
  "note": "C135_farm (any history, ground or not, general distance), C135_thrust (standard workflow, 3.01%)."
 },
 "C136": {
  "note": "C136_far (VCFF, relative, per component), C136_doublet (VD), C136_batch (either side of the cut-off), C136_farm (any history), C136_thrust (standard workflow). Inside of the wake beyond the cut-off the models have the wrong sign: C103_inside_wake."
 },
 "C137": {
  "note": "C137_sinks (exact, any history), C137_blockage (common shaft direction, upstream), C137_thrust (standard workflow)."
 },
 "C138": {
  "note": "C138_rotor_plane, C138_mirror, C138_far for whatever wake is stored (StoredWake), C138_loading from update_loading(Gamma). Ground effect off (the image swirls about another axis)."
 },
 "C139": {
  "note": "False of the code. C139_upstream_refuted and C139_outside_refuted are concrete turbines. Proved instead: C139_several_stations_partial (exactly zero outside in the rotor plane for n>=2 stations), C139_one_station_partial (the exact residual with one cylinder), C139_upstream_partial (the swirl upstream, within a bound)."
 },
 "C140": {
  "note": "C140_yawed (skewed, any stored chi), C140_wind (chi left to the program: the wake follows the wind), C140_loading (from update_loading of a circulation), C140_aligned (straight wake). Ground off; inside the regularised core of the skewed root vortex nothing is claimed."
 },
 "C141": {
  "note": "False for root vortices: C141_root_refuted is a concrete turbine, C141_root_partial the exact velocity through the ground for every history. C141_yawed_partial bounds it for the rings of skewed wakes (one cylinder). C141_stations_partial / _refuted (Props/GroundSkew2): several cylinders with root vortex and longitudinal vorticity, exact velocity through the ground in the rotor plane, from the loading, after any history; the longitudinal vorticity has no image (finding 59)."
 },
 "C142": {
  "note": "The minimiser is external: it is only assumed to return a k>=0 with residual at most delta at the stations (C26 shows an exact minimiser on [0,1.8] does this with delta=0 for attainable thrusts)."
 },
 "C143": {
  "note": "Rotor-plane points keep the guard 1e-8 r_j from each cylinder (the kernel's own tolerance). Exact minimiser for C143_thrust: K_i>=0 with zero residual at each station (C26)."
 },
 "C144": {
  "note": "An infinite tip-speed ratio is 800 rad/s in the program (C31), so 20<=800 R/U0 is a hypothesis there. The radicands 1-E_k are assumed non-negative (otherwise the solver returns nan); by C144_bounds this holds when C + U0^2 C^2/(16 pi Omega^3 r_0^2) <= 1."
 },
 "C145": {
  "note": "As in C144 an infinite tip-speed ratio is 800 rad/s in the program. The radicand hypothesis of C145_noswirl is an explicit bound on C; the minimiser hypothesis of C145_swirl says minimize_scalar returns the root (C29)."
 },
 "C146": {
  "note": "C146_rotor and C146_wake for any intensity, C146_thrust from the thrust coefficient. The quadrature bound is that of C114 at the distance (R-rho)cos(chi) from the wake surface (proved in inside_dist)."
 },
 "C147": {
  "note": "C147_field is about the exact sheet; C147_turbine about the values returned by compute_u for any intensity; C147_thrust from the thrust coefficient. Generalises C111 (aligned rotor) and the rotor-disk part of C146 to all of space."
 },
 "C148": {
  "note": "C148_farm everywhere, C148_upstream for the blockage region with explicit geometric hypotheses. Extends C115 (aligned grid farm) to yawed turbines of any layout. The independent spec of the angle is Spec/RotorAngle.lean."
 },
 "C149": {
  "note": "C149_field (any skew, Biot-Savart), C149_turbine (along the wind, everywhere off the wakes), C149_thrust (from the loading, in the rotor plane); C149_spread: the same for a thrust distribution spread over nCyl=n cylinders."
 },
 "C150": {
  "note": "C150_turbine (one turbine, ground, stations), C150_farm (velocity_field of a row), C150_row (from the thrust coefficients)."
 },
 "C151": {
  "note": "C151_values, C151_coupling, C151_vertical, C151_picture, C151_given_limits, C151_streamlines, C151_optional_package are full; C151_limits_partial needs data without NaN (C151_limits_refuted: NaN, and maxSpeed alone); C151_vertical_refuted: mirrored picture for decreasing coordinates."
 },
 "C152": {
  "note": "C152_turbine (one or several stations, ground), C152_farm (velocity_field), C152_upstream (solid angles). Generalises C132_farm to radial stations."
 },
 "C153": {
  "note": "C153_turbine, C153_farm, C153_several_longi (what happens with the longitudinal vorticity of several cylinders), C153_wake (the complete wake over the ground). no_wake is excluded: it blanks the tube of the rotor only."
 },
 "C154": {
  "note": "C154_turbine, C154_farm, C154_along (along the wind, as solid angles)."
 },
 "C155": {
  "note": "C155_turbine, C155_frames, C155_short, C155_farm in full. The agreement of the two yaw_err lines is false: C155_two_errors_partial (same up to whole turns; same number exactly when yaw_pos-yaw_wind is within half a turn), C155_two_errors_refuted (0 and 360 after update_yaw_pos(2*pi)), C155_two_errors_opposed (0 and 180+360k for every opposed wind). Conversion of one value to characters is not modelled."
 },
 "C156": {
  "note": "C156_before, C156_planar, C156_disk, C156_nodes_partial (coordinates that increase and are whole multiples of 0.001). 'It suffices that the coordinates increase' is false: C156_merged_refuted. SciPy's interp2d is a parameter with the hypotheses of IsSpline (shown consistent)."
 },
 "C157": {
  "note": "C157_alone (exact), C157_swirl and C157_noswirl (bounds of C145 in a farm). Hypotheses on the minimiser and the radicand as in C145."
 },
 "C158": {
  "note": "C158_shaft (1), C158_swirl (2), C158_rotation (3), C158_row (4). The bound of (2) tends to zero with 1/(n-1): the limit of the solver is the prescribed thrust less the radial-equilibrium pressure of the rotation. Minimiser hypothesis as in C145."
 },
 "C159": {
  "note": "False for bTanInd_k=False: C159_rejects_refuted (two circulations, one radius: a single cylinder that ignores the second circulation, and two longitudinal strengths; C159_one_cylinder in general). C159_rejects_partial: true for the default options. C159_lengths: exact condition for a wake to be returned; C159_equal: on equal lengths it is the model used by the other properties; C159_scalar_radius; C159_method."
 },
 "C160": {
  "note": "C160_prescribed: through WakeVorticityFromCt with an exact minimiser; C160_discrete: for a given circulation; C160_continuous: the continuous solver. The bound is for Ct at most 0.8976 (the high-thrust correction starts there). C160_torque: prescribed torque."
 },
 "C77": {
  "note": "C77_biot_savart: exact difference; C77_accuracy, C77_polar_accuracy: its bound for every batch; C77_multi: vcs_longi_u."
 },
 "C161": {
  "note": "C161_impulse, C161_energy with C161_kirchhoff (logarithm) and C161_potential (existence of the pair potential for every kernel), C161_euler, C161_euler_total; C161_pair is a motion to which they apply (two equal vortices circling)."
 },
 "C162": {
  "note": "All parts in full except the unit of length: the cut-off r2<1e-15 is an absolute area, C162_units_refuted; C162_units_partial away from the vortices. C162_cores shows that the common core of C71/C161 is needed."
 }
}