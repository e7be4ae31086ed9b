{"id": "C01", "title": "Axis-angle matrices are rotations", "statement": "For every unit axis u and every angle, RotMat_AxisAngle(u,theta) preserves all dot products, has determinant 1, leaves u fixed, acts as the Rodrigues rotation v*cos + (u x v)*sin + u(u.v)(1-cos), is the identity at angle 0, and composing two rotations about the same axis adds the angles.", "quantifier": "all unit axes in R^3, all real angles, all vectors", "why_tests_cant": "Unit tests sample a few axes/angles; orthogonality must hold on the whole sphere x line.", "anchors": ["wiz/WindTurbine.py:RotMat_AxisAngle"]}
{"id": "C02", "title": "Frame changes round-trip", "statement": "For a turbine built from orthonormal shaft/vertical vectors and driven through any history of yaw/position/wind/loading updates, transforming a global vector to the cylinder frame and back (transform after transform_T, and the reverse) returns the vector unchanged, and lengths are preserved.", "quantifier": "all orthonormal frames, all update histories, all vectors", "why_tests_cant": "Any finite test covers finitely many frames and histories.", "anchors": ["wiz/WindTurbine.py:transform", "wiz/WindTurbine.py:transform_T", "wiz/WindTurbine.py:WindTurbine.set_yaw0_coord", "wiz/WindTurbine.py:WindTurbine.update_yaw_pos"]}
{"id": "C03", "title": "orth_vect returns a unit normal or raises", "statement": "For every non-zero 3-vector u, orth_vect(u) returns a vector of norm 1 orthogonal to u; it raises exactly when u is the zero vector (the `else: raise` arm is dead for every non-zero vector).", "quantifier": "all 3-vectors", "why_tests_cant": "Pigeonhole over the whole of R^3; sampling cannot exclude a missed direction.", "anchors": ["wiz/WindTurbine.py:orth_vect"]}
{"id": "C04", "title": "Rotor disk points lie on the rotor circle", "statement": "For every turbine state with a non-zero unit shaft and R>=0, every column returned by rotor_disk_points(nP) is at distance R from the hub and in the plane through the hub normal to the shaft, there are nP columns, and for nP>=2 the curve is closed (first = last).", "quantifier": "all hub positions, unit shafts, radii, nP", "why_tests_cant": "Quantifies over all orientations and numbers of points.", "anchors": ["wiz/WindTurbine.py:WindTurbine.rotor_disk_points", "wiz/WindTurbine.py:orth_vect", "wiz/WindTurbine.py:RotMat_AxisAngle"]}
{"id": "C05", "title": "Yaw is last-write-wins and keeps the shaft unit and horizontal", "statement": "After any sequence of update_yaw_pos calls (interleaved with any other updates) the shaft equals the zero-yaw shaft rotated about the vertical by the last yaw only; it stays of unit length and orthogonal to the vertical if it was so at zero yaw.", "quantifier": "all histories of updates, all yaw angles", "why_tests_cant": "History property; drift/accumulation would only show for particular sequences.", "anchors": ["wiz/WindTurbine.py:WindTurbine.update_yaw_pos", "wiz/WindTurbine.py:WindTurbine.set_yaw0_coord"]}
{"id": "C06", "title": "yaw_wind is the signed wind angle", "statement": "For an orthonormal turbine and any wind with non-zero horizontal part, rotating the zero-yaw horizontal direction about the vertical by yaw_wind gives exactly the unit horizontal wind direction, and yaw_wind lies in (-pi,pi].", "quantifier": "all orthonormal frames, all winds with non-zero horizontal component", "why_tests_cant": "Continuum of wind directions, including the opposed-wind branch sign==0.", "anchors": ["wiz/WindTurbine.py:WindTurbine.yaw_wind"]}
{"id": "C07", "title": "yaw_error is yaw_pos - yaw_wind", "statement": "For horizontal wind not exactly opposed to the shaft, yaw_error is the signed angle from the wind to the shaft: rotating the wind direction about the vertical by yaw_error gives the shaft. (For wind exactly opposed to the shaft the code returns 0 instead of +-pi.)", "quantifier": "all orthonormal frames, yaw angles, horizontal winds", "why_tests_cant": "Continuum; the failing point is a measure-zero set no random test hits.", "anchors": ["wiz/WindTurbine.py:WindTurbine.yaw_error"]}
{"id": "C08", "title": "The wake skew follows the wind", "statement": "When compute_u determines the skew angle chi itself, the wake axis (x = tan(chi) z in the cylinder frame) is parallel to the horizontal wind direction: the wind expressed in the cylinder frame is (sin chi, 0, cos chi).", "quantifier": "all orthonormal frames, yaw positions, horizontal winds", "why_tests_cant": "Links three separately computed angles/matrices over a continuum.", "anchors": ["wiz/WindTurbine.py:WindTurbine.compute_u", "wiz/WindTurbine.py:WindTurbine.yaw_wind"]}
{"id": "C09", "title": "compute_u reflects the current yaw and wind", "statement": "The induced velocity returned by compute_u depends only on the current yaw, wind, position and loading, not on what was evaluated before. (Violated: chi is latched by the first evaluation and never refreshed by update_yaw_pos or update_wind; what does hold is that with set_chi, or when no evaluation preceded, there is no hidden history, and that chi never changes once set except through set_chi.)", "quantifier": "all histories of updates and evaluations", "why_tests_cant": "History dependence is only visible on interleavings; tests evaluate once.", "anchors": ["wiz/WindTurbine.py:WindTurbine.compute_u", "wiz/WindTurbine.py:WindTurbine.set_chi"]}
{"id": "C10", "title": "compute_u refuses to run without loading", "statement": "For every history that contains no successful update_loading, compute_u raises, whatever the options and points; after a successful update_loading it never raises that error.", "quantifier": "all histories and options", "why_tests_cant": "Quantifies over histories.", "anchors": ["wiz/WindTurbine.py:WindTurbine.compute_u", "wiz/WindTurbine.py:WindTurbine.update_loading"]}
{"id": "C11", "title": "only_ind only removes the free stream", "statement": "For the same state, points and options, the velocity with only_ind=False is, at every point, the velocity with only_ind=True plus the stored free stream U0; both leave the turbine in the same state.", "quantifier": "all states, options, batches of points", "why_tests_cant": "Universally quantified relational property.", "anchors": ["wiz/WindTurbine.py:WindTurbine.compute_u"]}
{"id": "C12", "title": "Translation invariance", "statement": "Without ground effect, moving the hub and all control points by the same vector leaves the induced velocity at every point unchanged, for every model and option set.", "quantifier": "all turbines, offsets, batches, models, options", "why_tests_cant": "Relational, over a continuum of offsets.", "anchors": ["wiz/WindTurbine.py:WindTurbine.compute_u"]}
{"id": "C13", "title": "Rotation equivariance (choice of global axes is immaterial)", "statement": "Expressing the whole problem (shaft, vertical, wind, hub, points) in rotated global axes rotates the induced velocity by the same rotation; e.g. the z-downwind/y-up convention and the x-downwind/z-up convention give the same physical answer.", "quantifier": "all proper rotations, orthonormal turbines, batches, models, options", "why_tests_cant": "Relational over SO(3).", "anchors": ["wiz/WindTurbine.py:WindTurbine.compute_u", "wiz/WindTurbine.py:WindTurbine.set_yaw0_coord", "wiz/WindTurbine.py:WindTurbine.yaw_wind"]}
{"id": "C14", "title": "no_wake zeroes exactly the rotor tube", "statement": "With no_wake=True the induced velocity is exactly zero at every point with axial distance >= -0.6R and radial distance < 1.001R from the rotor axis, and at every other point equals the no_wake=False value.", "quantifier": "all states, batches, models", "why_tests_cant": "Pointwise claim over all points; boundary sets have measure zero.", "anchors": ["wiz/WindTurbine.py:WindTurbine.compute_u"]}
{"id": "C15", "title": "Ground effect: no flow through the ground", "statement": "With ground=True and tangential vorticity only (unyawed VC, VCFF, VD, one cylinder or several), the induced velocity at every point of the ground plane has zero vertical component; with hub height 0 the ground option exactly doubles the induction.", "quantifier": "all turbines, all ground points, all hub heights", "why_tests_cant": "Cancellation must be exact at every point.", "anchors": ["wiz/WindTurbine.py:WindTurbine.compute_u", "wiz/VortexCylinder.py:vcs_tang_u", "wiz/VortexCylinder.py:vc_tang_u"]}
{"id": "C16", "title": "Model dispatch is total and raises only for unsupported combinations", "statement": "compute_u succeeds for a loaded turbine exactly when the requested components are implemented: VC always; VCFF, VD, SS only for one cylinder, no skew and no longitudinal component; any other model name raises as soon as a component is requested. When it succeeds it returns, at every point, the free stream (unless only_ind) plus, in rotor axes, the sum of the components asked for: root half-line, tangential wake (VC right cylinder, or skewed cylinder with 180 points; VCFF doublet line beyond R_far_field radii; VD half-line of doublets of moment gamma*pi*R^2; SS self-similar axial profile), longitudinal wake, of the hub and, with ground effect, of its mirror image; with several cylinders, of every cylinder.", "quantifier": "all states, option combinations, model strings", "why_tests_cant": "Decision table over an infinite set of strings and states.", "anchors": ["wiz/WindTurbine.py:WindTurbine.compute_u"]}
{"id": "C17", "title": "One cylinder and multi-cylinder paths agree", "statement": "A turbine whose loading is one cylinder of any strength other than nan gives, for the model VC, exactly the tangential induction the multi-cylinder routine returns for that single cylinder, at every point, with or without skew and ground. (A nan strength is skipped by the multi-cylinder loop but not by the single-cylinder code.)", "quantifier": "all strengths, radii, centres, batches", "why_tests_cant": "Relational between two code paths.", "anchors": ["wiz/VortexCylinder.py:vcs_tang_u", "wiz/VortexCylinder.py:vc_tang_u", "wiz/WindTurbine.py:WindTurbine.compute_u"]}
{"id": "C18", "title": "Farm field is the sum of turbine fields", "statement": "velocity_field returns at every point the sum of the turbines' induced velocities (plus U0 when given, nothing otherwise); an empty farm returns exactly U0 or zero.", "quantifier": "all farms of any size, all batches", "why_tests_cant": "Unbounded number of turbines.", "anchors": ["wiz/WindFarm.py:WindFarm.velocity_field"]}
{"id": "C19", "title": "Turbine order is immaterial", "statement": "Permuting the turbines of a farm leaves velocity_field unchanged at every point, and leaves the turbines in the same state.", "quantifier": "all permutations of farms of any size", "why_tests_cant": "Factorially many orders.", "anchors": ["wiz/WindFarm.py:WindFarm.velocity_field"]}
{"id": "C20", "title": "append type-checks and nWT counts", "statement": "Any sequence of appends of turbines yields a farm listing exactly those turbines in order, nWT being their number; appending anything else raises and leaves the farm unchanged. After any history of farm and turbine operations that uses none of the methods the class inherits unchecked from list, the farm is its initial items followed by exactly the accepted turbines; the inherited ones (extend, insert, item assignment) are not type-checked and can put anything in.", "quantifier": "all sequences of appends; all histories of farm and turbine operations", "why_tests_cant": "Unbounded histories.", "anchors": ["wiz/WindFarm.py:WindFarm.append", "wiz/WindFarm.py:WindFarm.nWT"]}
{"id": "C21", "title": "Layout set/get round-trip and atomic rejection", "statement": "Setting layout to an nWT x 3 array on a farm of distinct turbines makes layout read back exactly that array; a wrong shape raises before any turbine is moved; if one turbine object appears twice the last row wins. The array returned by layout is a copy, but the setter keeps views of the caller's array. Likewise update_position given a row of the caller's array keeps a view of it, so later writes to that array move the turbine.", "quantifier": "all farms, all layouts", "why_tests_cant": "Quantifies over sizes and aliasing patterns.", "anchors": ["wiz/WindFarm.py:WindFarm.layout"]}
{"id": "C22", "title": "Grid layout has the documented geometry", "statement": "gridLayout returns nz*nx (twice that with mirror) positions; position number (i-1)*nx+j is ((j-1-floor(nx/2))*xSpacing, hub_height, (i-1)*zSpacing), mirrored block identical with -hub_height; with non-zero spacings (and non-zero hub height if mirrored) no two turbines coincide; with zSpacing left at None it raises as soon as there is a turbine.", "quantifier": "all nx, nz, spacings, hub heights", "why_tests_cant": "Unbounded sizes.", "anchors": ["wiz/WindFarm.py:gridLayout"]}
{"id": "C23", "title": "Mirrored grid farms have an impermeable ground", "statement": "For windfarm_gridlayout_CTconst with mirror=True, the field equals that of the unmirrored layout computed with Ground=True, and for CT<=1 the vertical velocity is zero at every point with Ycp=0. (With CT>1 the strength is nan and the field is silently zero.)", "quantifier": "all layouts, sizes, loadings, points", "why_tests_cant": "Exact cancellation for unbounded farms.", "anchors": ["wiz/WindFarm.py:windfarm_gridlayout_CTconst", "wiz/VortexCylinder.py:vcs_tang_u"]}
{"id": "C24", "title": "Ct_const_cutoff shape", "statement": "For 0<r_cut<=r_tip<1 and CT0>=0 the profile lies in [0,CT0] on [0,1], is 0 at 0 and at 1, equals CT0 between the two radii, is continuous on [0,1], non-decreasing before r_cut and non-increasing after r_tip.", "quantifier": "all radii, parameters", "why_tests_cant": "Continuity and bounds over a continuum.", "anchors": ["wiz/Solver.py:Ct_const_cutoff"]}
{"id": "C25", "title": "Stream-tube inductions satisfy momentum balance", "statement": "For every Ct<=1 the axial induction returned satisfies 4a(1-a)=Ct and a<=1/2; with swirl the tangential induction satisfies 4 a'(1-a) lambda_r = Cq; for Ct>1 the result is not a number.", "quantifier": "all Ct, Cq, tip speed ratios, radii", "why_tests_cant": "Continuum.", "anchors": ["wiz/Solver.py:InductionsFromPrescribedCtCq_ST"]}
{"id": "C26", "title": "The prescribed-Ct circulation problem is well posed", "statement": "For every Ct>0 and lambda_r>0 there is exactly one k>=0 with k(1+k/(4 lambda_r^2))=Ct; it satisfies k<Ct; whenever it lies in [0,1.8] the minimised objective is strictly decreasing before it and strictly increasing after it, so any exact minimiser on [0,1.8] reproduces the prescribed Ct exactly.", "quantifier": "all Ct, lambda_r, all minimisers", "why_tests_cant": "Uniqueness and unimodality over a continuum.", "anchors": ["wiz/Solver.py:CirculationFromPrescribedCt"]}
{"id": "C27", "title": "Discrete solver: axial induction obeys the effective-thrust relation (with swirl)", "statement": "For any number of cylinders, the axial induction reported at station i is a_i = (1-sqrt(1-Cteff_i))/2 when Cteff_i <= Ct_c and the high-thrust value (Cteff_i-4ac^2)/(4(1-2ac)) otherwise, where Cteff_i is the Kutta-Joukowski thrust minus the accumulated rotational term: the cumulative sum telescopes exactly.", "quantifier": "all numbers of cylinders, radii, circulations, tip speed ratios", "why_tests_cant": "Unbounded number of cylinders; telescoping of a recursive definition.", "anchors": ["wiz/Solver.py:WakeVorticityFromCirculation_Discr"]}
{"id": "C28", "title": "Discrete solver: axial induction without swirl", "statement": "Without swirl, as long as no station triggers the high-thrust correction and the radicands are non-negative, the induction satisfies (1-2a_i)^2 = 1 - sum_{j>=i} (k_j-k_{j+1})(1+a'_{c,j}).", "quantifier": "all numbers of cylinders, circulations", "why_tests_cant": "Unbounded recursion.", "anchors": ["wiz/Solver.py:WakeVorticityFromCirculation_Discr"]}
{"id": "C29", "title": "High-thrust correction is continuous and monotone", "statement": "The map Ct -> a used by both solvers (momentum below Ct_c, Spera line above) is continuous at Ct_c, differentiable there (slopes match), strictly increasing and never needs a negative square root.", "quantifier": "all Ct", "why_tests_cant": "Continuity at a boundary point and monotonicity over a continuum.", "anchors": ["wiz/Solver.py:InductionsFromCirculation_VC_Cont", "wiz/Solver.py:WakeVorticityFromCirculation_Discr"]}
{"id": "C30", "title": "Vorticity is conserved between blades, trailed sheets and root", "statement": "With swirl, the total longitudinal vorticity sum_i 2 pi r_i gamma_l,i of all cylinders plus the root vortex circulation Gamma_r is zero, for both solvers and any number of stations.", "quantifier": "all distributions of any length", "why_tests_cant": "Unbounded telescoping sums.", "anchors": ["wiz/Solver.py:WakeVorticityFromCirculation_Discr", "wiz/Solver.py:WakeVorticityFromCirculation_Cont"]}
{"id": "C31", "title": "Infinite tip-speed ratio means no swirl", "statement": "Loading a turbine with Lambda=inf gives no longitudinal/root vorticity. (Violated for small rotors: Omega=inf is replaced by 800 rad/s, so R<U0/40 triggers the swirl branch; holds for R>=U0/40.)", "quantifier": "all radii and wind speeds", "why_tests_cant": "The failing region depends on dimensional parameters not covered by tests.", "anchors": ["wiz/Solver.py:WakeVorticityFromCt", "wiz/Solver.py:WakeVorticityFromGamma"]}
{"id": "C32", "title": "Solvers do not modify their inputs", "statement": "Calling the solver functions leaves the caller's arrays unchanged. (Violated by the continuous formulation when the first radius is 0: r_cp[0] and lambda_r[0] are overwritten in the caller's array; holds otherwise.)", "quantifier": "all input arrays", "why_tests_cant": "Aliasing effects need inspection of all inputs after the call.", "anchors": ["wiz/Solver.py:WakeVorticityFromCirculation_Cont", "wiz/Solver.py:InductionsFromCirculation_VC_Cont"]}
{"id": "C33", "title": "Continuous and discrete solvers agree on the tangential induction", "statement": "For every circulation distribution with swirl, the a' of the continuous and of the discrete solver coincide at every station: a'=Gamma Omega/(4 pi U0^2 lambda_r^2).", "quantifier": "all distributions of any length", "why_tests_cant": "Tests compare one distribution to 4 decimals.", "anchors": ["wiz/Solver.py:WakeVorticityFromCirculation_Discr", "wiz/Solver.py:InductionsFromCirculation_VC_Cont"]}
{"id": "C34", "title": "Single-cylinder loading reproduces momentum theory", "statement": "update_loading(Ct) with one cylinder and swirl disabled gives gamma_t = -U0(1-sqrt(1-Ct(1+a'_c))) below the high-thrust limit and -2 U0 a(Ct) above it; gamma_t is always <= 0 for Ct in [0,1).", "quantifier": "all Ct, R, U0, Omega", "why_tests_cant": "Continuum of loadings and branch boundary.", "anchors": ["wiz/WindTurbine.py:WindTurbine.update_loading", "wiz/Solver.py:WakeVorticityFromCt", "wiz/Solver.py:WakeVorticityFromCirculation_Discr"]}
{"id": "C35", "title": "Solver results are dimensionally consistent", "statement": "Scaling lengths and times (r,R -> s r,s R; U0 -> s/t U0; Omega -> Omega/t; Gamma -> s^2/t Gamma) leaves inductions unchanged and scales gamma_t like a velocity, with swirl. (Without swirl it is violated because the convection term squares the whole denominator 4 pi Omega r.)", "quantifier": "all unit changes, all distributions", "why_tests_cant": "Relational over a 2-parameter group.", "anchors": ["wiz/Solver.py:WakeVorticityFromCirculation_Discr"]}
{"id": "C36", "title": "update_loading validates its inputs", "statement": "update_loading raises when neither Ct nor Gamma is given, when gamma_t_Ct is given without Ct, or when no tip-speed ratio is known, and in all those cases leaves the turbine unchanged; otherwise Lambda, r and Ct are recorded and the stored strengths are gamma_t_Ct(Ct), or the solver's answer for the recorded stations and loading, wind speed |U0| and rotational speed Lambda|U0|/R.", "quantifier": "all calls and prior states", "why_tests_cant": "Atomicity over all states.", "anchors": ["wiz/WindTurbine.py:WindTurbine.update_loading"]}
{"id": "C37", "title": "Carlson evaluation is elementwise up to a shared schedule", "statement": "Each entry of ellipticPiCarlson(n,m) equals the scalar Carlson recursion at (n_i,m_i) run with iteration counts common to the batch, all between 1 and 20; the loops always terminate. For m<=1 each count is exactly the first pass that moves no entry of its batch by more than 1e-12 (the third-kind and RC loops looking only at the entries with n<1).", "quantifier": "all batches of any size", "why_tests_cant": "Unbounded batches; termination.", "anchors": ["wiz/elliptic.py:ellipticPiCarlson"]}
{"id": "C38", "title": "Carlson evaluation is finite on its domain", "statement": "For every batch with m<=1 and n<1 every entry is a finite number, no negative square root or zero division occurs; entries with n>=1 and n>0 are +inf; PI(0,m) equals the first-kind recursion RF(1-m).", "quantifier": "all batches with m<=1", "why_tests_cant": "All inputs in an unbounded domain.", "anchors": ["wiz/elliptic.py:ellipticPiCarlson"]}
{"id": "C39", "title": "Carlson duplication contracts", "statement": "In every iteration of RF, RJ, RC the differences between the arguments are divided by exactly 4 while the arguments stay non-negative with positive mean, so the relative deviations X,Y,Z of iteration k are O(4^-k).", "quantifier": "all arguments and iteration numbers", "why_tests_cant": "Inductive over iterations for all real arguments.", "anchors": ["wiz/elliptic.py:ellipticPiCarlson"]}
{"id": "C40", "title": "Vortex cylinder velocity is always finite", "statement": "For every R>0, strength and every control point (axis, rotor edge, cylinder surface, anywhere), vc_tang_u with epsilon=0 returns finite numbers, none of the NaN placeholders survive.", "quantifier": "all points, R>0, strengths, batches", "why_tests_cant": "Singular sets (axis, edge, surface) have measure zero.", "anchors": ["wiz/VortexCylinder.py:vc_tang_u"]}
{"id": "C41", "title": "Vortex cylinder velocity is linear in the strength", "statement": "vc_tang_u scales linearly with gamma_t at every point and two co-located cylinders of opposite strength cancel.", "quantifier": "all points, strengths, radii", "why_tests_cant": "Continuum, all branches.", "anchors": ["wiz/VortexCylinder.py:vc_tang_u", "wiz/VortexCylinder.py:vcs_tang_u"]}
{"id": "C42", "title": "Vortex cylinder velocity is axisymmetric", "statement": "In polar output the velocity depends only on r and z; in Cartesian output rotating the point about the axis rotates the velocity: (ux,uy) = ur*(x,y)/r, and mirror points give mirrored velocities.", "quantifier": "all points, all rotation angles", "why_tests_cant": "Relational over all angles and branches.", "anchors": ["wiz/VortexCylinder.py:vc_tang_u"]}
{"id": "C43", "title": "Rotor-plane values", "statement": "On the rotor plane z=0 the axial induction is gamma_t/2 inside the cylinder, gamma_t/4 on the edge, 0 outside.", "quantifier": "all radii, strengths", "why_tests_cant": "Continuum with branch boundaries.", "anchors": ["wiz/VortexCylinder.py:vc_tang_u"]}
{"id": "C44", "title": "Two half cylinders make an infinite cylinder", "statement": "At every point off the edge uz(r,z)+uz(r,-z) equals gamma_t inside, gamma_t/2 on the surface and 0 outside, and ur(r,z)=ur(r,-z).", "quantifier": "all points and strengths", "why_tests_cant": "Relational over a continuum.", "anchors": ["wiz/VortexCylinder.py:vc_tang_u"]}
{"id": "C45", "title": "Finite cylinder is the difference of two semi-infinite ones", "statement": "cylinder_tang_u(z1,z2) equals the semi-infinite cylinder starting at z1 minus the one starting at z2 at every regular point.", "quantifier": "all regular points, z1,z2", "why_tests_cant": "Relational over a continuum.", "anchors": ["wiz/VortexCylinder.py:cylinder_tang_u", "wiz/VortexCylinder.py:vc_tang_u"]}
{"id": "C46", "title": "Vortex cylinder velocity is scale invariant", "statement": "Scaling the point and the radius by the same factor leaves the velocity unchanged, including in every special-case branch.", "quantifier": "all points, scales", "why_tests_cant": "Relational; absolute thresholds would break it on thin sets.", "anchors": ["wiz/VortexCylinder.py:vc_tang_u"]}
{"id": "C47", "title": "Vortex cylinder closed form is the Biot-Savart integral", "statement": "At every regular point (r>0, r!=R) the closed form with exact elliptic integrals equals the Biot-Savart integral over the semi-infinite vortex sheet.", "quantifier": "all regular points, strengths, radii", "why_tests_cant": "Integral identity over a continuum.", "anchors": ["wiz/VortexCylinder.py:vc_tang_u", "wiz/VortexCylinder.py:cylinder_tang_semi_inf_u_raw"]}
{"id": "C48", "title": "Axis formula is the superposition of ring axis formulas", "statement": "On the axis the cylinder velocity equals the integral over the wake of the ring axis velocities used by ring_u, increases monotonically from 0 far upstream through gamma_t/2 at the rotor to gamma_t far downstream.", "quantifier": "all axial positions, radii", "why_tests_cant": "Integral and limits.", "anchors": ["wiz/VortexCylinder.py:vc_tang_u", "wiz/VortexRing.py:ring_u"]}
{"id": "C49", "title": "Far-field switch (VCFF) is exact inside and accurate outside", "statement": "vc_tang_u_doublet equals vc_tang_u at points within r_bar_Cut*R of the origin and the doublet line elsewhere; on the upstream axis beyond the cut-off the relative error of the doublet is at most (R/z)^2.", "quantifier": "all points, cut-offs", "why_tests_cant": "Error bound over an unbounded region.", "anchors": ["wiz/VortexCylinder.py:vc_tang_u_doublet", "wiz/VortexDoublet.py:doublet_line_polar_u"]}
{"id": "C50", "title": "Multi-cylinder routines are superpositions", "statement": "vcs_tang_u returns the sum over all cylinders (and mirror images with Ground) of the translated single-cylinder fields, zero-strength cylinders contributing nothing, independent of the order of cylinders.", "quantifier": "all numbers of cylinders and radii", "why_tests_cant": "Unbounded double loops.", "anchors": ["wiz/VortexCylinder.py:vcs_tang_u", "wiz/VortexCylinder.py:vcs_longi_u"]}
{"id": "C51", "title": "Ring formulations agree", "statement": "ring_u_polar_singular (Branlard), ring_u_polar_singularb (Yoon) and the regular branches of ring_u_polar and ring_u return the same velocity at every regular point.", "quantifier": "all regular points, strengths, radii", "why_tests_cant": "Tests compare 50 points to 9 decimals.", "anchors": ["wiz/VortexRing.py:ring_u_polar_singular", "wiz/VortexRing.py:ring_u_polar_singularb", "wiz/VortexRing.py:ring_u_polar", "wiz/VortexRing.py:ring_u"]}
{"id": "C52", "title": "Ring closed form is the Biot-Savart integral", "statement": "At every point off the ring and off the axis the closed form equals the Biot-Savart line integral around the ring, and the axis branch equals it on the axis. Within 1e-7 of the ring itself both unregularised routines return the finite axial velocity Gamma/(4R).", "quantifier": "all points off the ring", "why_tests_cant": "Integral identity over a continuum.", "anchors": ["wiz/VortexRing.py:ring_u", "wiz/VortexRing.py:ring_u_polar_singularb"]}
{"id": "C53", "title": "Ring systems superpose", "statement": "rings_u (Cartesian) is the order-independent sum of translated ring_u fields; Gamma=0 rings contribute nothing. In polar output the sum is only meaningful for coaxial rings (radial directions of different rings are added as if equal).", "quantifier": "all systems of rings of any size", "why_tests_cant": "Unbounded systems.", "anchors": ["wiz/VortexRing.py:rings_u"]}
{"id": "C54", "title": "Regularised ring is linear in Gamma", "statement": "Regularised ring velocities scale with Gamma. (Violated by reg_method='linear', which evaluates the blending values with Gamma=-1,r0=1 whatever the arguments; holds for the singular and Saffman branches.)", "quantifier": "all strengths, radii, points", "why_tests_cant": "Default arguments hide it in tests using Gamma=-1.", "anchors": ["wiz/VortexRing.py:ring_u_polar"]}
{"id": "C55", "title": "Point doublet is the documented field", "statement": "Away from the singular ball doublet_u equals (3 r (m.r)/|r|^5 - m/|r|^3)/(4 pi), inside it is exactly 0; it is linear in m, invariant under joint translation, even under r->-r, and equals the polar version in every meridian plane.", "quantifier": "all points, moments", "why_tests_cant": "Continuum.", "anchors": ["wiz/VortexDoublet.py:doublet_u", "wiz/VortexDoublet.py:doublet_u_polar"]}
{"id": "C56", "title": "Doublet-line integrals are exact", "statement": "I30, tI50/3, tI51/3, tI52/3 equal the corresponding improper integrals over [0,inf) whenever a>0,c>0 and |b|<ac (and at b=-ac).", "quantifier": "all a,b,c in the domain", "why_tests_cant": "Improper integrals over a continuum.", "anchors": ["wiz/VortexDoublet.py:I30", "wiz/VortexDoublet.py:tI50", "wiz/VortexDoublet.py:tI51", "wiz/VortexDoublet.py:tI52"]}
{"id": "C57", "title": "Finite doublet-line integrals are exact", "statement": "The values returned by the finite-length routine equal the integrals over [0,L] in the regular branch (and in the singular branch when b=+-ac exactly), and tend to the semi-infinite values as L->inf. (Violated for the 5/2 integral: a coefficient of the primitive is wrong; refuted by a witness, proved for the other integrals and for the limit.)", "quantifier": "all a,b,c,L", "why_tests_cant": "Definite integrals over a continuum.", "anchors": ["wiz/VortexDoublet.py:_integrals_DL_finite"]}
{"id": "C58", "title": "Doublet line is the superposition of point doublets", "statement": "Off the line, doublet_line_u equals the integral of doublet_u over the (finite or semi-infinite, possibly skewed) line. (Holds for semi-infinite lines; violated for finite ones because of the C57 defect.)", "quantifier": "all points, skews, lengths", "why_tests_cant": "Integral identity.", "anchors": ["wiz/VortexDoublet.py:doublet_line_u", "wiz/VortexDoublet.py:doublet_u"]}
{"id": "C59", "title": "Straight semi-infinite doublet line is a point source", "statement": "For m=0 and L=inf the VD model's velocity is -dmz_dz/(4 pi) * (x,y,z)/|x|^3 at every point off the line; doublet_line_polar_u agrees with it wherever |r|,|z|>=1e-8.", "quantifier": "all points off the line", "why_tests_cant": "Continuum; equality of two code paths.", "anchors": ["wiz/VortexDoublet.py:doublet_line_u", "wiz/VortexDoublet.py:doublet_line_polar_u"]}
{"id": "C60", "title": "Semi-infinite line is Biot-Savart", "statement": "For a unit direction e and any point not on the forward line, vl_semiinf_u without core model equals Gamma/(4 pi) times the Biot-Savart integral along the half line; within the singularity guard it returns exactly 0.", "quantifier": "all points, directions, strengths", "why_tests_cant": "Integral identity.", "anchors": ["wiz/VortexLine.py:vl_semiinf_u"]}
{"id": "C61", "title": "Straight and general half-line routines agree", "statement": "For e=(0,0,1) the general routine and vl_semiinf_straight_u(_polar) return the same velocity at all points outside the guards.", "quantifier": "all points", "why_tests_cant": "Test compares one point.", "anchors": ["wiz/VortexLine.py:vl_semiinf_u", "wiz/VortexLine.py:vl_semiinf_straight_u_polar", "wiz/VortexLine.py:vl_semiinf_straight_u"]}
{"id": "C62", "title": "Viscous core models", "statement": "Only visc_model 0 and 5 are usable (5: cut-off added to the denominator, bounded velocity); models 1-4 raise for every point outside the singular guard because of undefined names; any other model number behaves like 0.", "quantifier": "all points and model numbers", "why_tests_cant": "Error branches for all inputs.", "anchors": ["wiz/VortexLine.py:vl_semiinf_u"]}
{"id": "C63", "title": "Skewed tangential: polar and Cartesian outputs agree", "statement": "For svc_tang_u_polar, u_r and u_psi of the polar output are the polar components of the Cartesian output for any number of quadrature points.", "quantifier": "all points, skews, ntheta", "why_tests_cant": "Relational over all quadrature sizes.", "anchors": ["wiz/VortexCylinderSkewed.py:svc_tang_u_polar", "wiz/VortexCylinderSkewed.py:polar_components"]}
{"id": "C64", "title": "Skewed longitudinal: polar and Cartesian outputs agree", "statement": "Same for svc_longi_u_polar. (Violated for u_r, which returns u_psi; holds for u_psi and u_z.)", "quantifier": "all points, skews, ntheta", "why_tests_cant": "Default output mode hides it from tests.", "anchors": ["wiz/VortexCylinderSkewed.py:svc_longi_u_polar"]}
{"id": "C65", "title": "Skewed cylinder integrands are exact wake-line integrals", "statement": "At each azimuth the integrand of svc_tang_u_polar (resp. svc_longi_u_polar) equals the Biot-Savart contribution of the corresponding skewed generator line integrated from the rotor to infinity, and the quadrature value converges to the full surface integral as the number of azimuths grows.", "quantifier": "all points, azimuths, skews", "why_tests_cant": "Improper integral identity.", "anchors": ["wiz/VortexCylinderSkewed.py:svc_tang_u_polar", "wiz/VortexCylinderSkewed.py:svc_longi_u_polar"]}
{"id": "C66", "title": "Skewed rotor centre value", "statement": "At the rotor centre the axial velocity of the skewed tangential cylinder is exactly gamma_t/2 for every skew angle and every ntheta>=2.", "quantifier": "all skews, strengths, radii, ntheta", "why_tests_cant": "Test checks one skew and ntheta to 7 digits.", "anchors": ["wiz/VortexCylinderSkewed.py:svc_tang_u_polar"]}
{"id": "C67", "title": "Skewed root vortex branches agree", "statement": "In the rotor plane the analytical branch of svc_root_u_polar equals the general half-line formula outside both guards; m=0 equals the straight root vortex. The value at a point depends on the other points of the batch inside the guard gap 1e-7<r<1e-5.", "quantifier": "all points, skews, batches", "why_tests_cant": "Batch-dependence on thin sets.", "anchors": ["wiz/VortexCylinderSkewed.py:svc_root_u_polar", "wiz/VortexLine.py:vl_semiinf_u"]}
{"id": "C68", "title": "Mirror images are applied to every cylinder type", "statement": "With Ground=True multi-cylinder routines add the field of the mirrored cylinders. (Violated by svcs_longi_u, which adds the unmirrored field twice, and by vcs_longi_u, which ignores Ground.)", "quantifier": "all farms, points", "why_tests_cant": "Relational.", "anchors": ["wiz/VortexCylinderSkewed.py:svcs_longi_u", "wiz/VortexCylinderSkewed.py:svcs_tang_u", "wiz/VortexCylinder.py:vcs_longi_u"]}
{"id": "C69", "title": "Component changes are isometries", "statement": "skew_components and polar_components are rotations of the velocity components: they preserve the norm and are inverted by the opposite rotation for every skew and azimuth.", "quantifier": "all components, skews, azimuths", "why_tests_cant": "Continuum.", "anchors": ["wiz/VortexCylinderSkewed.py:skew_components", "wiz/VortexCylinderSkewed.py:polar_components"]}
{"id": "C70", "title": "Point vortex superposition", "statement": "vps_u is the order-independent sum of single-vortex velocities, a single vortex agrees with vp_u, every entry is finite (for non-zero core sizes), and coincident points contribute nothing.", "quantifier": "all systems of any size, all smoothing models", "why_tests_cant": "Unbounded N.", "anchors": ["wiz/VortexPoint.py:vps_u", "wiz/VortexPoint.py:vp_u"]}
{"id": "C71", "title": "Point vortex systems conserve impulse", "statement": "For any system of point vortices evaluated at their own positions (unsmoothed, or with a common core), sum_i Gamma_i u_i = 0 and sum_i Gamma_i x_i.u_i = 0.", "quantifier": "all systems of any size", "why_tests_cant": "Pairwise cancellation for unbounded N.", "anchors": ["wiz/VortexPoint.py:vps_u"]}
{"id": "C72", "title": "Unknown smoothing models are rejected", "statement": "vps_u raises for every SmoothModel outside {0,1,2} and every kernel order outside the documented lists, before computing anything.", "quantifier": "all integers", "why_tests_cant": "Infinite decision table.", "anchors": ["wiz/VortexPoint.py:vps_u"]}
{"id": "C73", "title": "Self-similar model shape", "statement": "ss_u is 0 for Z>0; for Z<=0 it has the sign of gamma_t, is bounded by |gamma_t|/2, equals the vortex-cylinder axis value on the axis, decreases in magnitude with radial distance, and is linear in gamma_t.", "quantifier": "all points, radii, strengths", "why_tests_cant": "Monotonicity and bounds over a continuum.", "anchors": ["wiz/SelfSimilar.py:ss_u"]}
{"id": "C74", "title": "Plane files round-trip", "statement": "loadPlane(base) after any history of savePlane calls returns the coordinates and the velocities divided by U0 of the last save whose base has the same normalised path; no other file is touched; a crash between the four writes leaves a plane that mixes old and new components exactly in file order (the save is not atomic). The file name is normpath(base) followed by the letter, so a base ending in '/' does not write inside that directory.", "quantifier": "all arrays, all base names and file systems", "why_tests_cant": "Unbounded names/contents.", "anchors": ["coupling_examples/helper_functions.py:savePlane", "coupling_examples/helper_functions.py:loadPlane"]}
{"id": "C75", "title": "Numerical doublet lines are Riemann sums of point doublets", "statement": "doublet_line_u_num and doublet_line_polar_u_num return the sum over all nQuad discretisation points (both end points with full weight) of the point-doublet velocities with strength dmz_dz*dz; the Cartesian and polar variants describe the same velocity when the line is straight; fewer than two points raise an exception; away from the line the sum converges to the line integral as nQuad grows, and that integral tends to doublet_line_u as the length grows.", "quantifier": "all points, strengths, line lengths, numbers of quadrature points", "why_tests_cant": "Unbounded number of quadrature points; equality for all points.", "anchors": ["wiz/VortexDoublet.py:doublet_line_u_num", "wiz/VortexDoublet.py:doublet_line_polar_u_num"]}
{"id": "C76", "title": "The Carlson recursion converges to the complete elliptic integral of the third kind", "statement": "For every n<1 and m<1 the value of the recursion used by ellipticPiCarlson tends to Pi(n,m) as the iteration counts of its loops grow. (The stopping test of the loops does not guarantee a large count: for some m in (0,1) it stops after two or three steps with an error of several percent.)", "quantifier": "all n<1, m<1", "why_tests_cant": "Limit of an iteration; continuum of parameters.", "anchors": ["wiz/elliptic.py:ellipticPiCarlson"]}
{"id": "C77", "title": "Longitudinal vorticity of a cylinder is the Biot-Savart integral of axial filaments", "statement": "At every point off the axis and off the surface, in every batch, vc_longi_u equals the Biot-Savart velocity of the semi-infinite straight filaments distributed around the cylinder, up to a swirl due to the truncated elliptic integral that is at most 3% of |gamma_l| R/r whatever the loops of that integral do; it is a pure swirl, zero inside and gamma_l R/(2r) outside in the disk plane. vcs_longi_u, with any number of rotors and cylinders, is within the sum of those bounds of the sum of the Biot-Savart velocities, and has no axial component.", "quantifier": "all batches of points off the axis and surface, strengths, radii", "why_tests_cant": "Integral identity over a continuum.", "anchors": ["wiz/VortexCylinder.py:vc_longi_u", "wiz/VortexCylinder.py:vc_longi_u_polar", "wiz/VortexCylinder.py:vcs_longi_u"]}
{"id": "C78", "title": "Zero skew is the straight cylinder", "statement": "With m=0 the velocities of svc_tang_u and svc_longi_u converge, as ntheta grows, to the exact Biot-Savart velocities of the straight semi-infinite cylinder that vc_tang_u and vc_longi_u evaluate, at every point off the wake surface.", "quantifier": "all points off the wake, radii, strengths; limit in ntheta", "why_tests_cant": "Limit of a quadrature and an exchange of improper integrals.", "anchors": ["wiz/VortexCylinderSkewed.py:svc_tang_u", "wiz/VortexCylinderSkewed.py:svc_longi_u", "wiz/VortexCylinder.py:vc_tang_u", "wiz/VortexCylinder.py:vc_longi_u"]}
{"id": "C79", "title": "Skewed cylinders: linear in the strength, scale invariant", "statement": "For every ntheta the velocities of svc_tang_u and svc_longi_u are linear in the strength and unchanged when the radius and all coordinates are multiplied by the same positive factor.", "quantifier": "all points off the wake, radii, skews, ntheta, factors", "why_tests_cant": "Relational over a continuum.", "anchors": ["wiz/VortexCylinderSkewed.py:svc_tang_u", "wiz/VortexCylinderSkewed.py:svc_longi_u"]}
{"id": "C80", "title": "Mirror symmetries of the skewed cylinder", "statement": "Reversing the skew mirrors the field of svc_tang_u in the plane x=0 exactly for every ntheta; for odd ntheta (and in the limit) the field is symmetric with respect to the plane y=0.", "quantifier": "all points off the wake, radii, strengths, skews, ntheta", "why_tests_cant": "Relational over a continuum and all quadrature sizes.", "anchors": ["wiz/VortexCylinderSkewed.py:svc_tang_u", "wiz/VortexCylinderSkewed.py:svc_tang_u_polar"]}
{"id": "C81", "title": "End to end: momentum theory at the rotor and in the far wake", "statement": "For a turbine in any position, orientation and history, not skewed, loaded with one cylinder and evaluated with the cylinder model without ground effect: in the rotor plane the induced velocity along the shaft is gamma_t/2 at every point strictly inside the rotor and 0 strictly outside; at the distance z from the hub along the shaft the induced velocity is exactly gamma_t/2(1+z/sqrt(z^2+R^2)) along the shaft, increasing from 0 far upstream to gamma_t far downstream. After update_loading with a mean thrust coefficient below the high-thrust limit the axial velocity in the rotor plane is |U0|(1-a) and tends to |U0|(1-2a), with 4a(1-a)=Ct(1+a'_c).", "quantifier": "all turbines, histories, batches, points, loadings", "why_tests_cant": "Continuum of states and points; composition of five layers of code.", "anchors": ["wiz/WindTurbine.py:WindTurbine.compute_u", "wiz/WindTurbine.py:WindTurbine.update_loading", "wiz/VortexCylinder.py:vc_tang_u", "wiz/Solver.py:WakeVorticityFromCt"]}
{"id": "C82", "title": "Regularised vortex cylinder", "statement": "With epsilon!=0 vc_tang_u returns finite values at every control point of every batch; upstream of the rotor plane it returns exactly what it returns with epsilon=0; at and downstream of the plane (off axis and edge) its radial velocity is the unregularised one at the height sqrt(z^2+epsilon^2); in the rotor plane the axial velocity is gamma/2 times a smoothed step with values strictly between 0 and 1, above 1/2 inside the rim and below outside, and tends to the unregularised value as epsilon tends to 0.", "quantifier": "all batches, strengths, radii R>0, epsilon!=0", "why_tests_cant": "Continuum of points and a limit in epsilon.", "anchors": ["wiz/VortexCylinder.py:vc_tang_u"]}
{"id": "C83", "title": "Legacy outputs of the skewed functions", "statement": "fV_Tangential, fV_Trailed and fV_Root return the first nout of (axial, azimuthal, x, y, along-wake, across-wake, radial) components of one velocity, which is the (quadrature of the) Biot-Savart velocity of the unit-radius sheet or of the root vortex; nout=1 returns the axial component only.", "quantifier": "all points off the wake, strengths, skews, ntheta>=1, nout", "why_tests_cant": "Continuum of points and parameters.", "anchors": ["wiz/VortexCylinderSkewed.py:fV_Trailed", "wiz/VortexCylinderSkewed.py:fV_Tangential", "wiz/VortexCylinderSkewed.py:fV_Root"]}
{"id": "C84", "title": "Complete skewed wake is the sum of its three parts", "statement": "svc_u_polar returns at every point off the wake the sum of the velocities of the tangential sheet, the trailed sheet and the root vortex, in Cartesian components, or in polar components with polar_out.", "quantifier": "all batches, points off the wake, strengths, skews, ntheta>=1", "why_tests_cant": "Continuum of points and parameters.", "anchors": ["wiz/VortexCylinderSkewed.py:svc_u_polar"]}
{"id": "C85", "title": "Curled-wake far-field models agree", "statement": "ve_u returns exactly the trapezoidal quadrature, over the given rim samples, of the 2-D velocities of point vortices on the projected rim, and vcl_u the quadrature of the Biot-Savart velocities of the half-lines trailed from the yawed rim (which have no component along the wind), each weighted by its Gaussian core when one is given; far downstream the velocity of vcl_u tends to that of ve_u at the same cross-stream position; on a full turn vps_u applied to the discrete vortex points returns exactly the velocity of ve_u; refining the azimuthal grid makes ve_u converge to the integral over the rim.", "quantifier": "all control points, rim samplings, radii, skews, smoothing options", "why_tests_cant": "Continuum of points, limits in downstream distance and in the number of samples.", "anchors": ["wiz/examples/CurledWake_2D.py:ve_u", "wiz/examples/CurledWake_2D.py:vcl_u"]}
{"id": "C86", "title": "Rotor-plane skew expansions are the amplitudes of the exact axial induction", "statement": "On the diameter of the rotor along the skew the axial velocity of the skewed sheet is gamma/2 (1 +- K_z(r/R, tan chi)); fKzt's closed form equals K_z (with exact elliptic integrals; with the library's own, up to their errors), its quadratures are exactly equal to each other and converge to K_z; fKxit's quadrature equals fKzt's divided by sin(chi) and its closed form equals the corresponding amplitude; fKzt raises at zero skew.", "quantifier": "all batches of radii in [0,1), all skews, all numbers of quadrature nodes", "why_tests_cant": "Identity between elliptic integrals, a Biot-Savart surface integral and a limit, over a continuum of radii and skews.", "anchors": ["wiz/VortexCylinderSkewed.py:fKxit", "wiz/VortexCylinderSkewed.py:fKzt", "wiz/elliptic.py:ellipticPiCarlson"]}
{"id": "C87", "title": "Induced velocities conserve mass", "statement": "The velocity returned by the skewed cylinder routines (tangential and longitudinal, with any number of azimuthal points), the half-line vortex, the point vortices (any core model), and by compute_u of a turbine with a skewed wake (any history, ground effect, free stream, tangential and longitudinal components) is, off the vorticity and the cut-off regions, a differentiable field of zero divergence; a farm of turbines whose fields are divergence-free has a divergence-free field. False for the self-similar model, for the ring inside its axis cut-off tube, and for the straight vc_tang_u as shipped (its Carlson loops stop early for some points well inside the wake; the exact field it approximates does conserve mass, C88).", "quantifier": "all points off the wake, strengths, radii, skews, numbers of azimuthal points, turbine histories, farms", "why_tests_cant": "A differential identity at every point of a continuum, for every quadrature size and every history; finite differences only sample it.", "anchors": ["wiz/VortexCylinderSkewed.py:svc_tang_u", "wiz/VortexCylinderSkewed.py:svc_longi_u", "wiz/VortexCylinder.py:vc_tang_u", "wiz/VortexLine.py:vl_semiinf_u", "wiz/VortexPoint.py:vps_u", "wiz/SelfSimilar.py:ss_u", "wiz/VortexRing.py:ring_u", "wiz/WindTurbine.py:WindTurbine.compute_u", "wiz/WindFarm.py:WindFarm.velocity_field"]}
{"id": "C88", "title": "Flow is irrotational off the vorticity", "statement": "Off its vorticity (and cut-off regions) the velocity of a ring, a doublet, a straight doublet line, of a turbine with the doublet-line model, and the exact field of the right and skewed cylinders of tangential vorticity are divergence-free and curl-free, inside as well as outside the wake.", "quantifier": "all points off the vorticity, strengths, radii, skews, turbine histories", "why_tests_cant": "A differential identity of elliptic-integral and improper-integral expressions at every point of a continuum.", "anchors": ["wiz/VortexRing.py:ring_u", "wiz/VortexDoublet.py:doublet_u", "wiz/VortexDoublet.py:doublet_line_u", "wiz/VortexCylinder.py:vc_tang_u", "wiz/VortexCylinderSkewed.py:svc_tang_u", "wiz/WindTurbine.py:WindTurbine.compute_u"]}
{"id": "C89", "title": "Grid data are read at their nodes", "statement": "`find_nearest` returns an entry of the array that no other beats, the first such, with its index, and fails only on an empty array; the plane readers (`fCenter`, `fAxial`, `fRadial`) return the stored velocities at the nodes of a grid that contains the axis / the requested height.", "quantifier": "all arrays, values, grids and stored data", "why_tests_cant": "Ties, repeated values and every grid shape cannot be enumerated.", "anchors": ["wiz/article_blockage/helper_functions.py:find_nearest", "wiz/article_blockage/helper_functions.py:OutputAD.fCenter", "wiz/article_blockage/helper_functions.py:OutputAD.fAxial", "wiz/article_blockage/helper_functions.py:OutputAD.fRadial"]}
{"id": "C90", "title": "Matching the centre velocity", "statement": "With `MatchMidVel` the model returned by `setupModel` has, at the rotor centre, the axial velocity of the actuator-disk data; a given strength is used as given; otherwise the strength is that of momentum theory.", "quantifier": "all data, operating points, yaw angles, tip-speed ratios, wind speeds and (where true) wake models", "why_tests_cant": "The claim ranges over all data sets and operating points and rests on the exact value of the wake kernels at a singular-looking point.", "anchors": ["wiz/article_blockage/helper_functions.py:setupModel", "wiz/article_blockage/helper_functions.py:OutputVC", "wiz/article_blockage/helper_functions.py:OutputVC.fU"]}
{"id": "C91", "title": "Sampling the model in hub coordinates", "statement": "The sampling functions of the model evaluate it at the points of their plane, line or radius; without ground effect the result does not depend on the hub height; an unyawed case (or one with a thrust coefficient above 1) is a straight wake.", "quantifier": "all point sets, hub heights, cases and options", "why_tests_cant": "Equality of fields over a continuum of points and heights.", "anchors": ["wiz/article_blockage/helper_functions.py:OutputVC.fHorz", "wiz/article_blockage/helper_functions.py:OutputVC.fVert", "wiz/article_blockage/helper_functions.py:OutputVC.fAxial", "wiz/article_blockage/helper_functions.py:OutputVC.fRadial", "wiz/article_blockage/helper_functions.py:setupModel"]}
{"id": "C92", "title": "Farm from an array of thrust coefficients", "statement": "`VCFarmFromFloris` builds one turbine per entry of the array, at its place on the grid, aligned with the wind, loaded with its own thrust coefficient (array row = lateral position, column = downstream position); with no turbines it raises. The field of the farm is the sum of the turbines.", "quantifier": "all array shapes, coefficients, spacings, heights and strength functions", "why_tests_cant": "The pairing of a transposed ravel with a grid order must hold for every shape and index.", "anchors": ["wiz/article_blockage/helper_functions.py:VCFarmFromFloris", "wiz/WindFarm.py:gridLayout"]}
{"id": "C93", "title": "Farm velocities along probe lines", "statement": "`ADFarm2VCFarm` returns, along each probe line, the free stream plus the sum of what each turbine induces once loaded with its own coefficient, the second line unaffected by having evaluated the first; fewer coefficients than turbines raise.", "quantifier": "all layouts, thrust coefficients, probe lines", "why_tests_cant": "Superposition over any number of turbines after a stateful evaluation.", "anchors": ["wiz/article_blockage/helper_functions.py:ADFarm2VCFarm", "wiz/WindFarm.py:WindFarm.velocity_field"]}
{"id": "C94", "title": "Relative error of profiles", "statement": "`relerrinduction` is 100 times the mean relative difference of the piecewise-linear profiles over 100 equidistant probes; it is at most 100·ε if the samples differ by at most the fraction ε, is 100·|1-c| for a profile scaled by c, and 0 for equal profiles.", "quantifier": "all abscissae, positive reference profiles, second profiles and probe intervals", "why_tests_cant": "Bounds over all profiles and sample counts.", "anchors": ["wiz/article_blockage/helper_functions.py:relerrinduction", "wiz/article_blockage/helper_functions.py:relerrinduction_mid", "wiz/article_blockage/helper_functions.py:relerrinduction_25"]}
{"id": "C95", "title": "Fitted thrust functions", "statement": "`gamma_CT_fun(CT,*p)` is -2(p0 CT+p1 CT^2+p2 CT^3+p3 CT^4), raises with fewer than four parameters and ignores further ones; a turbine loaded through it induces the axial velocity -(p0 C+p1 C^2+p2 C^3+p3 C^4) everywhere on its rotor disk, C being the mean thrust coefficient. (It is documented as gamma_t/U0, but the wind speed is never applied: the induced velocity does not scale with the wind.)", "quantifier": "all parameters, thrust distributions, histories of the turbine, points of the disk", "why_tests_cant": "Polynomial identity over all reals composed with an arbitrary history.", "anchors": ["wiz/article_blockage/helper_functions.py:gamma_CT_fun", "wiz/WindTurbine.py:WindTurbine.update_loading"]}
{"id": "C96", "title": "Goodness of fit scores", "statement": "`rsquare(y,f)` compares only pairs without nan; R2 is max(0,1-SSE/SST) and the second output is the root mean square error; R2 lies in [0,1], is 1 exactly for a perfect fit of non-constant data, 0 for any fit no better than the mean, 0 for constant data whatever the fit, and is unchanged by a common affine change of units, which scales the error by the slope; arrays of different lengths raise. `r2induction` is that score for two piecewise-linear profiles at 100 probes.", "quantifier": "all data, fits and array lengths", "why_tests_cant": "Inequalities over all data of any length.", "anchors": ["wiz/article_skew/test_Skew_TangentialVorticity.py:rsquare", "wiz/article_blockage/helper_functions.py:r2induction"]}
{"id": "C97", "title": "Elapsed time strings", "statement": "`pretty_time(t)` writes a non-negative time below 99 days as two numbers with their units (seconds and hundredths, minutes and seconds, hours and minutes, days and hours), rounded down, the small unit never reaching a large one; up to a year as months to the nearest tenth; a negative time gives the error string. The result has six characters for all times below a year. (The docstring's 6 characters fail from one year on.)", "quantifier": "all real times", "why_tests_cant": "A statement on every real time, including the carries at every unit boundary.", "anchors": ["wiz/examples/tictoc.py:pretty_time"]}
{"id": "C98", "title": "Colour maps of the planes", "statement": "`make_colormap(seq, values)` gives one row per value with the k-th colour on both sides, nothing outside the ends, evenly spaced from 0 to 1 without values, and raises with more values than colours; `get_cmap(minSpeed, maxSpeed)` is a map matplotlib accepts exactly when minSpeed<=0.9 and maxSpeed>=1.001; then exactly the normalised speeds of 0.999 to 1.001 are white, the ends get the end colours, and the opacity is alpha everywhere.", "quantifier": "all colour sequences, values, speed ranges, speeds and opacities", "why_tests_cant": "Ranges over lists of any length and over all real speeds.", "anchors": ["wiz/plotting_functions.py:make_colormap", "wiz/plotting_functions.py:get_cmap"]}
{"id": "C99", "title": "A stack of rings is the cylinder", "statement": "At every point off the wake surface, `rings_u` for rings at `linspace(0,L,n)` on the wake axis, of strength gamma_t dz/cos(chi), is as close as wanted to the exact field of the skewed cylinder, and to `svc_tang_u` with enough azimuths, once the stack is long enough and then dense enough; for chi=0 likewise the straight cylinder, on the axis too. Where some rings use their axis value (point within 1e-7 R of a ring's axis) the limit is off by at most 1e-6 |gamma_t|/cos(chi).", "quantifier": "all strengths, radii, skew angles, points off the wake and off the ring cut-offs, all accuracies, lengths and ring numbers", "why_tests_cant": "A limit in two parameters at every point; the tests compare one stack of 1000 rings at forty points to one or two decimals.", "anchors": ["wiz/VortexCylinderSkewed.py:TestSkewedCylinder.test_SVC_rings", "wiz/VortexCylinder.py:TestCylinder.test_VC_rings", "wiz/VortexRing.py:rings_u", "wiz/VortexCylinderSkewed.py:svc_tang_u", "wiz/examples/VortexCylinderSkewed.py"]}
{"id": "C100", "title": "Rotor disk and far wake of a skewed cylinder", "statement": "As the number of azimuths grows, `svc_tang_u` at every point of the rotor disk has a component along the wake (`skew_components`) tending to gamma_t/2; the velocities at opposite points of the disk add up to twice the centre value (gamma_t/2)(tan(chi/2),0,1); on the diameter x=0 u_x, u_z, u_zeta, u_xi are uniform. Inside the wake at axial distance z the limit velocity is gamma_t (tan(chi/2),0,1) up to |gamma_t| R/(z/cos(chi)-2R).", "quantifier": "all strengths, radii, skew angles in (-pi/2,pi/2), all points of the disk, all far-wake points inside the cylinder with z>2R cos(chi)", "why_tests_cant": "A statement about every point of a disk and a limit downstream; the project's tests use one cylinder, sixty points and five decimals.", "anchors": ["wiz/VortexCylinderSkewed.py:svc_tang_u", "wiz/VortexCylinderSkewed.py:skew_components", "wiz/VortexCylinderSkewed.py:TestSkewedCylinder.test_SVC_rotor", "wiz/VortexCylinderSkewed.py:TestSkewedCylinder.test_SVC_farwake"]}
{"id": "C101", "title": "Linearised field near the axis", "statement": "Within R/5 of the axis `ring_u` returns axial velocity Gamma R^2/(2a^3) and radial velocity 3 Gamma R^2 r z/(4a^5), a^2=R^2+z^2, up to 40|Gamma|R^2 r^2/a^5 per component (exactly the axis value inside its axis cut-off); `vc_tang_u` returns radial velocity -gamma_t R^2 r/(4a^3) up to (5/2)|gamma_t| R^3 r^2/a^5 and axial velocity gamma_t/2 (1+z/a) up to (5/2)|gamma_t||z| R^2 r^2/a^5 and its own elliptic-integral truncation (inside its axis cut-off exactly zero and exactly gamma_t/2 (1+z/a)).", "quantifier": "all strengths, radii, heights z and all points with r <= R/5, every batch", "why_tests_cant": "The project's tests check the formulas at one radius, 21 heights and three decimals; the bound is uniform in z and quadratic in r.", "anchors": ["wiz/VortexRing.py:ring_u", "wiz/VortexRing.py:TestRing.test_Ring_axis_approx", "wiz/VortexCylinder.py:vc_tang_u", "wiz/VortexCylinder.py:TestCylinder.test_VC_axis_approx"]}
{"id": "C102", "title": "A vortex ring far away is a doublet", "statement": "At distance d >= 5R from the centre of a ring, the velocity `ring_u` gives and the one `doublet_u` gives for the moment (0,0,Gamma pi R^2) differ by at most 41|Gamma|R^3/d^4 per component.", "quantifier": "all strengths, radii, all points at distance at least 5R (also inside the axis cut-off of the ring routine) outside the cut-off d^3 < 1e-8 of doublet_u", "why_tests_cant": "The project's test compares 35 points of one circle with a 6% tolerance; the claim is a decay rate over an unbounded region.", "anchors": ["wiz/VortexRing.py:ring_u", "wiz/VortexRing.py:TestRing.test_Ring_doublet_approx", "wiz/VortexDoublet.py:doublet_u"]}
{"id": "C103", "title": "A wake far away is a line of doublets", "statement": "At a point at least delta >= 5R away from every point of the wake axis, the limit velocity of `svc_tang_u` and the velocity `doublet_line_u` gives for the moment gamma_t sqrt(1+m^2) pi R^2 per unit height differ by at most 126 |gamma_t| sqrt(1+m^2) (R/delta)^3 per component; without skew `vc_tang_u`, `doublet_line_u` (model VD) and, beyond the cut-off, `vc_tang_u_doublet` (model VCFF) agree within 126|gamma_t|(R/delta)^3 (up to the elliptic-integral truncation). Inside the wake they never agree: VD and VCFF return an axial velocity of sign opposite to gamma_t where the cylinder gives at least 0.4 gamma_t.", "quantifier": "all strengths, radii, skews, batches and cut-offs; all points at distance >= 5R of the wake axis; all points within R/5 of the axis and beyond the cut-off", "why_tests_cant": "An asymptotic comparison of an elliptic-integral field with an algebraic one over an unbounded region; tests only plot contours.", "anchors": ["wiz/VortexCylinderSkewed.py:svc_tang_u", "wiz/VortexCylinder.py:vc_tang_u", "wiz/VortexCylinder.py:vc_tang_u_doublet", "wiz/VortexDoublet.py:doublet_line_u", "wiz/WindTurbine.py:WindTurbine.compute_u", "wiz/examples/VortexDoublet_CompareCylinder.py"]}
{"id": "C104", "title": "The continuous wake solver", "statement": "For every circulation distribution the continuous solver returns a'=k/(4 lambda^2), the effective thrust k(1+a') minus the trapezoidal rotational loss from the station to the tip, the axial induction of that thrust, the pitch 2 pi U0(1-2a)/(Omega(1+2a')) and intensities with gamma_t h = -(Gamma_i-Gamma_{i+1}); without swirl the loss and a' vanish. The cylinders it returns induce the reported axial induction. (The last clause is violated: for constant circulation half the sum of gamma_t is -U0 a(1-a)/(1-2a).)", "quantifier": "all numbers of stations, radii, circulations, rotor speeds and free streams (nonzero)", "why_tests_cant": "The code is exercised on plots of one distribution; the clauses quantify over arbitrary arrays and the violated one holds to first order in a, so small inductions hide it.", "anchors": ["wiz/Solver.py:InductionsFromCirculation_VC_Cont", "wiz/Solver.py:WakeVorticityFromCirculation_Cont"]}
{"id": "C105", "title": "Reflection in the plane of the vortex system", "statement": "The swirl of the longitudinal cylinder at a point plus its swirl at the mirror image in the rotor plane is the field of the infinite cylinder (gamma_l R/r outside, 0 inside); the same for the root vortex (Gamma/(2 pi r)); a ring and a finite cylinder have mirror-symmetric axial and antisymmetric transverse velocity about their (mid-)plane.", "quantifier": "all batches, points off the surface and the axis, radii, strengths, cylinder bounds and core sizes", "why_tests_cant": "The identity is between two evaluations at arbitrary mirrored points, with a truncated elliptic integral in both; sampling cannot establish that the truncations cancel.", "anchors": ["wiz/VortexCylinder.py:vc_longi_u", "wiz/VortexLine.py:vl_semiinf_straight_u", "wiz/VortexRing.py:ring_u", "wiz/VortexCylinder.py:cylinder_tang_u"]}
{"id": "C106", "title": "Straight cylinder far from the rotor", "statement": "More than five radii upstream or downstream of the disk the tangential cylinder induces the velocity of a point sink of strength pi R^2 gamma at the rotor centre, plus gamma along the axis inside the wake (half of it exactly at its radius); the error is at most 126|gamma|(R/|z|)^3 per component besides the truncation of the third-kind integral, and |gamma|/4 (R/|z|)^4 on the axis.", "quantifier": "all batches, points with |z|>=5R off the wake surface, radii and strengths", "why_tests_cant": "An asymptotic rate with an explicit constant over an unbounded region; test_VC_farwake compares a handful of points to three decimals.", "anchors": ["wiz/VortexCylinder.py:vc_tang_u", "wiz/VortexCylinder.py:test_VC_farwake"]}
{"id": "C107", "title": "Reference quadratures of the doublet integrals", "statement": "The trapezoidal integrals I30_num, I50_num, I51_num, I52_num are finite off the half line and converge, as the number of points and then zmax grow, to the closed forms I30, tI50/3, tI51/3, tI52/3 used by the doublet line; at distance at least d from the line the first two have error at most (1+m^2) zmax^3/(n^2 d^5) and 5(1+m^2) zmax^3/(2 n^2 d^7).", "quantifier": "all points off the half line, slopes m, numbers of points and lengths zmax", "why_tests_cant": "A double limit and an error bound for all resolutions; the tests compare with one resolution at a few points.", "anchors": ["wiz/VortexDoublet.py:I30_num", "wiz/VortexDoublet.py:I50_num", "wiz/VortexDoublet.py:I51_num", "wiz/VortexDoublet.py:I52_num"]}
{"id": "C108", "title": "Discrete solver: intensity, pitch and trailed circulation are consistent", "statement": "At every cylinder the tangential intensity times the pitch returned equals minus the trailed circulation: gamma_t,i h_i = -(Gamma_i-Gamma_{i+1}). (Holds without swirl below the high-thrust limit; violated with swirl, where gamma_t h = -(pi U0^2/Omega)(Ct_i-Ct_{i+1})/(1+a'_c,i) with the effective thrust coefficients.)", "quantifier": "all numbers of cylinders, radii, circulations, blade numbers, wind and rotor speeds", "why_tests_cant": "It relates three arrays produced by a backward recursion of arbitrary length; no test looks at the pitch.", "anchors": ["wiz/Solver.py:WakeVorticityFromCirculation_Discr"]}
{"id": "C109", "title": "Prescribed torque coefficient in the continuous formulation", "statement": "Passing Cq leaves the axial induction and the thrust coefficients unchanged and makes the tangential induction satisfy 4a'(1-a)lambda_r=Cq at every station, with k_Cq(1-a)=Cq lambda_r; when Cq is the torque k(1-a)/lambda_r of the given circulation, k_Cq=k and a'=k/(4 lambda_r^2). The Cq argument acts also when swirl is off.", "quantifier": "all arrays of any length with nonzero local speed ratios and a different from 1", "why_tests_cant": "A balance at every station for arbitrary arrays; the option is used in one plotting script only.", "anchors": ["wiz/Solver.py:InductionsFromCirculation_VC_Cont"]}
{"id": "C110", "title": "Identities of the third-kind elliptic integral", "statement": "For every m<1, ellipticPiCarlson's recursion run long enough gives PI(m,m)=ellipe(m)/(1-m) and PI(0,m)=ellipk(m), and for every n<1 PI(n,0)=pi/(2 sqrt(1-n)), to any accuracy.", "quantifier": "all parameters m<1, characteristics n<1, accuracies and iteration counts beyond a bound", "why_tests_cant": "test_Elliptic_property compares twelve parameters to 7 digits.", "anchors": ["wiz/elliptic.py:ellipticPiCarlson", "wiz/elliptic.py:test_Elliptic_property", "wiz/elliptic.py:test_Elliptic_points"]}
{"id": "C111", "title": "Blockage: axial velocity is a solid angle; slow-down upstream, speed-up around the wake, expansion everywhere", "statement": "For a straight semi-infinite wake of tangential intensity gamma, off the rotor plane and off the wake boundary, the axial velocity induced at a point is gamma Omega/4pi upstream of the rotor, gamma(1-Omega/4pi) in the wake and -gamma Omega/4pi around the wake, where Omega in (0,2pi) is the solid angle under which the point sees the rotor disk (besides the truncation of the third-kind integral). It is monotone along every line parallel to the shaft inside the rotor radius. The velocity normal to the shaft is radial, outwards at every point when gamma<0. The same holds, in the rotor frame, for a turbine after any history of calls.", "quantifier": "all points off the plane/sheet/edge, radii, strengths, batches; all turbine histories without skew and with one cylinder", "why_tests_cant": "A sign and a closed form at every point of an unbounded domain; tests compare a few points with tabulated values.", "anchors": ["wiz/VortexCylinder.py:vc_tang_u", "wiz/WindTurbine.py:WindTurbine.compute_u"]}
{"id": "C112", "title": "Skewed wakes in wind coordinates: the scripts, the turbine class and the ring wake agree", "statement": "The example scripts that draw a skewed wake in planes normal to the wind use coordinate changes that are inverse isometries keeping the height; the velocity they return at every point off the wake is the one a turbine yawed by -theta in a wind (0,0,U) returns there, after any history of calls; without wake it is the wind; the hub vortex and concentric cylinders superpose linearly; the two scripts agree on two concentric cylinders; the wake made of rings tends to the exact skewed fields turned to wind axes; the circle drawn is the projection of the rotor; the speed drawn is |uz| clipped to the limits.", "quantifier": "all yaw angles, skews with cos != 0, strengths, radii, numbers of cylinders, points off the wake, turbine histories", "why_tests_cant": "The scripts only draw pictures; agreement with the class must hold for every geometry, point and history.", "anchors": ["wiz/examples/VortexCylinderSkewed.py", "wiz/examples/VortexCylinderSkewedSuperp.py", "wiz/WindTurbine.py:WindTurbine.compute_u"]}
{"id": "C113", "title": "The strengths of the superposed cylinders are proportional to the slope of the prescribed circulation", "statement": "The analytical circulation of the superposition script starts from zero at hub and tip, increases strictly towards mid-span, stays below one and tends to one; the strengths of the concentric cylinders are, up to one scaling factor, its radial slope.", "quantifier": "all tau > 0 and all positions along the span", "why_tests_cant": "Proportionality along a continuum of positions, for some unknown factor ('TODO figure out the scalling').", "anchors": ["wiz/examples/VortexCylinderSkewedSuperp.py:65-76"]}
{"id": "C114", "title": "Accuracy of the azimuthal quadrature of skewed wakes", "statement": "At a point at distance at least D from the skewed wake of a rotor of radius R, each velocity component of the tangential wake returned with n+1 azimuths is within |gamma| pi^2/(3 n^2) (R/D)(R/D+2)(1+10 R/D+18 (R/D)^2) of the exact Biot-Savart integral over the skewed sheet (for the longitudinal part the last factor is 4 R/D+24 (R/D)^2). Hence after any history a yawed turbine returns, one radius or more upstream of its rotor plane, a velocity within 1% of the wake strength of the exact one, for every skew; and at the hub the velocity along the shaft is exactly wind plus gamma/2.", "quantifier": "all points off the wake, radii, strengths, skews (m real; cos chi != 0 at turbine level), numbers of azimuths, batches, turbine histories", "why_tests_cant": "An error bound uniform over an unbounded region and all parameters; tests compare finitely many values with stored ones.", "anchors": ["wiz/VortexCylinderSkewed.py:svc_tang_u", "wiz/VortexCylinderSkewed.py:svc_longi_u", "wiz/WindTurbine.py:WindTurbine.compute_u"]}
{"id": "C115", "title": "Blockage of a grid farm is the sum of the solid angles of its rotors", "statement": "Upstream of every row, the axial velocity computed by windfarm_gridlayout_CTconst is -U0(1-sqrt(1-CT))/4pi times the sum over the turbines (and their images below the ground) of the positive solid angles under which the point sees the rotors, besides the truncation of the third-kind elliptic integral for rotors not straight behind the point. The reference velocity of the article scripts is exactly that of one turbine, so that the plotted blockage of a 1x1 farm is zero, that of a larger farm is exactly the contribution of the other rotors and images, and the plotted ground effect exactly that of the images.", "quantifier": "all batches of points upstream, all grid sizes, spacings, hub heights, CT<=1, wind speeds and radii; for the scripts all spacings of at least one diameter and hub heights of at least one radius", "why_tests_cant": "Sums over farms of any size and a continuum of points and parameters.", "anchors": ["wiz/WindFarm.py:windfarm_gridlayout_CTconst", "wiz/article_windfarm_plots/test_Task8_WindFarm_Spacing_NoGround.py:layout_ct", "wiz/article_windfarm_plots/test_Task9_WindFarm_GroundEffect.py:ground_effect"]}
{"id": "C116", "title": "Actuator-disk case lookup", "statement": "loadPlane finds a case exactly for: hub above 9 radii, horizontal plane, unyawed or without wake rotation (tip-speed ratio above 20); or hub at most 9 radii, unyawed, tip-speed ratio 6 or none. Tip-speed ratio and yaw must be integers unless the ratio is above 20. Two calls that read the same files agree on plane, yaw and tip-speed ratio, on the hub height to a tenth of a radius and on the thrust coefficient to a hundredth, and the model set up from the loaded case has a ground exactly if the data have one.", "quantifier": "all thrust coefficients, hub heights, tip-speed ratios (int or float), planes and yaw angles", "why_tests_cant": "File names are built by truncation and concatenation from a continuum of parameters; absence of collisions is a universal statement.", "anchors": ["wiz/article_blockage/helper_functions.py:loadPlane", "wiz/article_blockage/helper_functions.py:setupModel"]}
{"id": "C117", "title": "Relative errors of the blockage models", "statement": "getModelsRelErr returns, for every model, angle and distance, the difference of the axial velocities of model and actuator disk at the point in that direction in percent of the latter, and the means over the angles; the matched cylinder model has error zero at the rotor centre; missing data and unsupported models are errors.", "quantifier": "all data, interpolants, lists of angles, offsets, distances and models, with and without matching", "why_tests_cant": "Nested loops over lists of any length and arbitrary data.", "anchors": ["wiz/article_blockage/helper_functions.py:getModelsRelErr"]}
{"id": "C118", "title": "Rotor-centre velocity of a skewed cylinder at any resolution", "statement": "At the rotor centre the tangential vorticity of a skewed cylinder induces gamma_t/2 axially (exactly) and gamma_t/2*tan(chi/2) along the skew, the longitudinal vorticity gamma_l/2*tan(chi/2) across the skew and nothing else, up to an explicit error proportional to the (ntheta-2)-th power of tan(chi/2); with 180 azimuths or more and a skew of at most 60 degrees the error is below 1e-42 of the strength, also for the velocity a turbine returns at its hub. The scale u_y0 of the trailed-vorticity script is this value.", "quantifier": "all skews below 90 degrees, strengths, radii, polar angles of the centre, numbers of azimuths; all turbines and histories for the hub", "why_tests_cant": "The error of a sum of any length, for every skew.", "anchors": ["wiz/VortexCylinderSkewed.py:svc_tang_u_polar", "wiz/VortexCylinderSkewed.py:svc_longi_u_polar", "wiz/WindTurbine.py:compute_u", "wiz/article_skew/test_Skew_TrailedVorticity.py:main"]}
{"id": "C119", "title": "The cylinder velocity is within 3% of the sheet strength of Biot-Savart, whatever the batch", "statement": "vc_tang_u evaluates the third-kind elliptic integral with loops that stop when the worst point of the batch looks converged, and may stop too early (C76). Whatever they do, at every point off the rotor edge and off the radius of the sheet each horizontal component is within 1e-7*|gamma_t| of the Biot-Savart velocity of the sheet and the axial one within 0.03*|gamma_t|; at every point whatsoever the axial velocity is at most 1.03*|gamma_t|. The same holds for the velocity of a turbine with an unskewed wake, for turbines with any number of cylinders and/or ground effect and for vcs_tang_u with any number of rotors (the bound being the sum of the bounds of the cylinders and their images), and the velocity upstream of a grid farm is within 0.03*|gamma_t| per turbine and image of the sum of solid angles.", "quantifier": "all batches of points, strengths, radii; all turbines and histories; all grid farms, spacings and hub heights", "why_tests_cant": "The number of passes depends on all the points of the batch through a convergence test; the bound must hold for every number of passes.", "anchors": ["wiz/VortexCylinder.py:vc_tang_u", "wiz/elliptic.py:ellipticPiCarlson", "wiz/WindTurbine.py:compute_u", "wiz/WindFarm.py:windfarm_gridlayout_CTconst", "wiz/VortexCylinder.py:vcs_tang_u"]}
{"id": "C120", "title": "The wake boundary is a vortex sheet of strength gamma", "statement": "Crossing the radius of a semi-infinite vortex cylinder downstream of the rotor, the axial velocity jumps by exactly gamma_t while the other two components are continuous; upstream all components are continuous. Exactly on the boundary vc_tang_u returns, whatever the batch, the limit of the lateral components and, axially, the mean of the values inside and outside (the continuous value upstream). Two returned values inside and outside the wake differ by gamma_t up to the difference of the solid angles under which the points see the rotor and 6% of |gamma_t|.", "quantifier": "all strengths, radii, azimuths, axial positions off the rotor edge; all batches", "why_tests_cant": "The jump is a limit statement at every boundary point; on the boundary the code drops the third-kind elliptic integral (marked TODO) and only a proof shows the remaining terms are the mean.", "anchors": ["wiz/VortexCylinder.py:vc_tang_u"]}
{"id": "C121", "title": "The swirl of the longitudinal vorticity is accurate, confined to the wake's outside in the far field, and undefined on the axis", "statement": "vc_longi_u returns a number exactly at the points that are neither on the axis nor at the radius of the sheet (at any axial position); there it is the Biot-Savart velocity of the axial filaments plus a purely azimuthal error of at most 3% of |gamma_l| R/r, whatever the batch. On the axis and at the radius it returns nan, and a turbine with a straight wake and longi=True returns nan in all three components there. The swirl of the Biot-Savart field jumps by gamma_l across the sheet downstream of the rotor and is continuous upstream. Far downstream the returned swirl is gamma_l R/r outside the wake and zero inside it; far upstream it is zero.", "quantifier": "all batches, strengths, radii, positions; all turbines, histories, options (ground effect included)", "why_tests_cant": "The bound must hold at every position including those next to the singular radius, and for every batch (the elliptic integral's iteration count depends on the batch); the jump and the far-wake values are limit statements.", "anchors": ["wiz/VortexCylinder.py:vc_longi_u", "wiz/VortexCylinder.py:vc_longi_u_polar", "wiz/WindTurbine.py:compute_u"]}
{"id": "C122", "title": "Re-orienting a turbine is building it in that orientation", "statement": "After any sequence of method calls, calls of set_yaw0_coord and assignments to Ground and Model, a turbine is exactly the object obtained from the constructor with the orientation, ground flag and model set last, by ordinary method calls. set_yaw0_coord points the shaft along the given direction at zero yaw and changes nothing else; in particular a skew angle fixed by an earlier evaluation is kept. Assigning gamma_t directly gives the velocities of update_loading with a constant gamma_t_Ct.", "quantifier": "all turbines, all sequences of calls and assignments, all points and options", "why_tests_cant": "The statement is about every history; tests only build turbines in their final orientation.", "anchors": ["wiz/WindTurbine.py:set_yaw0_coord", "wiz/WindTurbine.py:compute_u", "wiz/article_blockage/helper_functions.py:windfarm_gridlayout", "wiz/examples/WindTurbineYawed_ArticlePlot.py"]}
{"id": "C123", "title": "Simulation database: requests are never confused, and both farm builders give the same flow", "statement": "`OutputADLines.getSim` gives two requests the same answer, whatever the database, exactly when the layouts are the same text, the whole spacings are equal (ignored for '1x1') and the thrust coefficients and hub heights agree when rounded to hundredths; a spacing that is not whole is refused (and `getSimCTs` refuses any float); for '1x1' `getSimTop` never returns. `get25` is the piecewise-linear interpolation of the middle line at -2.5. The array returned by `getSimCTs` for layout AxB, given to `VCFarmFromFloris`, puts thrust coefficient j*A+i of the record on the turbine in row i along the wind, place j across; if the record's hub positions are that grid, the farm from `ADFarm2VCFarm` and the one from `VCFarmFromFloris` have the same axial velocity at every probe point.", "quantifier": "all databases, spacings, layouts of positive sizes, thrust coefficients, hub heights, records and probe points", "why_tests_cant": "The database is not in the repository; key collisions, index conventions (row-major versus transposed order) and the sum over any number of turbines need a proof over all layouts.", "anchors": ["wiz/article_blockage/helper_functions.py:OutputADLines.getSim", "wiz/article_blockage/helper_functions.py:OutputADLines.getSimTop", "wiz/article_blockage/helper_functions.py:OutputADLines.get25", "wiz/article_blockage/helper_functions.py:OutputADLines.getSimCTs", "wiz/article_blockage/helper_functions.py:ADFarm2VCFarm", "wiz/article_blockage/helper_functions.py:VCFarmFromFloris"]}
{"id": "C124", "title": "What a turbine remembers: only the last of each setting, and the wind at the last successful loading", "statement": "After any sequence of method calls on a new turbine (positions, winds, yaws, loadings that succeed or raise, skew angles, evaluations), the object is equal, field by field, to one obtained from a new turbine by at most six calls: the wind in force at the last successful update_loading, that loading with the tip-speed ratio in force at the time, then the last position, wind, yaw and skew angle; if no loading succeeded, the first two are absent. Calls of different kinds can be exchanged freely, except update_wind and update_loading: a stronger wind set after loading leaves the vorticity at its old, weaker value.", "quantifier": "all constructor arguments and all finite histories of method calls, with any arguments", "why_tests_cant": "The set of histories is infinite; a test can only check that a few particular sequences agree, not that nothing else in the past can influence the object.", "anchors": ["wiz/WindTurbine.py:WindTurbine.__init__", "wiz/WindTurbine.py:WindTurbine.update_position", "wiz/WindTurbine.py:WindTurbine.update_wind", "wiz/WindTurbine.py:WindTurbine.update_yaw_pos", "wiz/WindTurbine.py:WindTurbine.update_loading", "wiz/WindTurbine.py:WindTurbine.set_chi", "wiz/WindTurbine.py:WindTurbine.compute_u"]}
{"id": "C125", "title": "Mirror images: yawing left or right, and lateral symmetry of an aligned turbine", "statement": "Reflecting a whole simulation in a plane (constructor vectors, every position, wind and control point reflected; every yaw angle and hand-set skew angle negated) reflects the velocities due to the tangential vorticity: the same exceptions are raised and the velocity at a reflected point is the reflected velocity. In particular, a turbine whose position and wind stay in the vertical plane of its shaft gives mirror-image fields when yawed by +y and by -y, and an aligned turbine has a laterally symmetric field without lateral velocity in its plane of symmetry. This holds for every model, number of cylinders, with and without ground effect and no_wake, and includes the numerical quadrature of the skewed cylinder. The wind must not blow exactly against the shaft direction at rest: there, turning by +pi and by -pi is treated differently.", "quantifier": "all reflections, constructor arguments with orthonormal shaft and vertical, histories of method calls whose winds are not opposed to the shaft at rest, lists of points and options with longi=False, root=False", "why_tests_cant": "A test compares +y and -y at a few angles and points; the statement ranges over all planes, histories, points and quadrature sums, including points where the result is infinite or undefined.", "anchors": ["wiz/WindTurbine.py:WindTurbine.compute_u", "wiz/WindTurbine.py:WindTurbine.yaw_wind", "wiz/VortexCylinderSkewed.py:svc_tang_u_polar", "wiz/VortexCylinder.py:vc_tang_u", "wiz/VortexDoublet.py:doublet_line_u", "wiz/SelfSimilar.py:ss_u"]}
{"id": "C126", "title": "Whole farm sessions in rotated or mirrored axes", "statement": "Carrying out a whole farm session with every vector rotated (constructor vectors, positions, winds, rows of arrays and layouts, evaluation points, free stream) leaves the farm with the same items, puts every hub at the rotated place, makes velocity_field raise the same exceptions and rotates the velocities it returns. The same holds in a mirror if yaw angles and hand-set skew angles change sign, for the tangential vorticity and winds not exactly opposed to a turbine's shaft at rest. This includes sessions in which turbines share memory with caller arrays through views, stale skew angles, list methods, failed calls and turbines called while outside the farm.", "quantifier": "all rotations and reflections, all families of turbines with orthonormal shaft and vertical, all finite sequences of farm events (append, inherited list methods, method calls, placing by view, array writes, layout reads and assignments, velocity fields), all points, options and free streams", "why_tests_cant": "A test compares one layout in two orientations; the claim is about every session, including aliasing and cached skew angles, and about where results are undefined.", "anchors": ["wiz/WindFarm.py:WindFarm.velocity_field", "wiz/WindFarm.py:WindFarm.layout", "wiz/WindFarm.py:WindFarm.append", "wiz/WindTurbine.py:WindTurbine.compute_u"]}
{"id": "C127", "title": "The unit of length is immaterial", "statement": "Expressing a whole turbine history in another unit of length (radius, hub, winds, radii and circulations of the loadings, evaluation points; angles, Ct, Lambda, number of cylinders unchanged) changes nothing but the unit: update_loading raises the same exception or stores the same loading in the new unit, compute_u raises the same exception or returns the same velocities in the new unit. With gamma_t_Ct given, lengths and velocities may be given in unrelated units.", "quantifier": "all positive factors, all turbines (any R, any shaft and vertical), all finite histories of method calls, all points and options without the root vortex, models VC and SS (and the error cases of every model except VD, VCFF), any minimiser", "why_tests_cant": "A test tries one unit and one turbine; the claim concerns every branch of solver and kernels (thresholds, interpolation, elliptic functions, quadrature) for every factor.", "anchors": ["wiz/WindTurbine.py:WindTurbine.update_loading", "wiz/WindTurbine.py:WindTurbine.compute_u", "wiz/Solver.py:WakeVorticityFromCt", "wiz/Solver.py:WakeVorticityFromGamma", "wiz/Solver.py:WakeVorticity_Discr", "wiz/VortexCylinder.py:vc_tang_u", "wiz/VortexCylinderSkewed.py:svc_tang_u", "wiz/SelfSimilar.py:ss_u", "wiz/VortexDoublet.py:doublet_line_u"]}
{"id": "C128", "title": "Induced velocities are proportional to the vorticity; more thrust, more induction", "statement": "Loading a turbine with m times the vorticity multiplies the induced velocity at every point by m (same exceptions), whatever is called before, and after except another loading. Consequently raising the thrust coefficient on one side of the high-thrust limit multiplies all induced velocities by one common factor of at least one.", "quantifier": "all turbines, histories before and after the loading, strength functions, m>0, points, options and models (linearity); one cylinder, tip-speed ratio >=20 or infinite, all pairs of mean thrust coefficients on the same side of the limit with real roots (monotonicity)", "why_tests_cant": "Proportionality must hold at every point, for every model, skew, number of cylinders and singular treatment; monotonicity for every pair of thrust coefficients.", "anchors": ["wiz/WindTurbine.py:WindTurbine.update_loading", "wiz/WindTurbine.py:WindTurbine.compute_u", "wiz/Solver.py:WakeVorticityFromCirculation_Discr", "wiz/Solver.py:WakeVorticityFromCt", "wiz/VortexCylinder.py:vc_tang_u", "wiz/VortexCylinder.py:vc_tang_u_doublet", "wiz/VortexCylinderSkewed.py:svc_tang_u", "wiz/VortexDoublet.py:doublet_line_u", "wiz/SelfSimilar.py:ss_u"]}
{"id": "C129", "title": "The blockage decreases away from the axis and with the spacing", "statement": "In a plane parallel to the rotor the solid angle of the rotor decreases strictly with the distance from the axis; hence upstream the slow-down is largest on the axis and decreases outwards, in the wake the deficit increases towards the boundary, around the wake the speed-up decays. For a turbine: of two upstream points of one plane the one nearer the axis is slowed down more, up to the 3% accuracy of the values. For a row of turbines: the blockage on the centre line decreases with the spacing.", "quantifier": "all radii, strengths, points off the rotor plane; all turbine histories and batches (straight wake, one cylinder); all rows of at least two turbines, spacings of at least one diameter, with or without ground", "why_tests_cant": "Monotonicity concerns a continuum of point pairs and spacings.", "anchors": ["wiz/VortexCylinder.py:vc_tang_u", "wiz/VortexCylinder.py:vcs_tang_u", "wiz/WindTurbine.py:WindTurbine.compute_u", "wiz/WindFarm.py:windfarm_gridlayout_CTconst", "wiz/article_windfarm_plots/test_Task8_WindFarm_Spacing_NoGround.py", "wiz/article_windfarm_plots/test_Task9_WindFarm_GroundEffect.py"]}
{"id": "C130", "title": "Whole farm sessions in other units and with stronger vorticity", "statement": "Building the turbines of a farm and carrying out the whole session (appends, list methods, turbine calls, arrays written in place, layouts read and assigned, velocity fields) in other units of length and velocity gives a farm with the same items, the hubs at the same places, the same exceptions and the same velocities in the new units (one common factor if a loading computes its vorticity from Ct or Gamma; two independent factors otherwise; VC and SS models, root vortex not evaluated). Multiplying every strength function by m>0 multiplies velocity_field (without free stream) by m everywhere and changes no exception.", "quantifier": "all session histories, farms, turbine arguments, evaluation points, options (no root vortex), factors", "why_tests_cant": "Ranges over all histories of a shared, mutable farm with aliased hub arrays.", "anchors": ["wiz/WindFarm.py:WindFarm.velocity_field", "wiz/WindFarm.py:WindFarm.layout", "wiz/WindTurbine.py:WindTurbine.compute_u", "wiz/WindTurbine.py:WindTurbine.update_loading"]}
{"id": "C131", "title": "Symmetric farms have symmetric flows", "statement": "If a farm is its own mirror image in a plane (a permutation of its turbines maps each turbine's constructor arguments and call history to the mirrored ones), velocity_field succeeds at the reflected points exactly when it succeeds at the points, the velocities there are the reflected ones, and no finite velocity crosses the plane of symmetry. The flow of windfarm_gridlayout_CTconst, with or without mirrored turbines, is symmetric about the plane through the middle of its columns, which is x=0 for an odd number of columns and x=-xSpacing/2 for an even number.", "quantifier": "all reflections, turbine arguments and histories, farms closed under the reflection, points, options (no longitudinal or root vortex), free streams in the plane; all grid sizes, spacings, CT", "why_tests_cant": "Ranges over all farms, histories and point lists.", "anchors": ["wiz/WindFarm.py:WindFarm.velocity_field", "wiz/WindFarm.py:windfarm_gridlayout_CTconst", "wiz/WindFarm.py:gridLayout", "wiz/WindTurbine.py:WindTurbine.compute_u"]}
{"id": "C132", "title": "End to end: the farm velocity field is the Biot-Savart field of its wakes", "statement": "For turbines (arbitrary radii, positions, orientations, histories) that end up with one cylinder each, model VC and no skew, velocity_field succeeds and at every point off the wake radii and rotor edges differs from the free stream plus the Biot-Savart velocities of the semi-infinite vortex cylinders leaving the rotors along their shafts (and of their images below the ground) by at most 3.01% of the sum of the cylinder intensities. For turbines simply built with the wind along their shafts and loaded with update_loading(Ct=C), C below the high-thrust limit and negligible wake rotation, the intensities are -U(1-sqrt(1-C(1+apc))) (momentum theory with the solver's rotation correction) and all hypotheses hold.", "quantifier": "all farms, turbine arguments and histories, ground flags, evaluation points, thrust coefficients, free streams", "why_tests_cant": "Ranges over all farms and points; the elliptic-integral loops stop on a batch criterion, so accuracy at a point depends on the other points.", "anchors": ["wiz/WindFarm.py:WindFarm.velocity_field", "wiz/WindTurbine.py:WindTurbine.update_loading", "wiz/WindTurbine.py:WindTurbine.compute_u", "wiz/Solver.py:WakeVorticityFromCt", "wiz/VortexCylinder.py:vc_tang_u"]}
{"id": "C133", "title": "Planes cut out of the projection data", "statement": "OutputProj shows the horizontal (vertical) plane of the data nearest to hub height (to the rotor axis), the first of several; entry (i,j) has the coordinates of the data node and the axial velocity there; it fails exactly when the data have no such plane. The axes handed to the interpolants are the node coordinates exactly when these increase and are multiples of 0.001. The second velocity returned by fVert is the in-plane transverse component. (The last sentence is false: the code returns the component normal to the plane.)", "quantifier": "all data sets, hub heights, planes, nodes", "why_tests_cant": "Ranges over all data sets; rounding, sorting and index choice depend on the data.", "anchors": ["wiz/article_blockage/helper_functions.py:OutputProj"]}
{"id": "C134", "title": "Discrete and continuous wake solvers agree in the limit of fine stations", "statement": "For the same circulation on equally spaced stations, the default discrete solver and the continuous solver return axial inductions that differ at every station by at most 0.9 K^2 (h/r)/lambda^2 (h spacing, lambda local speed ratio, K largest dimensionless circulation). At the outermost station the continuous one is strictly larger whenever the circulation there is not zero. Without swirl and without tangential induction in the convection, below the critical thrust both return exactly the momentum-theory induction, for any stations.", "quantifier": "all numbers of stations, spacings, circulations (any sign, any distribution), wind and rotational speeds", "why_tests_cant": "A convergence bound for every number of stations and every circulation distribution; the project's own script only compares the two by eye on one case.", "anchors": ["wiz/Solver.py:WakeVorticityFromCirculation_Discr", "wiz/Solver.py:WakeVorticityFromCirculation_Cont", "wiz/Solver.py:InductionsFromCirculation_VC_Cont"]}
{"id": "C135", "title": "Farm of yawed turbines: wakes leave along the wind", "statement": "For turbines built in a common horizontal wind, yawed with update_yaw_pos by any angle that keeps them within 90 degrees of the wind, over the ground or not, and loaded with update_loading, velocity_field equals the wind plus the Biot-Savart velocities, in global axes, of vortex wakes that leave each rotor (and its image below the ground) in the direction of the wind, with the intensities of momentum theory, up to 3.01% of the sum of the intensities, at every point at least a radius from the wakes of the yawed turbines and off the edges of the others. At distance D the error of a yawed wake is of order (R/D)^2/179^2.", "quantifier": "all farms, yaw angles, radii, positions, thrust coefficients below the high-thrust limit, wind directions, control points; a turbine is either exactly aligned with the wind or misaligned by more than 1e-7 (the threshold below which the program takes the wake as straight)", "why_tests_cant": "An accuracy statement for every farm and every point; the exact field is an improper double integral that no test evaluates.", "anchors": ["wiz/WindTurbine.py:WindTurbine.compute_u", "wiz/WindFarm.py:WindFarm.velocity_field", "wiz/VortexCylinderSkewed.py:svc_tang_u", "wiz/WindTurbine.py:WindTurbine.update_yaw_pos"]}
{"id": "C136", "title": "Accuracy of the far-field models at the default cut-off", "statement": "Six radii or more from the rotor and outside of the wake, the velocity of the far-field models (vc_tang_u_doublet beyond its cut-off, doublet_line_u with the intensity of the wake) agrees with the Biot-Savart velocity of the semi-infinite vortex cylinder up to a relative error of 3/2 (R/d)^2 in every component, i.e. 4.2% at the default cut-off and 3e-4 of the intensity. Hence velocity_field of a farm whose turbines use any mixture of the models VC, VCFF (cut-off of six radii or more) and VD, over the ground or not, equals the free stream plus the Biot-Savart velocities of the cylinders up to 3.01% of the sum of their intensities, at every point where each model is meant to be used (off the edge of the wake; outside of the wake beyond the cut-off).", "quantifier": "all batches of points, radii, intensities, cut-offs of six radii or more, all farms and histories without skew, ground effect on or off", "why_tests_cant": "A relative error bound at every point of an unbounded region against an improper double integral.", "anchors": ["wiz/VortexCylinder.py:vc_tang_u_doublet", "wiz/VortexDoublet.py:doublet_line_u", "wiz/VortexDoublet.py:doublet_line_polar_u", "wiz/WindTurbine.py:WindTurbine.compute_u", "wiz/WindFarm.py:WindFarm.velocity_field"]}
{"id": "C137", "title": "Far from its rotors a farm is a set of point sinks; its far blockage", "statement": "At every point outside of the wakes and beyond the cut-off of the far-field model, velocity_field of a farm of turbines without skew that use the models VCFF and VD is exactly the given free stream plus, for every rotor and for every image below the ground, the point sink -gamma R^2/4 (p-c)/|p-c|^3 located at its centre. If the turbines share a shaft direction and the point is upstream of all rotors and six radii or more from each, the wind speed along the shafts is U - B with B = sum |gamma| R^2/4 |z|/d^3 >= 0 (positive as soon as one turbine has thrust), and B is within 1/24 of sum |gamma|/(4 pi) Omega, the blockage of the vortex cylinders, Omega being the solid angle of the rotor seen from the point. For the standard workflow (turbines facing the wind, update_loading(Ct)) gamma is U(1-sqrt(1-Ct(1+apc))).", "quantifier": "all farms and histories without skew whose turbines use VCFF or VD, all batches of points, ground effect on or off, all radii, thrusts and cut-offs", "why_tests_cant": "An exact formula and a one-sided inequality for every farm, history and point of an unbounded region.", "anchors": ["wiz/VortexCylinder.py:vc_tang_u_doublet", "wiz/VortexDoublet.py:doublet_line_u", "wiz/WindTurbine.py:WindTurbine.compute_u", "wiz/WindTurbine.py:WindTurbine.update_loading", "wiz/WindFarm.py:WindFarm.velocity_field"]}
{"id": "C138", "title": "End to end: the swirl of a turbine is the circulation of its blades", "statement": "For every history of a turbine with orthonormal axes and a straight wake, compute_u with root vortex and longitudinal vorticity switched on (tangential vorticity on or off) returns at every point of the rotor plane, off the shaft and off the radii of the cylinders, a velocity whose swirl about the shaft is exactly Gamma(rho)/(4 pi rho), Gamma(rho) being the circulation of the root vortex plus 2 pi r_j gamma_j of the cylinders inside the radius rho. After update_loading with the circulation of n>=2 increasing stations at a tip-speed ratio below 20 this is -Gamma_k/(4 pi rho) between the stations k-1 and k and 0 outside of the last one. At two points of a batch that are mirror images in the rotor plane the swirls add up to exactly twice that value; five radii or more downstream the swirl is twice that value and five radii or more upstream zero, within |Gamma_r|/(4 pi |z|) + sum |gamma| (R/rho)(6(rho+R)/|z|+3%).", "quantifier": "all histories of calls, positions, yaw angles and winds, all numbers of stations, radii and circulations, all batches of points", "why_tests_cant": "An exact law for every loading, history and point, and an inequality over unbounded regions.", "anchors": ["wiz/WindTurbine.py:WindTurbine.compute_u", "wiz/WindTurbine.py:WindTurbine.update_loading", "wiz/Solver.py:WakeVorticityFromGamma", "wiz/Solver.py:WakeVorticityFromCirculation_Discr", "wiz/VortexCylinder.py:vc_longi_u", "wiz/VortexCylinder.py:vcs_longi_u", "wiz/VortexLine.py:vl_semiinf_straight_u_polar"]}
{"id": "C139", "title": "No swirl upstream of the rotor or outside of its streamtube", "statement": "A rotor swirls only the flow that went through it: compute_u with all vorticity switched on returns no swirl upstream of the rotor plane and none outside of the wake. FALSE: the longitudinal and root vorticity are half-infinite and there is no bound vorticity, so the swirl of the rotor plane continues upstream; and with one cylinder the strength computed at the station r0 is put at the rotor radius, which leaves Gamma (R/r0-1)/(4 pi rho) outside (1/199 of the inner swirl for the default nCyl=1).", "quantifier": "all histories, loadings, points", "why_tests_cant": "A statement on every point of an unbounded region for every loading.", "anchors": ["wiz/WindTurbine.py:WindTurbine.compute_u", "wiz/WindTurbine.py:WindTurbine.update_loading", "wiz/Solver.py:WakeVorticityFromCirculation_Discr", "wiz/VortexCylinder.py:vc_longi_u"]}
{"id": "C140", "title": "End to end: the velocity of a turbine is the Biot-Savart velocity of its complete wake", "statement": "For every history of a turbine with orthonormal axes that leaves finite vorticity in it (any number of cylinders), compute_u with tang, longi and root switched on and no ground returns the free stream plus the Biot-Savart velocity, computed in the axes of the farm, of the complete wake: the rings on every cylinder, the straight half-infinite filaments that leave every point of the edges, and the half-infinite root vortex. Skewed wake (|chi|>1e-7, cos chi>0): at every point at a distance D or more of the cylinders, outside of the core of the root vortex, within the stated bound of the 180-point quadrature (O(1/179^2)); if chi is left to the program the wake goes in the direction of the wind. Straight wake: at every point off the radii of the cylinders and off the shaft, within 3.01% of each ring intensity and 3% R/rho of each filament intensity, the root vortex being exact. After update_loading(r,Gamma,Lambda<20) with n>=2 stations the root vortex is -Gamma_0 and the filaments of station i carry Gamma_i-Gamma_{i+1}.", "quantifier": "all histories of calls, positions, yaw angles and winds, all numbers of stations, radii and circulations, all batches of points", "why_tests_cant": "A comparison with improper integrals over all inputs; a test compares a few points with a quadrature of its own.", "anchors": ["wiz/WindTurbine.py:WindTurbine.compute_u", "wiz/WindTurbine.py:WindTurbine.update_loading", "wiz/VortexCylinderSkewed.py:svc_tang_u", "wiz/VortexCylinderSkewed.py:svc_longi_u", "wiz/VortexCylinderSkewed.py:svc_root_u", "wiz/VortexCylinder.py:vc_tang_u", "wiz/VortexCylinder.py:vc_longi_u", "wiz/VortexCylinder.py:vc_root_u"]}
{"id": "C141", "title": "Ground effect is impermeable for every part of the wake", "statement": "With ground effect no air flows through the ground plane, whichever parts of the wake are switched on and whether it is straight or skewed. FALSE for the root vortex: its image has the same sense of rotation, so the velocity through the ground is exactly twice that of the root vortex alone (Gamma x/(2 pi rho^2)(1+z/sqrt(rho^2+z^2))) instead of zero. For the rings of a skewed wake the velocity through the ground is at most the quadrature error of the two wakes, 2 sqrt3 |gamma| pi^2/(3 179^2) x(x+2)(1+10x+18x^2), x=R/D, at every ground point at distance D or more of both. FALSE too for the complete wake of several cylinders: the longitudinal vorticity has no image at all, so where the rotor plane meets the ground outside of all stations the velocity through the ground is that of the image of the root vortex alone, -G_0 cos(psi)/(4 pi rho), although the rotor without ground effect induces exactly nothing there. (Rings of straight wakes: exactly zero, C15.)", "quantifier": "all histories, hub positions, winds, skew angles, strengths, all points of the ground plane", "why_tests_cant": "A statement on every point of a plane and every history.", "anchors": ["wiz/WindTurbine.py:WindTurbine.compute_u", "wiz/VortexCylinderSkewed.py:svc_tang_u", "wiz/VortexCylinder.py:vc_root_u"]}
{"id": "C142", "title": "End to end: from the thrust coefficient to the swirl", "statement": "A turbine (any earlier history, orthonormal axes, straight wake, no ground) loaded with update_loading from the positive thrust coefficients Ct of n>=2 increasing stations (given with nCyl=None, or spread by the program over nCyl=n stations between 0.5% and 99.5% of the radius by linear interpolation) at a tip-speed ratio below 20 swirls the rotor plane as momentum theory with wake rotation says: compute_u with root vortex and longitudinal vorticity returns between the stations k-1 and k the angular momentum rho u_theta = -a' Omega r_k^2 with a'(1+a') = Ct_k/(4 lambda_k^2), lambda_k = Lambda r_k/R, up to delta U0 R/(4 Lambda) when the scalar minimiser leaves the residual delta, and no swirl outside of the last station.", "quantifier": "all histories, axes, radii, winds, numbers of stations, thrust distributions, tip-speed ratios below 20, minimisers, evaluation points of the rotor plane", "why_tests_cant": "An identity between the prescribed thrust and the velocity at a continuum of points, for every number of stations and every history; it chains interpolation, an optimiser, the discrete solver, two kernels and the change of axes.", "anchors": ["wiz/WindTurbine.py:WindTurbine.update_loading", "wiz/WindTurbine.py:WindTurbine.compute_u", "wiz/Solver.py:WakeVorticityFromCt", "wiz/Solver.py:CirculationFromPrescribedCt", "wiz/VortexCylinder.py:vcs_longi_u", "wiz/VortexCylinder.py:vc_root_u"]}
{"id": "C143", "title": "End to end: the axial flow of a turbine with several stations, from its loading", "statement": "A turbine (any earlier history, orthonormal axes, straight wake, no ground) loaded with update_loading from the circulations of n>=2 increasing stations at a tip-speed ratio below 20 (nCyl=None): compute_u slows the air in the rotor plane between the stations k-1 and k down along the shaft by exactly |U0| a_k, a_k being the momentum-theory (Spera beyond the critical thrust) induction of the effective thrust coefficient of station k, and not at all outside of the last station; on the shaft the velocity is along the shaft with the exact profile |U0| sum_j (a_j - a_{j+1})(1+z/sqrt(z^2+r_j^2)), which runs from 0 far upstream through a_0 at the hub to 2 a_0 far downstream. Loaded from positive thrust coefficients with an exact minimiser, the effective thrust coefficient - and so the slow-down - is strictly below the prescribed one at every station, the outermost included; also when the program spreads given samples over nCyl=n>=2 stations by linear interpolation.", "quantifier": "all histories, axes, radii, winds, numbers of stations, circulation and thrust distributions, tip-speed ratios below 20, minimisers, evaluation points of the rotor plane and of the shaft", "why_tests_cant": "An identity between the prescribed loading and the velocity at a continuum of points, for every number of stations and every history; it chains an optimiser, the discrete solver, the cylinder kernel, superposition and the change of axes.", "anchors": ["wiz/WindTurbine.py:WindTurbine.update_loading", "wiz/WindTurbine.py:WindTurbine.compute_u", "wiz/Solver.py:WakeVorticityFromCt", "wiz/Solver.py:WakeVorticityFromGamma", "wiz/Solver.py:WakeVorticityFromCirculation_Discr", "wiz/VortexCylinder.py:vcs_tang_u"]}
{"id": "C144", "title": "End to end: the axial flow of a turbine with several stations without wake rotation", "statement": "A turbine (any earlier history, orthonormal axes, straight wake, no ground) loaded with update_loading from the thrust coefficients c_k (or the circulations c_k pi U0^2/Omega) of n>=2 increasing stations (nCyl=None), none beyond the high-thrust limit, at a tip-speed ratio of 20 or more, or an infinite one: compute_u slows the rotor plane between the stations k-1 and k down by exactly |U0| a_k with 4 a_k (1-a_k) = E_k and a_k<=1/2, and not at all outside; on the shaft the velocity is along the shaft with the profile |U0| sum_j (a_j-a_{j+1})(1+z/sqrt(z^2+r_j^2)). E_k is the prescribed c_k up to the convection term of the solver: at most U0^2 c_k^2/(16 pi Omega^3 r_k^2) above it and at most U0^2 C^2/(16 pi Omega^3 r_k^2) below it (0<=c<=C); for a uniform thrust E_k is the same at all stations, so the whole disc is slowed down alike. The same holds when the program spreads given samples over nCyl=n>=2 stations by linear interpolation.", "quantifier": "all histories, axes, radii, winds, numbers of stations, thrust distributions, tip-speed ratios of at least 20 (infinite included), evaluation points of the rotor plane and of the shaft", "why_tests_cant": "An identity between the prescribed loading and the velocity at a continuum of points, for every number of stations and every history, with an error bound whose size depends on all of them.", "anchors": ["wiz/WindTurbine.py:WindTurbine.update_loading", "wiz/WindTurbine.py:WindTurbine.compute_u", "wiz/Solver.py:WakeVorticityFromCt", "wiz/Solver.py:WakeVorticityFromGamma", "wiz/Solver.py:WakeVorticityFromCirculation_Discr", "wiz/VortexCylinder.py:vcs_tang_u"]}
{"id": "C145", "title": "Resolution: at any radius the induced velocity reproduces the prescribed thrust within the station spacing", "statement": "A turbine (any earlier history, orthonormal axes, straight wake, no ground) is loaded with update_loading(r,Ct,Lambda,nCyl=n) for any n>=2, where T is the piecewise-linear function through the given samples, 0<=T<=C<=Ctc and Lipschitz with constant S. At every radius rho of the rotor plane between 0.5% and 99.5% of R (off the stations) compute_u slows the air down by |U0| a with a<=1/2 and: for a tip-speed ratio of 20 or more, or infinite, |4a(1-a)-T(rho)| <= S 0.99R/(n-1) + U0^2 C^2/(16 pi Omega^3 rho^2); for a tip-speed ratio below 20 (exact minimiser) T(rho) - S 0.99R/(n-1) - C^2 R^2/(4 Lambda^2 rho^2) <= 4a(1-a) <= T(rho) + S 0.99R/(n-1).", "quantifier": "all histories, axes, radii, winds, numbers of given samples and of stations, thrust distributions, tip-speed ratios, evaluation points of the rotor plane", "why_tests_cant": "An error bound with an explicit rate in the number of stations, over a continuum of radii, distributions and winds.", "anchors": ["wiz/WindTurbine.py:WindTurbine.update_loading", "wiz/WindTurbine.py:WindTurbine.compute_u", "wiz/Solver.py:WakeVorticityFromCt", "wiz/Solver.py:WakeVorticityFromGamma", "wiz/Solver.py:WakeVorticityFromCirculation_Discr", "wiz/VortexCylinder.py:vcs_tang_u"]}
{"id": "C146", "title": "End to end: momentum theory of a yawed rotor", "statement": "A turbine with orthonormal axes, after any history without evaluation (so that the skew angle is not latched), in a horizontal wind U d whose direction d is less than 90 degrees from the shaft (skew above 1e-7), no ground, one cylinder: at every point of the rotor disk at the distance rho<R from the hub, compute_u gives an induced velocity along the wind of gamma_t/2; the mean over two opposite points of the disk is gamma_t/2 along the shaft, gamma_t/2 tan(chi/2) across the shaft in the horizontal plane and 0 vertically; at the distance tau>2R downwind inside the wake the induced velocity along the wind is gamma_t up to |gamma_t|R/(tau-2R). All up to the quadrature error |gamma_t| pi^2/(3*179^2) x(x+2)(1+10x+18x^2), x=R/((R-rho)cos chi). After update_loading(Ct) with a mean thrust coefficient below the high-thrust limit and a tip-speed ratio of 20 or more, or infinite, the velocity along the wind is therefore U(1-a) over the rotor and tends to U(1-2a) in the wake, and the mean normal velocity of opposite points is U(cos chi - a), with 4a(1-a)=Ct(1+a'_c).", "quantifier": "all histories without evaluation, axes, hub positions, radii, winds and yaw angles below 90 degrees, intensities or thrust coefficients, points of the rotor disk and of the wake", "why_tests_cant": "A statement about a continuum of yaw angles and points with an explicit error bound; the repository's test checks a few points of one cylinder in cylinder coordinates.", "anchors": ["wiz/WindTurbine.py:WindTurbine.compute_u", "wiz/WindTurbine.py:WindTurbine.update_loading", "wiz/WindTurbine.py:WindTurbine.yaw_wind", "wiz/VortexCylinderSkewed.py:svc_tang_u", "wiz/Solver.py:WakeVorticityFromCt"]}
{"id": "C147", "title": "Blockage of a yawed rotor: along the wind it is the solid angle of the rotor, whatever the yaw", "statement": "For every skew angle below 90 degrees, the velocity induced by a skewed semi-infinite sheet of tangential vorticity along its own direction is, at every point off the sheet, gamma Omega/4pi upstream of the rotor plane, gamma - gamma Omega/4pi inside the wake and -gamma Omega/4pi around it, Omega being the solid angle under which the point sees the rotor disk (gamma/2 on the disk, 0 in its plane outside): exactly as for a rotor facing the wind. A turbine with orthonormal axes, after any history without evaluation, in a horizontal wind U d less than 90 degrees from the shaft (skew above 1e-7), no ground, one cylinder, returns these velocities along the wind up to sqrt(2) times the quadrature error |gamma_t| pi^2/(3*179^2) x(x+2)(1+10x+18x^2), where x=R/D and D is the distance -z to the rotor plane upstream, or the distance in the rotor plane to the edge of the wake times cos chi elsewhere. After update_loading(Ct) (mean thrust below the high-thrust limit, tip-speed ratio of 20 or more or infinite) the velocity along the wind at every point upstream of the rotor plane is U(1 - a Omega/2pi), 0<Omega<2pi, with 4a(1-a)=Ct(1+a'_c).", "quantifier": "all skew angles below 90 degrees, all points off the wake surface, all histories without evaluation, axes, hub positions, radii, winds, intensities or thrust coefficients", "why_tests_cant": "An identity between a singular surface integral and a solid angle at every point of space and every yaw angle, carried through the quadrature error of the code; a test samples a few points of one case.", "anchors": ["wiz/WindTurbine.py:WindTurbine.compute_u", "wiz/WindTurbine.py:WindTurbine.update_loading", "wiz/WindTurbine.py:WindTurbine.yaw_wind", "wiz/VortexCylinderSkewed.py:svc_tang_u", "wiz/Solver.py:WakeVorticityFromCt"]}
{"id": "C148", "title": "Speed along the wind in a farm of yawed turbines: a sum of solid angles", "statement": "For turbines built in a common horizontal wind U d, yawed with update_yaw_pos by any angle that keeps them within 90 degrees of the wind, over the ground or not, and loaded with update_loading (tip-speed ratio of 20 or more, or infinite; thrust below the high-thrust limit), the component along the wind of velocity_field is U(1 - sum a Omega/2pi) at every point at least a radius from the wakes of the yawed turbines and off the edges of the others; the sum is over the rotors and their images below the ground, Omega is the solid angle of the rotor disk upstream of the rotor, 4pi minus it in the wake, minus it around the wake (2pi on the disk, 0 in its plane outside), and 4a(1-a)=Ct(1+a'_c). The error is at most 3.01% of the sum of the intensities 2aU. At points one radius or more upstream of all rotor planes every Omega is between 0 and 2pi, so that no turbine, however yawed, speeds up the flow.", "quantifier": "all numbers of turbines, layouts, radii, yaw angles within 90 degrees of the wind, thrust coefficients, grounds, and points clear of the wakes", "why_tests_cant": "Holds for every layout, combination of yaw angles and point, with a proved error; a test can only sample layouts and has no reference for yawed farms.", "anchors": ["wiz/WindFarm.py:WindFarm.velocity_field", "wiz/WindTurbine.py:WindTurbine.compute_u", "wiz/WindTurbine.py:WindTurbine.update_loading", "wiz/WindTurbine.py:WindTurbine.update_yaw_pos", "wiz/VortexCylinderSkewed.py:svc_tang_u"]}
{"id": "C149", "title": "Momentum theory of a yawed rotor with several stations", "statement": "After any history, a turbine with several stations evaluated at any skew (no ground, tangential wake) induces the sum of the Biot-Savart velocities of the skewed cylinders of its stations, within the sum of the quadrature errors at the distances of the point to those wakes. In a horizontal wind of direction d less than 90 degrees from its shaft, the induced velocity along the wind is the sum of gamma Omega/4pi upstream (Omega the solid angle of the disk of each station), the sum of gamma/2 over the stations outside of the point in the rotor plane, and downstream the sum of the gammas of the wakes that contain the point minus the sum of gamma Omega/4pi. Loaded with the thrust coefficients of n>=2 stations (given with nCyl=None, or a distribution spread by the program over nCyl=n stations; tip-speed ratio below 20, exact minimiser), the air between the stations k-1 and k of the rotor disk is slowed down along the wind by U a(E_k), with the same effective thrust E_k, strictly below the prescribed one, as for a rotor facing the wind (C143), and not at all outside of the stations.", "quantifier": "all histories, numbers and radii of stations, intensities or thrust coefficients, yaw angles within 90 degrees of the wind, and points off the wakes", "why_tests_cant": "Ranges over every radial loading, yaw angle and point; the expected velocity is a sum of solid angles with a proved error bound that no test table provides.", "anchors": ["wiz/WindTurbine.py:WindTurbine.compute_u", "wiz/WindTurbine.py:WindTurbine.update_loading", "wiz/VortexCylinderSkewed.py:svc_tang_u", "wiz/Solver.py:WakeVorticityFromCt"]}
{"id": "C150", "title": "Rotors of the same plane do not block each other, and the ground does not block a rotor", "statement": "After any history, a turbine with one or several stations and a straight wake, with or without the ground, evaluated in its rotor plane, induces along its shaft exactly the sum of half the intensities of the stations (of the rotor and of its image) outside of the point: a rotor, or its image, induces no axial velocity in its own plane outside of its disk. Hence in a farm whose turbines share a shaft direction and a rotor plane, velocity_field in that plane is exactly the free stream plus half the intensities of the stations that surround the point; for turbines loaded with thrust coefficients C in a wind U along the shafts, the air inside the disk of one of them, outside of the others and of the images, is at exactly U(1-a), 4a(1-a)=C(1+apc), as if it were alone and without ground, and the air of that plane outside of all disks is at exactly U.", "quantifier": "all histories, numbers of turbines, radii, stations, intensities or thrust coefficients, grounds, and points of the common plane not on the edge of a disk (1e-8 of the radius)", "why_tests_cant": "Ranges over every row of turbines, every loading and every point of the rotor plane; the absence of blockage is an exact equality of a sum of elliptic-integral kernels.", "anchors": ["wiz/WindTurbine.py:WindTurbine.compute_u", "wiz/WindFarm.py:WindFarm.velocity_field", "wiz/VortexCylinder.py:vc_tang_u", "wiz/Solver.py:WakeVorticityFromCt"]}
{"id": "C151", "title": "What the plane plots show", "statement": "plotPlane and plotPlaneVert of the article scripts and plotPlane of the coupling examples draw every data point at its own coordinates with its axial velocity, vorticity or in-plane speed, masking exactly the points where this is not a number; limits given by the caller are used, limits left to the function are the least and greatest of the values drawn; plotPlaneVert of the output of fVert on increasing coordinates shows at (z,y) the axial velocity that compute_u returns there; the starting points of the streamlines of a horizontal plane are within the data exactly when its lateral extent contains the axis; streamlines need the optional package. False of the code: maxSpeed without minSpeed is ignored; a single NaN in the data makes both computed limits NaN although the NaN points are masked; plotPlaneVert mirrors the picture when the coordinates are decreasing.", "quantifier": "all data arrays of any size (with NaN and infinities), limits, levels, numbers of streamlines and components", "why_tests_cant": "Ranges over all arrays and option combinations; the figure functions are not covered by any test.", "anchors": ["wiz/article_blockage/helper_functions.py:plotPlane", "wiz/article_blockage/helper_functions.py:plotPlaneVert", "coupling_examples/helper_functions.py:plotPlane", "wiz/article_blockage/helper_functions.py:OutputVC.fVert"]}
{"id": "C152", "title": "The velocity field of a farm of turbines with radial stations is that of their vortex cylinders", "statement": "After any history, a turbine with one or several radial stations and a straight wake, over the ground or not, induces the sum of the Biot-Savart velocities of the semi-infinite vortex cylinders of its stations and of their images, within 3.01% of the sum of the intensities; velocity_field of a farm of such turbines (each with its own shaft, position, number of stations and history) is the free stream plus the sum over turbines, images and stations, within 3.01% of the sum of all intensities. If the turbines share a shaft direction, then upstream of the rotors the velocity along it is the free stream plus the sum of intensity times solid angle of the disk over 4 pi, within the same error.", "quantifier": "all histories, numbers of turbines, numbers of stations, radii, intensities, grounds, and points not at the radius of a station's wake", "why_tests_cant": "Ranges over every farm, station set and point; the reference is an integral over the vortex sheets that a test would itself have to approximate.", "anchors": ["wiz/WindTurbine.py:WindTurbine.compute_u", "wiz/WindFarm.py:WindFarm.velocity_field", "wiz/VortexCylinder.py:vcs_tang_u", "wiz/elliptic.py:ellipticPiCarlson"]}
{"id": "C153", "title": "The ground effect of a turbine is a second turbine under the ground", "statement": "After any history, for a turbine with one cylinder (any model, any parts of the wake) or with several cylinders (tangential vorticity and root vortex), compute_u with ground=True raises exactly when compute_u with ground=False does, and else equals at every point (also where it is nan or inf) compute_u with ground=False plus the velocity induced by the same turbine moved with update_position to the image of its hub under the ground. velocity_field of a farm with ground=True equals velocity_field with ground=False of the farm to which these image turbines are added. With several cylinders, a straight wake and longi=True the image turbine has no longitudinal vorticity (see C68). For a yawed turbine with one cylinder and all parts of the wake, compute_u over the ground is the wind plus the Biot-Savart velocities of the complete wakes of the rotor and of the rotor moved under the ground (same sense of rotation), within the bound of the quadrature for each.", "quantifier": "all histories, loadings (including nan and infinite strengths), options except no_wake, farms, batches of points", "why_tests_cant": "Equality of two different evaluations for every history, option and point set, including exceptional values; a test compares a few points.", "anchors": ["wiz/WindTurbine.py:WindTurbine.compute_u", "wiz/WindTurbine.py:WindTurbine.update_position", "wiz/WindFarm.py:WindFarm.velocity_field", "wiz/VortexCylinder.py:vcs_longi_u"]}
{"id": "C154", "title": "The velocity field of a farm of yawed turbines with radial stations", "statement": "After any history without evaluation, a turbine with one or several radial stations in a horizontal wind less than 90 degrees from its shaft (skew above 1e-7), over the ground or not, induces the sum of the Biot-Savart velocities, in the axes of the farm, of the vortex sheets that leave the circles of its stations (and of their images below the ground) along the wind, within sqrt3 |gamma| pi^2/(3 179^2) x(x+2)(1+10x+18x^2) for each sheet, x being the radius of the station over the distance of the point to its sheet. velocity_field of a farm of such turbines, mixed with turbines that face the wind (within 3.01% of the intensities), is the free stream plus the sum over turbines, images and stations. Along a common wind direction it is the free stream plus the sum of gamma/4pi times the solid angle of the disk of the station upstream of it, 4pi minus that angle inside of the wake of the station, and minus that angle around it.", "quantifier": "all histories, farms, yaw angles below 90 degrees, numbers of stations, ground flags, points off the sheets", "why_tests_cant": "Equality with an improper double integral within an explicit bound, for every farm, history and point; a test compares a few points with another numerical integration.", "anchors": ["wiz/WindFarm.py:WindFarm.velocity_field", "wiz/WindTurbine.py:WindTurbine.compute_u", "wiz/VortexCylinderSkewed.py:svcs_tang_u", "wiz/VortexCylinderSkewed.py:svc_tang_u"]}
{"id": "C155", "title": "What printing a turbine or a farm shows", "statement": "After any history of method calls, print(turbine) shows the radius, the hub position and wind last set, the yaw last requested in degrees, and the shaft and the three rotor axes, right to half a unit of the fourth decimal with no entry above 1 in absolute value; the two angles labelled yaw_err are the same number, the turn from the wind to the shaft; the short description is the beginning of the long one. print(farm) shows the number of turbines and their current hub positions in the order of the list and changes nothing; if an object that is not a turbine has entered the list, it raises and changes nothing.", "quantifier": "all turbines with orthonormal axes, all histories of method calls, all horizontal winds, all farm histories (including inherited list methods and shared arrays)", "why_tests_cant": "A test prints a few turbines; the agreement of the two yaw errors fails only for some yaw angles (beyond half a turn from the wind, or an exactly opposed wind) and the statement is about every history.", "anchors": ["wiz/WindTurbine.py:WindTurbine.tostring", "wiz/WindTurbine.py:WindTurbine.__repr__", "wiz/WindFarm.py:WindFarm.tostring", "wiz/WindFarm.py:WindFarm.__repr__"]}
{"id": "C156", "title": "Interpolants of the data planes", "statement": "After setupInterpolants, fW of a projection plane evaluated at nodes of the plane (at any distance from it) gives exactly the axial velocity of the data there, in the plane of the data nearest to hub height (horizontal) or to the axis (vertical), and zero transverse velocities; fU of an actuator-disk plane also gives the stored in-plane velocity and zero normal velocity. fU and fW have the same axial velocity everywhere. Before setupInterpolants every evaluation raises. It suffices that the coordinates of the file increase.", "quantifier": "all data files, hub heights, planes, lists of points, and all interpolation routines that reproduce nodes and refuse ill-shaped data", "why_tests_cant": "A statement about every data file and every interpolation routine with the documented behaviour; tests have one file per case.", "anchors": ["wiz/article_blockage/helper_functions.py:OutputProj.setupInterpolants", "wiz/article_blockage/helper_functions.py:OutputProj.fW", "wiz/article_blockage/helper_functions.py:OutputAD.fU", "wiz/article_blockage/helper_functions.py:OutputAD.fW", "wiz/article_blockage/helper_functions.py:interp2d_pairs"]}
{"id": "C157", "title": "In a row over the ground a rotor works as if it were alone", "statement": "Take a WindFarm of distinct turbines (any radii, histories, one or several stations each, straight wakes, over the ground or not) with the same shaft direction and a common rotor plane. At a point of that plane off the stations of one turbine, and outside of the stations of the others and of all images below the ground, the velocity along the shaft returned by velocity_field is exactly the given free stream plus what compute_u returns for that turbine alone without ground. Hence, if that turbine was loaded last with update_loading(r,Ct,Lambda,nCyl=n), the slow-down of the farm in its disk reproduces its prescribed thrust coefficient at that radius within the bounds of C145, whatever the neighbours.", "quantifier": "all farms, histories, loadings, numbers of stations, free streams and points of the common rotor plane", "why_tests_cant": "Ranges over all farms, histories and points; the equality is exact, a test sees rounding and a few points.", "anchors": ["wiz/WindFarm.py:WindFarm.velocity_field", "wiz/WindTurbine.py:WindTurbine.compute_u", "wiz/WindTurbine.py:WindTurbine.update_loading"]}
{"id": "C158", "title": "Refining the stations, the flow converges to that of the continuous loading", "statement": "A turbine (any earlier history, orthonormal axes, straight wake, no ground) is loaded with update_loading(r,Ct,Lambda,nCyl=n), n>=2; T is the piecewise-linear function through the samples, T<=C<=Ctc, Lipschitz constant S. (1) Tip-speed ratio of 20 or more, or infinite: at every distance z along the shaft, upstream or downstream, compute_u returns a velocity along the shaft that differs from that of the continuous loading, |U0| (a(r0)(1+z/sqrt(z^2+r0^2)) - int_{r0}^{r1} a(r) z r/(z^2+r^2)^{3/2} dr) with a=(1-sqrt(1-T))/2, r0=0.5%R, r1=99.5%R, by at most |U0| times 3/(2 sqrt(1-C)) (S 0.99R/(n-1) + convection term). (2) Tip-speed ratio below 20, exact minimiser: at any radius rho of the rotor plane the thrust coefficient of the slow-down differs from T(rho) less the pressure of the wake rotation, int_rho^{r1} 2 u_theta^2/(U0^2 y) dy with u_theta=Gamma/(2 pi y), by at most a stated constant times 0.99R/(n-1). (3) With root vortex and longitudinal vorticity included, rho times the swirl velocity at radius rho of the rotor plane (off the stations) differs from -Gamma(rho)/(4 pi) = -|U0| R K(rho)/(4 Lambda), the circulation of the continuous loading, by at most a stated constant times 0.99R/(n-1). (4) The convergence (2) holds in a farm: at a point of the disk of a rotor of a row as in C157, over the ground or not, the velocity along the shaft returned by velocity_field is the free stream slowed down by that amount, whatever the neighbours.", "quantifier": "all turbines, histories, thrust distributions, numbers of stations, points of the shaft (resp. of the rotor plane off the stations)", "why_tests_cant": "A rate of convergence in the number of stations, for every distribution and point; a test compares two resolutions.", "anchors": ["wiz/WindTurbine.py:WindTurbine.update_loading", "wiz/WindTurbine.py:WindTurbine.compute_u", "wiz/Solver.py:WakeVorticityFromCt", "wiz/Solver.py:WakeVorticityFromGamma", "wiz/VortexCylinder.py:vcs_tang_u"]}
{"id": "C159", "title": "Array lengths in the discrete solver", "statement": "WakeVorticityFromCirculation_Discr rejects radii, circulations and cylinders of inconsistent lengths: when it returns a wake there is one cylinder strength per circulation, and as many longitudinal strengths. True with the default options; for any options the calls that return a wake are exactly those with non-empty arrays that pass the two checks of the radii, with as many circulations as radii (or one of the two of length one) and one cylinder per circulation, or, with bTanInd_k=False, a single cylinder. A single radius stands for all control points. With a method other than 'analytical' (in any case of letters) it never returns a wake: it raises, or returns None.", "quantifier": "all lists of radii, circulations and cylinder radii (any lengths, any values including nan and infinities), all options", "why_tests_cant": "All combinations of three lengths and of the options; a test tries a few.", "anchors": ["wiz/Solver.py:WakeVorticityFromCirculation_Discr"]}
{"id": "C160", "title": "Stream tube against superposed cylinders for one prescribed thrust", "statement": "For thrust coefficients in (0,1] and increasing positive radii, the axial induction of the superposed cylinders carrying that thrust (WakeVorticityFromCt, or WakeVorticityFromCirculation_Discr with the corresponding circulation) never exceeds the stream-tube induction of InductionsFromPrescribedCtCq_ST for the same thrust, and is strictly smaller with two stations or more: the rotation of the wake only lowers the axial induction. Where the thrust coefficients are at most C<=0.8976 the two differ by at most 0.78125 C^2/(4 lambda_r^2). The continuous solver is never above the stream tube either, is strictly below it inboard, and equals it at the outermost station (thrust at most 0.8976 there). With the same prescribed torque coefficient Cq>=0, InductionsFromCirculation_VC_Cont(...,Cq=Cq) also gives a tangential induction not above the stream tube's, strictly below inboard where the blade is loaded (the warning of its docstring).", "quantifier": "all numbers of stations, increasing radii, thrust distributions in (0,1], rotor speeds with tip-speed ratio below 20, wind speeds, radii, and every exact minimiser", "why_tests_cant": "An inequality between three solvers over all loadings of any number of stations; the article script compares one loading by eye in a plot.", "anchors": ["wiz/Solver.py:InductionsFromPrescribedCtCq_ST", "wiz/Solver.py:WakeVorticityFromCt", "wiz/Solver.py:WakeVorticityFromCirculation_Discr", "wiz/Solver.py:WakeVorticityFromCirculation_Cont", "wiz/article_wakerot/test_Main2_Task0_Prescribed_CT_CQ.py:main", "wiz/Solver.py:InductionsFromCirculation_VC_Cont"]}
{"id": "C161", "title": "Point vortices carried by their own flow keep impulse and energy", "statement": "If point vortices move with the velocities which vps_u returns at their own positions (unsmoothed or with a common core, any documented kernel), the linear impulse sum Gamma_i x_i and the angular impulse sum Gamma_i |x_i|^2 are the same at all times; as long as no two of them come within the cut-off distance, so is the interaction energy sum_{i!=j} Gamma_i Gamma_j F(|x_i-x_j|^2) with the pair potential of the kernel (the logarithm without smoothing). With explicit Euler steps of any number and size the linear impulse is still kept exactly, and the angular impulse never decreases for circulations of one sign.", "quantifier": "all numbers of vortices, circulations, cores, kernels, trajectories and times; all sequences of time steps", "why_tests_cant": "Holds along every trajectory and for unbounded numbers of vortices and steps.", "anchors": ["wiz/VortexPoint.py:vps_u"]}
{"id": "C162", "title": "Point vortices in other axes and units, next to a wall; bounds", "statement": "Turning and shifting control points and vortices together turns the velocities of vps_u; reflecting them and reversing the circulations reflects the velocities; a system with its opposite images blows nothing through the line between them; the velocities are proportional to the circulations; multiplying all lengths by k divides the velocities by k; with second-order smoothing no velocity exceeds sum |Gamma_i|/(2 pi |core_i|), and without smoothing none exceeds sum |Gamma_i|/(2 pi d) at a distance d from the vortices. Far from a vortex the velocity is that of its full circulation, whatever the kernel. The smoothing acts with the core of the inducing vortex, so action and reaction differ between different cores.", "quantifier": "all systems, control points, rotations, shifts, factors, documented kernels", "why_tests_cant": "Unbounded systems and continuous families of axes.", "anchors": ["wiz/VortexPoint.py:vps_u"]}
