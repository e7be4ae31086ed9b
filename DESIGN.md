# Formal model of ebranlard/wiz in Lean 4 — design

## 1. Approach

`wiz` is a numerical library: closed-form velocity kernels (vortex cylinder, skewed
cylinder, ring, doublet, line, point, self-similar), a load solver, and two stateful
classes (`WindTurbine`, `WindFarm`).  Every module under `/repo/wiz/*.py` is modelled
function by function in `lean/Verif/Model/*.lean`; properties are stated in
`lean/Verif/Props/*.lean` against small independent specifications in
`lean/Verif/Spec/*.lean` (Biot–Savart integrals, Rodrigues rotations, plain sums).

### Number model
Python floats are modelled by `Num` (`Verif/Num.lean`): exact real arithmetic extended
with `+inf`, `-inf`, `nan` and IEEE-style propagation (`x/0`, `0/0`, `inf-inf`,
`sqrt` of a negative, comparisons with `nan` are false).  Hence a theorem that says a
result *is* `fin v` also says that no division by zero / negative root was met.
Rounding, overflow and signed zeros are **not** modelled.

### Arrays
NumPy arrays of control points are `List`s (shape information other than the length is
dropped; every routine is shape preserving).  Boolean-mask assignment is modelled
pointwise, except where the code really couples the points of a batch (stopping test of
the Carlson loops, `np.max(np.abs(vz))` in the skewed root vortex), where the batch is
modelled as such.

### External functions (trusted)
* `np.sqrt, sin, cos, tan, arccos, arctan2, exp, log, cosh, **` — Mathlib's real functions
  with IEEE domain errors; `arctan2 y x` = `Complex.arg (x+iy)`.
* `scipy.special.ellipk/ellipe` — the complete elliptic integrals as Mathlib integrals
  (`inf` at `m=1`, `nan` above).
* `scipy.optimize.minimize_scalar` — an arbitrary oracle; results state what is assumed.
* `np.linspace, trapz, cumtrapz, interp, mean, cumsum, sum, amax` — modelled explicitly.

## 2. Per-property plan

| id | model | proof |
|----|-------|-------|
| C01–C05 | `RotMat_AxisAngle`, `transform(_T)`, `orth_vect`, turbine state machine | polynomial identities over the unit sphere, induction over operation lists |
| C06–C08 | `yaw_wind`, `yaw_error`, `chi` computation | arccos/sign analysis, planar trigonometry in the frame (shaft, vert×shaft) |
| C09 | turbine state machine with cached `chi` | counterexample history + invariants by induction |
| C10, C16, C36 | `computeU`, `updateLoading` with exceptions as values; the values of every model branch | case analysis, induction over histories |
| C11–C14 | `computeU` on whole batches | unfolding, matrix algebra |
| C15, C23, C68 | `computeU`/`vcs_*`/`svcs_*` with ground | parity of the kernels under y ↦ −y |
| C17 | single- vs multi-cylinder path | evaluation of both paths to the same list |
| C18–C22 | farm model on a heap of turbine objects with shared references and array views | induction over lists, permutations, histories of farm operations |
| C24–C36 | solver model, plus a heap version for in-place mutation of caller arrays | algebra, telescoping by induction on the cylinder list |
| C37–C39 | Carlson loops over batches | loop invariants, contraction, induction over fuel |
| C40–C50, C77 | cylinder kernels | evaluation lemma into ℝ, then algebra; FTC and Fubini for the Biot–Savart identities |
| C51–C54 | ring kernels | algebra; change of variables + FTC for C52 |
| C55–C59 | doublet kernels | algebra; FTC on explicit primitives, improper integrals |
| C60–C62 | half lines | FTC |
| C63–C69 | skewed kernels | linearity of `trapz`, FTC, convergence of the periodic rule |
| C70–C72 | point vortices | induction on lists, pair cancellation |
| C73 | self-similar | monotonicity of cosh, powers |
| C74 | plane files | finite map model of the file system, histories and crash points |
| C75 | numerical doublet lines | induction on the number of points, Riemann-sum convergence |
| C76 | Carlson recursion vs the integrals | duplication theorems by change of variables, contraction, remainder estimate |
| C78–C80 | skewed kernels at zero skew, scaling, mirror symmetry | evaluation, finite-sum algebra |
| C81 | momentum theory end to end | composition of the loading and the field theorems |
| C82 | regularised cylinder | evaluation with the shifted height, continuity at 0 |
| C83–C84 | legacy outputs, complete skewed wake | evaluation, linear algebra |
| C85 | curled-wake far-field models (`wiz/examples/CurledWake_2D.py`) | evaluation lemmas, limits, Riemann sums |
| C86 | `fKxit`, `fKzt` (rotor-plane expansions) | Landen transformation, partial fractions, residue-free circle integrals, equality of quadratures node by node; the shipped closed form of `fKzt` is bounded by the error of one elliptic integral and refuted in general (early stop of C76); the closed form of `fKxit` with skew is refuted |
| C87 | mass conservation of every kernel, turbine, farm | gradients as Fréchet derivatives (Spec/Flow), cross product of a constant with a gradient field, quadrature rules of divergence-free fields, orthonormal change of axes; self-similar model, ring axis tube and the straight `vc_tang_u` as shipped refuted (the last by comparing with the exact field along a line parallel to the axis, where a divergence-free difference would be constant) |
| C88 | irrotational off the vorticity | differentiation under the integral sign, closed-loop integral of a gradient |
| C89 | `find_nearest`, `OutputAD.fCenter/fAxial/fRadial` | induction on the array (first argmin); `np.interp` reproduces nodes |
| C90 | `setupModel`, `OutputVC.fU` at the hub | exact rotor-centre values of the kernels through the turbine frame; doublet model refuted |
| C91 | `OutputVC` sampling functions | meshgrid lists; translation invariance (C12); nan skew angle falls through to the unyawed branch |
| C92 | `VCFarmFromFloris` | list indices of the transposed ravel against grid cells (C22), turbine histories, superposition (C18) |
| C93 | `ADFarm2VCFarm` | superposition on the heap, the first evaluation only latches skew angles |
| C94 | `relerrinduction`, `relerrinduction_mid/_25` | interpolation as a convex combination independent of the data |
| C95 | `gamma_CT_fun`, `update_loading`, `compute_u` | polynomial evaluation, rotor-plane value of the cylinder (C81) through any history |
| C96 | `rsquare`, `r2induction` | sums of squares over lists by induction |
| C97 | `pretty_time` with Python's `%2d`, `%02d`, `%4.1f` on digits | floors and remainders; digit strings by case analysis of all two-digit numbers |
| C98 | `make_colormap`, `get_cmap` | induction over rows; piecewise-linear interpolation between rows |
| C99 | ring arrays of the comparison tests, `rings_u`, `svc_tang_u` | Fubini and dominated convergence with the decay 1/(1+s^2) of the kernel, Riemann sums; perturbation of the ring field near its axis |
| C100 | `svc_tang_u`, `skew_components` on the disk z=0 and far downstream | change of variable from rim azimuth to the direction in which the rim is seen, Poisson integral, parity; explicit bound of half-line against full-line generators |
| C101 | `ring_u`, `vc_tang_u` within R/5 of the axis | second-order expansion of 1/d and 1/d³ with explicit remainder, integrated over the rim; transferred to the code by C47/C52 |
| C102 | `ring_u` against `doublet_u` | expansion of 1/d³ around the centre with explicit remainder, C52, C55 |
| C103 | `svc_tang_u`, `vc_tang_u`, `vc_tang_u_doublet`, `doublet_line_u` away from the wake axis | Fubini: the sheet is a superposition of rings (any skew); C102 integrated along the axis; C58, C49; on the axis and at the radius (`C103_axis`, `C103_rim`) by C106_axis and by the limit of the bound at larger radii (C120) |
| C104 | `InductionsFromCirculation_VC_Cont`, `WakeVorticityFromCirculation_Cont` | arrays as finite functions, reversal and cumulative trapezoid evaluated by induction; refutation by evaluation at constant circulation |
| C105 | `vc_longi_u`, `vl_semiinf_straight_u`, `ring_u`, `cylinder_tang_u` | the recursions see only squares of heights, so the truncated integrals of the two points coincide; then algebra |
| C106 | `vc_tang_u` beyond 5R | C47 (Biot-Savart form) + bound on the sheet of rings as a stack of doublets + telescoping of the doublet line into a sink; mirror identity for downstream; at the radius (`C106_rim`) in the limit of larger radii (C120) |
| C107 | `I30_num`…`I52_num` | trapezoidal panels: uniform continuity for convergence, second-derivative bound for the error; limit zmax→∞ from C56 |
| C108 | `WakeVorticityFromCirculation_Discr` (pitch `misc['h']`) | evaluation of the recursion from C27/C28, difference of squares; counterexample by evaluation |
| C109 | `InductionsFromCirculation_VC_Cont` with `Cq` | evaluation entry by entry |
| C110 | `ellipticPiCarlson` | convergence from C76; Π(m,m) from the derivative of sin·cos/Δ, Π(n,0) from an arctangent primitive |
| C111 | `vc_tang_u` and `compute_u` without skew | Spec/SolidAngle.lean defines Ω as a surface integral; reduced to the same 1-D integral as the Biot-Savart field (C47), sign by monotonicity of the integrand |
| C112 | coordinate changes, evaluation and ring variants of the two skewed-wake scripts | composition of C65_cartesian / C53_superposition / C99 with plane rotations; the turbine side from `skew_value` (any history) |
| C113 | `gt_*`, `dgt_*` of VortexCylinderSkewedSuperp.py | monotonicity and limit of tan, derivative by the chain rule; refutation at two radii |
| C114 | `svc_tang_u`, `svc_longi_u`, `compute_u` with skew | second-derivative bound of the kernel at fixed distance along the wake, trapezoid error (panels_error), Fubini to integrate the error along the wake; turbine level by `skew_value` |
| C115 | `windfarm_gridlayout_CTconst`, Task8/Task9 scripts (Model/FarmBlockage) | sum over cells of C111_batch/C111_axis; exact cancellation of the on-axis rotor and of the unmirrored rotors |
| C116 | `loadPlane` (names of files, recorded case, availability; Model/BlockageData) and `setupModel` | decoding of the printed numbers; case analysis |
| C117 | `getModelsRelErr` (interpolants arbitrary functions) | induction over the loops (`mapM`), C90_match at the centre |
| C118 | the quadratures of `svc_tang_u_polar`/`svc_longi_u_polar` at the rotor centre, `compute_u` at the hub | sums over roots of unity (Lemmas/RootSums): the trapezoidal rule of the density in closed form with geometric error |
| C119 | `vc_tang_u` with the stopping tests of the Carlson loops, `vcs_tang_u`, `compute_u`, `windfarm_gridlayout_CTconst` | every loop makes at least two passes (C37_stopping, positivity of the first value); after two passes the truncated duplication sums are within an explicit distance of R_F, R_C, R_J uniformly in the arguments (Bernstein certificates, Lemmas/CarlsonUniform*); the weight √((1-n)(n-m)/n) of Π in the velocity absorbs its singularity |
| C120 | `vc_tang_u` at and around r=R | solid-angle form of the axial velocity (C111), continuity of the solid angle across the edge radius, closed form of the solid angle on the edge (the integrand collapses to 1/2 - h/2d) |
| C121 | `vc_longi_u` (any batch), turbine with `longi=True` | the uniform bound of C119 on the third-kind integral, the weight (R-r)/(R+r)·z√m vanishes where the integral is inaccurate; jump from the solid-angle form C120; far field from elementary bounds of the inverse-distance integral |
| C122 | `set_yaw0_coord` on an existing object, assignments to `Ground`, `Model`, `gamma_t` | simulation: a change of frame commutes with every mutator, so every history of the extended operations is simulated by a history of ordinary ones on a fresh object |
| C123 | `OutputADLines` (dictionary from names to records), printing of names, layout parsing, reshape; composed with `VCFarmFromFloris`, `ADFarm2VCFarm` | injectivity of printing; list indexing over grid cells; C92, C93, interchange of sums |
| C124 | histories of the turbine object | reverse induction on the history; a turbine is determined by constructor data, last settings and loads |
| C125 | turbine histories and all tangential kernels on `Num` | simulation relation between a run and its mirror image; reversal of the quadrature nodes |
| C126 | the farm heap (turbine references, arrays, views) and `velocity_field` | one simulation relation between heaps, parametrised by the change of axes, instantiated with rotations (C13) and reflections (C125); induction over sessions |
| C127 | the whole turbine (loading and evaluation) | scaling lemmas for extended reals, every kernel and the solver loop; simulation relation between the two histories; witness for the doublet line |
| C128 | loading by a strength function, by Ct with one cylinder; compute_u for every model | homogeneity of each kernel in the strength; two histories that differ in one loading; C34 and strict monotonicity of the momentum relation |
| C129 | Biot-Savart field and its transfer to compute_u and the grid routine | irrotationality (C88) turns the radial slope of the axial velocity into the axial slope of the radial velocity, whose integrand is positive; transfer with C119 |
| C130 | frun/velocity_field on the heap model | simulation relation between two farm sessions (Lemmas/FarmMaps, positions mapped by P, velocities by V), instantiated with ScRel and StrongRel |
| C131 | velocity_field, gridLayout, windfarm_gridlayout_CTconst | the mirrored heap is the same farm up to a permutation; sums are permutation invariant; grid: the column flip j -> nx-1-j permutes the cells |
| C132 | velocity_field o compute_u o update_loading o WakeVorticityFromCt | composition of C18, C119, C34 and the alignment lemma (no skew when the wind is along the shaft); triangle inequality over turbines and images |
| C133 | OutputProj constructor and fVert over arbitrary data records | argmin specification (C89), characterisation of the fixed points of sort-unique-round |
| C134 | both solvers of wiz/Solver.py on the same inputs | evaluation lemmas of C27/C104, Lipschitz bound of a(Ct), telescoping comparison of the trapezoidal sum with the ring sum |
| C135 | velocity_field of yawed turbines with ground | Biot–Savart sheet in global axes (Spec/YawedFarm), integrability and change of axes (Lemmas/GlobalSheet), C114 quadrature error, C119, C08 skew, C18 superposition |
| C136 | vc_tang_u_doublet, doublet_line_u, compute_u with model VCFF/VD, velocity_field | kernels of opposite points of a circle bounded in pairs (Lemmas/FarPair), solid angle and sin² forms of the cylinder, C49/C59 values, C119, superposition |
| C137 | vc_tang_u_doublet, doublet_line_u, compute_u, update_loading, velocity_field | exact value of each model beyond the cut-off in rotor axes, rotated back (rotorAxes_run), superposition; solid-angle bound of C136 summed over terms of one sign |
| C138 | compute_u (several cylinders, root, longi), update_loading, WakeVorticityFromGamma, vc_longi_u, vl_semiinf_straight_u | C16_field_multi_all; every kernel in rotor axes is a swirl, a radial or an axial vector; the elliptic term is odd in z with the schedule of the batch; telescoping of the trailed circulation |
| C139 | same | refuted: exact residual with one cylinder, bound of the elliptic term inside the sheet; positive part by C138 |
| C140 | compute_u with all parts, svc_*/vc_* kernels, update_loading | completeWake in Spec/CompleteWake from biotSavart alone; every integral carried to rotor axes by the frame isometry; C114, C67, C119, C121, biotSavart_halfline for the parts; C16_field(_multi_all) for the sum |
| C141 | compute_u with ground, svc_tang_u, vl_semiinf_straight_u | refuted for the root vortex by its closed form at the two mirror points; skewed rings: lateral mirror symmetry of the exact integral (C80) plus the accuracy of both wakes (C135); several cylinders: swirl of root vortex, its image and the sheets in the rotor plane (C138 machinery) |
| C142 | `update_loading(r,Ct,Lambda)` to `compute_u(longi,root)` | WakeVorticityFromCt stores the same wake as WakeVorticityFromGamma with the circulations found by the minimiser; C138_rotor_plane and telescoping of the enclosed circulation; residual bound of C26 |
| C143 | `update_loading(r,Gamma or Ct,Lambda)` to `compute_u(tang)` | solver evaluated in closed form (C26/C28/C29), stored rings, in-plane and on-axis values of the cylinder kernel (C02/C48), telescoping sum of the jumps a_j-a_{j+1} |
| C144 | `update_loading(r,Ct or Gamma,Lambda>=20)` to `compute_u(tang)` | recursion of C28 solved in closed form (the convection term telescopes to c_j^2-c_{j+1}^2), Abel summation for the bounds, in-plane/on-axis values as in C143 |
| C145 | `update_loading(r,Ct,Lambda,nCyl=n)` to `compute_u(tang)` in the rotor plane at any radius | C143/C144 at the stations, the radius is located between two stations, Lipschitz bound on T, explicit bound on the thrust lost in rotation |
| C146 | yawed `compute_u` over the rotor disk and in the far wake, from `update_loading` | exact disk and far-wake fields (C100), azimuthal quadrature error (C114) with a proved distance to the wake surface, skew from the wind (C08), gamma from C34 |
| C147 | exact skewed sheet along the wind, yawed `compute_u` upstream, in the wake and around it, from `update_loading` | integrand minus its zero-skew value is a total derivative (arctan), point reflection through the hub reduces the wake to the winding number of an ellipse; then C111, C114, C34 |
| C148 | `velocity_field` of yawed turbines along the wind | C135 (Biot-Savart accuracy of the farm), C147 per wake, Cauchy-Schwarz for the error |
| C149 | `compute_u` of a multi-station turbine under skew, from `update_loading` | C16 (multi-station value), C114 per station, C147 per station, telescoping of C143 |
| C150 | `compute_u`/`velocity_field` in the common rotor plane of a row of turbines, with ground | exact plane value of the tangential cylinder (C02/C142), C16 (single and multi-station), C18 |
| C151 | `plotPlane`, `plotPlaneVert` (article), `plotPlane` (coupling): what is handed to Matplotlib | case analysis of the calls; minima/maxima of lists with NaN; uniqueness of sorted lists; C91 for the picture of `fVert` |
| C152 | `velocity_field` of a farm of turbines with one or several stations, with ground, against Biot–Savart and against solid angles | C119 (single and multi-station with ground), C18, C111 |
| C153 | `compute_u` and `velocity_field` with ground against the same without ground and with image turbines | C16 value theorems for both histories, distributivity of a finite rotation over `inf`/`nan`, C18, C140 |
| C154 | `velocity_field` of farms of yawed turbines with several stations, over the ground | C149_field in global axes (sheetFlow_axes), C153 for the images, C152 for turbines facing the wind, farm_assemble, C147 along the wind |
| C155 | `tostring`/`__repr__` of turbines and farms as the list of labels and printed values (np.round to 4 decimals; the conversion of a value to characters is NumPy's) | C05/C06/C07, memory_hub, memory_wind, frame_cols, C123_rounding; fresh_run for the farm |
| C156 | `setupInterpolants`, `fW`, `fU` of the data planes, `interp2d_pairs` as a closure over its arguments; `interp2d` itself is an arbitrary function satisfying IsSpline | C133_axes, argmin_abs, length of npUnique |
| C157 | nothing new: `velocity_field`, `compute_u`, `update_loading` | C150_farm, C150_turbine, C145_swirl, C145_noswirl, thrust_rings |
| C158 | nothing new: `update_loading` with `nCyl`, the solver, `compute_u` | summation by parts and step quadrature (Mathlib's fundamental theorem of calculus) on C144_spread and C143_spread; Lipschitz bound of the circulation |
| C159 | `WakeVorticityFromCirculation_Discr` on arrays of any lengths with NumPy's broadcasting, and for any `method` (`Model/SolverShapes.lean`) | case analysis of the broadcasts; equality with the equal-length model |
| C160 | the three inductions of one loading (stream tube, discrete, continuous) | closed forms of C25, C27, C104; the corrected induction lies below momentum theory (tangent line); telescoping bound of the rotational loss |
| C161 | `vps_u` as the right-hand side of the equations of motion of the vortices, and of explicit Euler steps (`Spec/PointVortexMotion.lean`) | own_iff (C70), pairwise cancellation, derivative of the pair sums, fundamental theorem of calculus for the potential, induction over the steps |
| C162 | `vps_u` under rotations, shifts, reflections, changes of units; bounds | C70 and algebra of one vortex; 1-exp(-q) <= sqrt q |

No property is "not applicable": parts living in floating-point rounding or in the
operating system are outside the model and named in section 3.

## 3. Trusted base and what is not modelled

* Lean's kernel and the axioms `propext`, `Classical.choice`, `Quot.sound`.
* The reading of the Python code recorded in the comments of `Verif/Model`.
* Not modelled: floating-point rounding/overflow, the conversion of printed values to characters (what is printed by `tostring` is: C155), plotting
  (`plotting_functions.py` except its colour maps, the figures of the scripts except the data that the plane plots hand to
  Matplotlib, C151), test classes,
  array dtypes and n-d shapes, warnings, `pdb` calls; of
  `article_blockage/helper_functions.py`: reading of CFD/ProjCorr files from disk, 2-D spline
  interpolation (`interp2d_pairs`), `pickle` files and line styles.
* Shape quirks left out of the batch model: `vl_semiinf_u` returns shape (3,1) at singular points, `ss_u` with scalar
  coordinates raises a `TypeError`; list methods
  that `WindFarm` inherits (`extend`, `insert`, item assignment) bypass its type check and are modelled as one operation that
  replaces the items by any list (`FOp.inherited`); `interp1` is `np.interp` for finite
  ordinates; the discrete solver of `Model/Solver.lean` is for arrays of equal lengths and `method='analytical'`
  (`Model/SolverShapes.lean` models the other lengths and methods, and C159_equal relates the two).

## 4. Disagreements between code and expected behaviour (findings)

Theorems in brackets are machine-checked witnesses.

1. `set_yaw0_coord`/`yaw_error`: `v_horz = e_shaft - dot(e_shaft,e_vert)` lacks the factor `e_vert`; `yaw_error` is 0 for exactly opposed wind.
2. `chi` is latched at the first `compute_u` — even when that call then raises "set loading" — and not refreshed when wind or yaw change (C09_*_refuted). With zero or vertical wind it is `nan` and the straight cylinder is used.
3. The constructor argument `Ct` is ignored; `gamma_l` is not initialised.
4. `WindFarm.__init__`/`extend` do not type-check (C20_constructor_unchecked); the layout setter stores views of the caller's array (C21_set_aliases); with a duplicated turbine the last row wins.
5. `gridLayout` with the default `zSpacing=None` raises as soon as there is a turbine; an even `nx` is not centred; two negative counts give `nx*nz` turbines at the origin.
6. Solver: `ap_cyl_conv=(Γi+Γi+1)/(4πΩ r_cyl)**2` squares the whole denominator (C35_*_refuted).
7. Solver: `Ctrot[i]` sums strictly outer stations; `Omega=inf` is replaced by 800, so swirl is on when R<U0/40 (C31_refuted); `warnings` is not imported (C27_rejects); methods other than 'analytical' return None or raise.
8. The continuous solver overwrites `r_cp[0]`, `lambda_r[0]` of the caller (C32_refuted); `CirculationFromPrescribedCt` without swirl returns the caller's array itself.
9. `svc_longi_u_polar(polar_out=True)` returns `u_psi` in place of `u_r` (C64_longi_polar_refuted); `svc_u_polar` ignores `polar_out`.
10. `svcs_longi_u` uses `Ycp0` twice for the mirror cylinder; `vcs_longi_u` ignores `Ground` (C68_*_refuted). For the root vortex and longitudinal vorticity with ground the image has the same sign.
11. `vl_semiinf_u` with visc_model 1–4 raises NameError.
12. `svc_root_u_polar` chooses its branch from `np.max(|vz|)` of the whole batch (C67_batch_dependence); the empty batch raises (C67_empty).
13. `vps_u` compares the dimension of XV with XV; zero cores give nan for the higher-order kernels.
14. `ring_u_polar('linear')` uses Gamma=-1, r0=1 in the corrected band; `rings_u(polar_out)` adds radial components about different axes (C53_polar_refuted).
15. `doublet_line_polar_u` masks miss |r|=1e-8 and |z|=1e-8 exactly and force 0 on the positive axis.
16. `_integrals_DL_finite`: the 5/2 primitive has `2*c**2` where 3 is needed (C57_refuted).
17. The skewed quadrature with an even `ntheta` (the default) is not exactly mirror symmetric (C80).
18. `vc_tang_u` returns γ/4 in a band |r−R|<1e-8R, also strictly inside; results depend on the other points of the batch through the shared stopping test of the Carlson loops.
19. nan strengths are skipped by the multi-cylinder loops but not by the single path (C17_nan_refuted), so CT>1 in `windfarm_gridlayout_CTconst` silently gives a zero field (C23_overloaded).
20. `fKxit` overwrites `b1` by a boolean mask, so its closed form is wrong for every skew but a coincidental one (C86_xi_skew_refuted, C86_xi_inconsistent); `fKzt` has an undefined name for nout>3 (C86_outputs) and returns nan at r=1 (C86_rim_nan). The quadrature marked "WEIRD RESULTS" is exactly equal to the others (C86_quadratures).
21. `savePlane` is not atomic (C74_crash) and drops a trailing slash (C74_directory).
22. Numerical doublet lines give both end points full weight (C75_sum).
23. `ellipticRJ` evaluates its series at the arguments *before* the last duplication with the weight of the one *after* it: convergence is 16^-k only.
24. The stopping test of `ellipticRF` compares successive iterates only: `C76_premature_stop_refuted` gives a parameter 0<m<1 at which two successive passes return exactly the same value and the routine returns a number wrong by at least 0.05.
25. `svc_u_polar` ignores `polar_out` (C84_polar_out_refuted).
26. `vc_tang_u` with `epsilon` is not continuous across the rotor plane: the smoothing acts only for z>=0 (C82_upstream, C82_rotor_plane).
27. The self-similar model (`Model='SS'`) and `ring_u` within 1e-7 R of its axis return fields that do not conserve mass (C87_self_similar_refuted, C87_ring_axis_refuted).
28. `setupModel` computes the skew angle with `sqrt(1-CT)`: for CT>1 it is nan, and the wake of a yawed rotor is the straight one (C91_straight).
29. `MatchMidVel` has no effect on the centre velocity with `Model='VD'` (C90_doublet_refuted).
30. `ADFarm2VCFarm` decides ground effect for the whole farm from the last turbine of the list (C93_ad_farm).
31. `gamma_CT_fun` returns gamma_t/U0 by its documentation; `update_loading` stores it as gamma_t without multiplying by U0 (C95_wind_speed_refuted).
32. `rsquare` returns 0 for a perfect fit of constant data (0/0 is nan and `max(0,nan)` is 0; C96_bounds).
33. `pretty_time` documents a 6-character result; from one year on it has fewer (C97_length_refuted). `get_cmap` gives data that matplotlib rejects when minSpeed>0.9 or maxSpeed<1.001 (C98_valid).
34. The models VCFF and VD lose the wake deficit: inside the wake and beyond the cut-off they give an axial velocity of the sign opposite to gamma_t where the cylinder gives between 0.4 gamma_t and gamma_t (C103_inside_wake).
35. The continuous solver convects its vorticity at U0(1-2a) instead of the mean U0(1-a): for constant circulation its cylinders induce U0 a(1-a)/(1-2a) at the rotor although it reports U0 a (C104_consistency_refuted).
36. The Saffman core parameter is a radius in `ring_u` (log 8R/eps) and a diameter in `ring_u_polar` (log 16R/eps): with the same argument the two routines differ by Gamma log2/(4 pi R) on the ring (C52_on_ring, C54_core_value).
37. `WindFarm.append` checks the type of what it is given, but the class is a `list` subclass and the mutators it inherits (`extend`, `insert`, `+=`, item assignment) do not: a farm can hold anything and fails only when a velocity is asked for (C20_extend_unchecked).
38. With swirl the discrete solver's intensities are not those of helices of the pitch it returns (the line `gamma_t = -Gamma_tilde/h` is commented out): C108_swirl, C108_swirl_refuted. The off-by-one rotational sum (finding 7) and the squared denominator (finding 6) are what breaks the identity.
39. `InductionsFromCirculation_VC_Cont` with `Cq` returns a tangential induction even when `bSwirl` is False (C109_ignores_swirl_switch).
40. VortexCylinderSkewedSuperp.py:69-70: the strengths `dgt_*` are not proportional to the slope of the circulation `gt_*` (the code has `cos(rh/tau)` where the derivative of `tan(pi rh)/tau` has `cos(pi rh)`, and the factor pi is missing); no scaling factor, looked for by the TODO of line 99, exists (C113_slope_refuted).
41. `loadPlane` truncates `CT*100` and `HH*10` in the file name but records the requested values: 0.8 and 0.805 load the same data and set up different models (C116). For HH=9 the ground data are compared with a groundless model (`HH>9` in `loadPlane`, `HH<9` in `setupModel`).
42. `getModelsRelErr` zips `angles` with `Roffsets` even when the offsets are unused; missing offsets leave rows of zeros that lower the mean error (C117). Its arguments `U0`, `R` have no effect on the result.
43. `vc_longi_u` has no special handling of its singular points: it returns nan on the whole axis (r=0) and at r=R for every z, also upstream. A turbine with a straight wake, `longi=True` and non-zero `gamma_l` returns nan in all three components on its shaft axis and on the whole surface r=R (`C121_turbine_nan`).
44. `set_yaw0_coord` does not reset the cached skew angle `chi`: after an evaluation, re-orienting the turbine leaves the old skew in force (`C122_stale_chi`), as yawing does (finding of C09). The constructor never initialises `gamma_l` (it sets `gamma_t` twice), so a turbine given `gamma_t` by assignment raises AttributeError when evaluated with `longi=True`.
45. `OutputADLines.getSimTop` never returns for the layout `1x1` (`UnboundLocalError`); `getSimCTs` refuses spacings of type `float` that `getSim` accepts (C123_single, C123_spacing).
46. `update_wind` after `update_loading` does not refresh the vorticity: the strengths stay those of the old wind speed (C124_stale_wind), so the order of these two calls matters, and only of these two (C124_commute).
47. A turbine facing a wind opposite to its shaft direction at rest has skew 0 when turned by +π but skew 2π when turned by −π: the same physical configuration, yet the far-field model raises NotImplementedError in the second case (C125_opposed), and the cylinder model switches to the quadrature.
48. Models VD/VCFF: the on-axis tolerances of `doublet_line_u` and `doublet_line_polar_u` (1e-8) are absolute lengths, so results depend on the unit of length: the point (3e-9,0,4e-9) has no induced velocity, the same point with lengths in nanometres has one (C127_doublet_refuted). The cylinder kernels use tolerances relative to R.
49. The thrust coefficient does not always increase the induction across the high-thrust limit Ctc=0.8976: below it the strength contains the correction a'_c, above it does not. For R=10000, U0=1, Lambda=20 going from Ct=0.897 to 0.9 lowers all induced velocities (C128_across_limit_refuted); the correction is negligible for R/U0 of order one, and dimensionally inconsistent (finding on a'_c, C35).
50. gridLayout centres the columns at -xSpacing/2, not 0, for an even number of columns (`floor(nx/2)`), so the flow of an even grid farm is symmetric about x=-xSpacing/2 (C131_grid); a user who reads the flow on x=0 as the symmetry plane is off by half a spacing.
51. `OutputProj.fVert` pairs the axial velocity with the velocity component normal to the plane (U and V are filled with w and v, but U is returned for the horizontal plane and V for the vertical one): C133_inplane_refuted. Its axes are sorted, rounded and made unique independently of the velocity matrices, so data stored in decreasing order are silently mirrored (C133_axes).
52. The remark in Solver.py that the continuous axial induction is "a bit off" compared with the discrete one is a first-order discretisation effect: the discrete solver evaluates a' at the cylinder (half a spacing outside the station) and leaves out the ring next to the station in the sum of rotational losses (it starts at i+2), so the difference is O(h/r) and always of one sign at the tip (C134).
53. A turbine that faces the wind after `update_yaw_pos` with a yaw outside (-pi, pi] (e.g. 2 pi) gets a skew of a whole turn and is evaluated with the azimuthal quadrature of the skewed cylinder instead of the straight one: the same flow, but with the errors of C114 near the wake instead of those of C119 (hypothesis of C135).
54. `doublet_line_polar_u` returns 0 for the radial component at a distance below 1e-8 of the axis and 0 for the axial one within 1e-8 of the rotor plane; these are absolute lengths, so for rotors of that size (or lengths in other units) the far field is wrong at every scale of the rotor (`ResolvedPoint` in C136).
55. No bound vorticity: with `root=True, longi=True` the swirl induced by a rotor is continuous across the rotor plane and continues upstream, where the flow of an actuator disk has no swirl (C139_upstream_refuted: 0.3 m/s for a circulation of 100 m²/s).
56. One cylinder: `update_loading` computes `gamma_l` at the loading station (0.995R for the default `nCyl=1`) but `compute_u` puts the cylinder at `R`; root vortex and sheet do not balance and a swirl `Gamma (R/r0-1)/(4 pi rho)` is left outside of the wake (C139_outside_refuted).
57. Ground effect with `root=True`: the image of the root vortex has the same circulation (it should be opposite), so the flow through the ground doubles instead of vanishing (C141_root_refuted: 8 m/s for a circulation of 100 m²/s one metre above the ground).
58. `fKzt` at small skew: the closed form is a difference of two large terms divided by the skew, one evaluated with SciPy's `ellipk`, the other with the library's own routine; where that routine stops early (finding on C76) the result is wrong by an amount that grows without bound as the skew goes to zero (C86_shipped_refuted). The second of the two integrals is harmless: it contributes at most 0.06 (C86_shipped_partial).
59. `vcs_longi_u` ignores the ground: with several cylinders the root vortex has an image and the longitudinal vorticity has none. Without ground effect root vortex and sheets cancel outside of the stations in the rotor plane (C139_several_stations_partial); with ground effect the image of the root vortex remains and blows through the ground (C141_stations_refuted).
60. The early stop of finding 24 reaches the flow: next to the parameter where two successive passes of the `ellipticRF` loop agree, `ellipticPiCarlson` is off by at least 1/100 (premature_pi). Through `vc_tang_u` this makes the returned field of a single straight cylinder fail to be divergence-free somewhere in the annulus between 50% and 99% of the radius, for every strength and radius (C87_straight_refuted).
61. `WakeVorticityFromCt` matches the prescribed thrust coefficient with the local speed ratio of the stations, but the discrete solver evaluates the circulation at the cylinder radii, which lie outside of the stations: the thrust (and the induction) the turbine produces is strictly below the prescribed one at every station, even at the outermost one where no wake rotation is lost (C143_thrust). `compute_u` in turn puts the cylinders at the stations `r`, not at those radii.
62. The plane plots ignore a `maxSpeed` given without `minSpeed`, compute NaN colour limits as soon as one value is NaN although such values are masked (`Speed.min()` instead of the masked minimum), and `plotPlaneVert` mirrors the picture of data on decreasing coordinates (`C151_limits_refuted`, `C151_vertical_refuted`).
63. `print(turbine)` shows two lines labelled `yaw_err` (WindTurbine.py:419 and 424). They are computed differently and agree only if `yaw_pos - yaw_wind` is within half a turn: after `update_yaw_pos(2*np.pi)` they read 0 and 360, and for a wind exactly opposed to the shaft 0 and 180 (C155_two_errors_refuted, C155_two_errors_opposed).
64. `OutputProj` rounds the coordinates to three decimals and removes duplicates (helper_functions.py:135-149) without checking that as many are left as the velocities have rows and columns (`loadPlane` does). `setupInterpolants` then succeeds - `interp2d_pairs` calls `interp2d` only when it is evaluated, and again at every evaluation - and every `fW` raises (C156_merged_refuted).
65. `WakeVorticityFromCirculation_Discr(..., bTanInd_k=False)` with several circulations and a single cylinder (e.g. one radius and the default `r_cyl`) does not raise: it returns one `gamma_t`, that of the first circulation alone, with as many `gamma_l` as circulations (C159). A misspelt `method` makes it return `None` silently.
66. `vps_u` skips pairs closer than `r2<1e-15`, an absolute area: in other units of length the same configuration has a velocity (C162_units_refuted).

## 5. The repository's unit tests and the theorems that generalise them
Each test of `/repo/wiz` evaluates a formula at a few points; the property on the right is proved for all of them. (Tests that only draw are listed for completeness.)

| test (`wiz/...`) | general theorems |
|---|---|
| VortexCylinder: singularities | C40, C43 (values on the edge, on the axis, in the rotor plane) |
| singularities_RadiusRotor | C43 (edge cut-off) |
| regularization | C82 |
| multirotor | C50, C41 |
| axis, axis_approx | C43, C48; C101 |
| rotor, farwake, rings | C43; C106, C81; C99 |
| VortexRing: singularities, axis | C51, C52; C48, C52 |
| axis_approx, doublet_approx | C101; C102 |
| formulations, regularised | C51; C54 |
| VortexCylinderSkewed: rotor, farwake, rings | C66, C80, C100, C118; C100; C112 |
| Solver: gamma | C33 |
| elliptic | C37, C76, C110 |
| VortexDoublet: integrals, line, polar, axis | C56, C57, C107; C55, C58, C59, C75 |
| VortexLine: semi-infinite | C60, C61 |
| WindTurbine: ground; main (drawing) | C15; C81 |
| WindFarm: layout | C22 |
| SelfSimilar: paper | C73 |
| article_blockage Task8/Task9 | C115, C129 |
| article_skew | C84, C86, C100, C112 |
| article_wakerot Task1, CT_CQ | C81; C25, C109 |
