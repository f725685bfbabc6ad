{
 "claims": [
  {
   "property": "C01",
   "status": "proved",
   "theorems": [
    "Adx.C01_third_law",
    "Adx.C01_a_from_period_orb_period",
    "Adx.C01_orb_period_a_from_period",
    "Adx.C01_orb_period_strictMono"
   ],
   "note": "Exact real arithmetic."
  },
  {
   "property": "C02",
   "status": "proved",
   "theorems": [
    "Adx.C02_mean_motion_mul_period",
    "Adx.C02_mean_anomaly_elps",
    "Adx.C02_mean_anomaly_period",
    "Adx.C02_mean_anomaly_hypb",
    "Adx.C02_mean_anomaly_hypb_sq"
   ],
   "note": "Exact real arithmetic."
  },
  {
   "property": "C03",
   "status": "proved",
   "theorems": [
    "Adx.C03_a_from_pe_semipara",
    "Adx.C03_semipara_a_from_pe",
    "Adx.C03_apsides",
    "Adx.C03_apsides_from_a",
    "Adx.C03_periapsis_le",
    "Adx.C03_le_apoapsis",
    "Adx.C03_open_orbit_unbounded"
   ],
   "note": "Exact real arithmetic."
  },
  {
   "property": "C04",
   "status": "proved",
   "theorems": [
    "Adx.C04_shape_size",
    "Adx.C04_semiparameter_consistent",
    "Adx.C04_conic_classification",
    "Adx.C04_parabola"
   ],
   "note": "Exact real arithmetic; parabolic states are treated separately because the code divides by zero energy there."
  },
  {
   "property": "C05",
   "status": "proved",
   "theorems": [
    "Adx.C05_orbit_equation",
    "Adx.C05_plane"
   ],
   "note": "Exact real arithmetic."
  },
  {
   "property": "C06",
   "status": "proved",
   "theorems": [
    "Adx.C06_periapsis_le_radius",
    "Adx.C06_radius_le_apoapsis"
   ],
   "note": "Exact real arithmetic; needs nonzero angular momentum."
  },
  {
   "property": "C07",
   "status": "proved",
   "theorems": [
    "Adx.C07_ufunc0",
    "Adx.C07_ufunc1",
    "Adx.C07_ufunc2",
    "Adx.C07_ufunc3",
    "Adx.C07_ufunc4",
    "Adx.C07_ufunc5",
    "Adx.C07_continuous"
   ],
   "note": "All three branches of ufunc0..5 equal one power series; joint continuity."
  },
  {
   "property": "C08",
   "status": "proved",
   "theorems": [
    "Adx.C08_identities",
    "Adx.C08_deriv",
    "Adx.C08_parity",
    "Adx.C08_addition",
    "Adx.C08_scaling",
    "Adx.C08_at_zero",
    "Adx.C08_addition_45"
   ],
   "note": "Exact real arithmetic."
  },
  {
   "property": "C09",
   "status": "proved",
   "theorems": [
    "Adx.C09_deriv_alpha"
   ],
   "note": "Derivative in alpha including alpha = 0."
  },
  {
   "property": "C10",
   "status": "proved",
   "theorems": [
    "Adx.C10_derivative",
    "Adx.C10_existsUnique",
    "Adx.C10_near_M",
    "Adx.C10_mono"
   ],
   "note": "Exact real arithmetic."
  },
  {
   "property": "C11",
   "status": "proved",
   "theorems": [
    "Adx.C11_derivative",
    "Adx.C11_existsUnique"
   ],
   "note": "Exact real arithmetic."
  },
  {
   "property": "C12",
   "status": "proved",
   "theorems": [
    "Adx.C12_derivative",
    "Adx.C12_existsUnique",
    "Adx.C12_radius_bound"
   ],
   "note": "Exact real arithmetic; explicit positive lower bound for the radius."
  },
  {
   "property": "C13",
   "status": "proved",
   "theorems": [
    "Adx.C13_elps",
    "Adx.C13_hypb",
    "Adx.C13_uni",
    "Adx.C13_total",
    "Adx.C13_test_false_returns_start",
    "Adx.C13_max_iter_zero"
   ],
   "note": "Holds for every interpretation of the arithmetic (no laws assumed), hence for floats and NaN."
  },
  {
   "property": "C14",
   "status": "proved",
   "theorems": [
    "Adx.C14_elps_accuracy"
   ],
   "note": "Exact real arithmetic; the solver's own run (final carry of the loop)."
  },
  {
   "property": "C15",
   "status": "proved",
   "theorems": [
    "Adx.C15_hypb_accuracy",
    "Adx.C15_hypb_converges"
   ],
   "note": "Accuracy and convergence for every N and e > 1."
  },
  {
   "property": "C16",
   "status": "proved",
   "theorems": [
    "Adx.C16_uni_accuracy",
    "Adx.C16_uni_converges"
   ],
   "note": "Convergence is proved for alpha <= 0; for ellipses only the accuracy at an early stop."
  },
  {
   "property": "C17",
   "status": "proved",
   "theorems": [
    "Adx.C17_elps_odd",
    "Adx.C17_elps_periodic",
    "Adx.C17_hypb_odd",
    "Adx.C17_uni_reversal"
   ],
   "note": "By simulation between two loop executions; any iteration limit."
  },
  {
   "property": "C18",
   "status": "partial",
   "theorems": [
    "Adx.C18_elps_refuted",
    "Adx.C18_elps_default_refuted",
    "Adx.C18_hypb_default_refuted",
    "Adx.C18_elps_default_partial",
    "Adx.C18_hypb_default_partial",
    "Adx.C18_elps_default_high_partial",
    "Adx.C18_hypb_default_low_partial",
    "Adx.C18_elps_cycle_refuted",
    "Adx.C18_elps_default_9935_partial",
    "Adx.C18_hypb_slow_refuted",
    "Adx.C18_hypb_default_near_refuted",
    "Adx.C18_hypb_default_near_partial",
    "Adx.C18_elps_default_9965_partial",
    "Adx.C18_hypb_default_wide_refuted",
    "Adx.C18_hypb_default_nearer_partial"
   ],
   "note": "The statement as given is refuted on whole ranges. C18_elps_cycle_refuted: for every e in [0.9973, 1) there is an M below 1/40 at which the Newton iteration is a two-cycle, so the solver fails for every iteration limit and every tolerance up to 3. C18_hypb_slow_refuted: for every iteration limit n and every e in (1, 1 + 1/(8(n+1)^2)] the call at N = 1/(4(n+1)) leaves a residual of at least 0.7 (C18_hypb_default_near_refuted: default settings, every e up to 1.000048; C18_hypb_default_wide_refuted: every e up to 1 + 1/16200 = 1.0000617 at N = 1/180, residual at least 4e-4). Earlier single witnesses: C18_elps_refuted, C18_elps_default_refuted, C18_hypb_default_refuted. Proved on the ranges e <= 0.9965 with max_iter >= 17 for every M (C18_elps_default_9965_partial: from about 0.9943 on the first step may overshoot apoapsis, and the second returns; e <= 0.9935 needs 16, C18_elps_default_9935_partial; e <= 0.98 needs 14, e <= 3/5 needs 7) and e >= 1.0001, |N| <= 10^300 with the default 50 iterations (C18_hypb_default_nearer_partial; e >= 1.00018 earlier, C18_hypb_default_near_partial; e >= 1.0005 needs 47, C18_hypb_default_low_partial; e >= 3 only 12). Missing: 0.9965 < e < 0.9973 and 1.0000617 < e < 1.0001."
  },
  {
   "property": "C19",
   "status": "proved",
   "theorems": [
    "Adx.C19_stays_on_orbit",
    "Adx.C19_never_collides"
   ],
   "note": "Whatever the solver returned."
  },
  {
   "property": "C20",
   "status": "proved",
   "theorems": [
    "Adx.C20_lagrange",
    "Adx.C20_lagrange_any"
   ],
   "note": "Exact real arithmetic. C20_lagrange: nonzero angular momentum, where the radius is never zero; C20_lagrange_any: every r0 != 0, the determinant where the radius is nonzero."
  },
  {
   "property": "C21",
   "status": "proved",
   "theorems": [
    "Adx.C21_solves_two_body",
    "Adx.C21_acceleration_is_point_mass_grav",
    "Adx.C21_unique"
   ],
   "note": "Existence for all times and uniqueness on every open interval around 0; root of the universal Kepler equation exact."
  },
  {
   "property": "C22",
   "status": "proved",
   "theorems": [
    "Adx.C22_zero_time"
   ],
   "note": "Exact real arithmetic; zero Newton steps."
  },
  {
   "property": "C23",
   "status": "proved",
   "theorems": [
    "Adx.C23_exact_up_to_time"
   ],
   "note": "The code's own solver with its default settings."
  },
  {
   "property": "C24",
   "status": "proved",
   "theorems": [
    "Adx.C24_composition",
    "Adx.C24_periodic"
   ],
   "note": "Root of the universal Kepler equation exact."
  },
  {
   "property": "C25",
   "status": "proved",
   "theorems": [
    "Adx.C25_time_reversal"
   ],
   "note": "The code's own solver."
  },
  {
   "property": "C26",
   "status": "proved",
   "theorems": [
    "Adx.C26_batch_is_lanewise",
    "Adx.C26_vmapSolve",
    "Adx.C26_one_row_per_time",
    "Adx.C26_row_independent",
    "Adx.C26_append"
   ],
   "note": "Model of JAX's while_loop batching rule; any arithmetic."
  },
  {
   "property": "C27",
   "status": "proved",
   "theorems": [
    "Adx.C27_elements",
    "Adx.C27_kepler",
    "Adx.C27_exact",
    "Adx.C27_point_mass"
   ],
   "note": "The code's own solver (same iterates for rotated states) and exact propagation."
  },
  {
   "property": "C28",
   "status": "proved",
   "theorems": [
    "Adx.C28_identity"
   ],
   "note": "Exact real arithmetic."
  },
  {
   "property": "C29",
   "status": "proved",
   "theorems": [
    "Adx.C29_curve",
    "Adx.C29_jacobian"
   ],
   "note": "Exact real arithmetic; the differentiated map is the exact propagation of C19-C21. Frechet derivative on R^6, all conics, any time."
  },
  {
   "property": "C30",
   "status": "proved",
   "theorems": [
    "Adx.C30_symplectic",
    "Adx.C30_det",
    "Adx.C30_inverse"
   ],
   "note": "Exact real arithmetic; symplectic matrix of Mathlib, determinant one and explicit inverse."
  },
  {
   "property": "C31",
   "status": "proved",
   "theorems": [
    "Adx.C31_generalized_anomaly",
    "Adx.C31_generalized_anomaly_any"
   ],
   "note": "Exact real arithmetic. C31_generalized_anomaly: nonzero angular momentum; C31_generalized_anomaly_any: every r0 != 0 and propagated position != 0 (at the centre there is no velocity to take sigma of)."
  },
  {
   "property": "C32",
   "status": "proved",
   "theorems": [
    "Adx.C32_geometry",
    "Adx.C32_magnitudes"
   ],
   "note": "Exact real arithmetic; directions stated with a separate specification (node, in-plane, pole vectors)."
  },
  {
   "property": "C33",
   "status": "partial",
   "theorems": [
    "Adx.C33_roundtrip_folded",
    "Adx.C33_roundtrip_iff",
    "Adx.C33_roundtrip_partial",
    "Adx.C33_circular",
    "Adx.C33_refuted"
   ],
   "note": "The claim as stated is false (C33_refuted): the code folds omega and f into [0, pi]. Proved: what is returned for every input (C33_roundtrip_folded) and exactly when the round trip holds (C33_roundtrip_iff)."
  },
  {
   "property": "C34",
   "status": "partial",
   "theorems": [
    "Adx.C34_coe2rv_surjective",
    "Adx.C34_roundtrip_iff",
    "Adx.C34_roundtrip_partial",
    "Adx.C34_refuted"
   ],
   "note": "The claim as stated is false (C34_refuted). Proved: exactly when the round trip holds (C34_roundtrip_iff), and that coe2rv reaches every state."
  },
  {
   "property": "C35",
   "status": "proved",
   "theorems": [
    "Adx.C35_ranges",
    "Adx.C35_wrap_is_dead"
   ],
   "note": "Also shows that the wrap branch of true_anomaly and argument_of_periapsis is dead code."
  },
  {
   "property": "C36",
   "status": "proved",
   "theorems": [
    "Adx.C36_nmax_iff",
    "Adx.C36_nonneg_mono",
    "Adx.C36_bound",
    "Adx.C36_attained"
   ],
   "note": "Radii of the motion quantified over exact propagation."
  },
  {
   "property": "C37",
   "status": "proved",
   "theorems": [
    "Adx.C37_is_short_way"
   ],
   "note": "Exact real arithmetic."
  },
  {
   "property": "C38",
   "status": "partial",
   "theorems": [
    "Adx.C38_complete",
    "Adx.C38_pass_perigee_partial",
    "Adx.C38_circular",
    "Adx.C38_refuted"
   ],
   "note": "The claim as stated is false at theta = pi (C38_refuted), where the code always returns True. Proved: complete description for every transfer angle and periapsis angle (C38_complete), circular orbits, and the claim for theta != pi."
  },
  {
   "property": "C39",
   "status": "proved",
   "theorems": [
    "Adx.C39_rp_islower_rmin"
   ],
   "note": "Over exact propagation, for all times."
  },
  {
   "property": "C40",
   "status": "proved",
   "theorems": [
    "Adx.C40_point_mass",
    "Adx.C40_j2",
    "Adx.C40_j3",
    "Adx.C40_j4"
   ],
   "note": "Gradients by HasDerivAt in each coordinate and along every curve."
  },
  {
   "property": "C41",
   "status": "proved",
   "theorems": [
    "Adx.C41_energy",
    "Adx.C41_hz",
    "Adx.C41_point_mass_is_newton",
    "Adx.C41_kepler_integrals"
   ],
   "note": "For every solution of the equations of motion."
  },
  {
   "property": "C42",
   "status": "proved",
   "theorems": [
    "Adx.C42_axial",
    "Adx.C42_mirror",
    "Adx.C42_homogeneous",
    "Adx.C42_linear",
    "Adx.C42_divergence_free",
    "Adx.C42_position_only"
   ],
   "note": "For the field computed by the code as a function of position."
  },
  {
   "property": "C43",
   "status": "proved",
   "theorems": [
    "Adx.C43_key_errors",
    "Adx.C43_only_named_keys"
   ],
   "note": "KeyError modelled as an Except value."
  },
  {
   "property": "C44",
   "status": "proved",
   "theorems": [
    "Adx.C44_radius_islow",
    "Adx.C44_lipschitz"
   ],
   "note": "Exact real arithmetic."
  },
  {
   "property": "C45",
   "status": "proved",
   "theorems": [
    "Adx.C45_returns",
    "Adx.C45_general",
    "Adx.C45_size",
    "Adx.C45_adaptive",
    "Adx.C45_next_attempt",
    "Adx.C45_fixed",
    "Adx.C45_fixed_times",
    "Adx.C45_fixed_completes",
    "Adx.C45_custom_refused",
    "Adx.C45_custom",
    "Adx.C45_final",
    "Adx.C45_final_is_last"
   ],
   "note": "Relative to the contract of diffrax.diffeqsolve written in Model/Cowell.lean (external code, not available here): loop order, clipping to t1, saving and event rule are assumed, solver and controller are arbitrary functions (controller: Controller.Valid; pidLike_valid and constant_valid show instances)."
  },
  {
   "property": "C46",
   "status": "proved",
   "theorems": [
    "Adx.C46_passed",
    "Adx.C46_missing_rmin",
    "Adx.C46_defaults",
    "Adx.C46_no_event",
    "Adx.C46_adaptive",
    "Adx.C46_fixed",
    "Adx.C46_final",
    "Adx.C46_start_below",
    "Adx.C46_docstring_refuted",
    "Adx.C46_custom",
    "Adx.C46_custom_radius"
   ],
   "note": "Relative to the same contract as C45 (sign-change event without root finder, run ends at the end of the step)."
  },
  {
   "property": "C47",
   "status": "proved",
   "theorems": [
    "Adx.C47_isRotation",
    "Adx.C47_axis",
    "Adx.C47_counterclockwise",
    "Adx.C47_group",
    "Adx.C47_zero_neg_period",
    "Adx.C47_perifocal"
   ],
   "note": "Exact real arithmetic."
  },
  {
   "property": "C48",
   "status": "proved",
   "theorems": [
    "Adx.C48_orb_period",
    "Adx.C48_a_from_period",
    "Adx.C48_angular_momentum",
    "Adx.C48_semimajor_axis",
    "Adx.C48_alpha",
    "Adx.C48_eccentricity_vector",
    "Adx.C48_semiparameter",
    "Adx.C48_mean_motion",
    "Adx.C48_equ_of_orbit",
    "Adx.C48_equ_of_orb_uvi",
    "Adx.C48_radius_periapsis",
    "Adx.C48_radius_apoapsis",
    "Adx.C48_semipara_from_ae",
    "Adx.C48_a_from_pe",
    "Adx.C48_sigma_fn",
    "Adx.C48_ufunc",
    "Adx.C48_ufunc_nan_alpha",
    "Adx.C48_kepler_equ",
    "Adx.C48_mean_anomaly_elps",
    "Adx.C48_mean_anomaly_hypb",
    "Adx.C48_kepler_equ_uni",
    "Adx.C48_lagrange",
    "Adx.C48_solve_elps",
    "Adx.C48_solve_hypb",
    "Adx.C48_solve_uni",
    "Adx.C48_solve_elps_parabolic",
    "Adx.C48_solve_elps_nan",
    "Adx.C48_kepler",
    "Adx.C48_rotmat",
    "Adx.C48_inclination",
    "Adx.C48_angles",
    "Adx.C48_rv2coe",
    "Adx.C48_coe2rv",
    "Adx.C48_path_check",
    "Adx.C48_nmax",
    "Adx.C48_dxdx0",
    "Adx.C48_gravity",
    "Adx.C48_gravity_origin",
    "Adx.C48_semimajor_axis_mu0",
    "Adx.C48_equ_of_orbit_asymptote",
    "Adx.C48_radii_zero",
    "Adx.C48_sigma_fn_mu0",
    "Adx.C48_mean_anomaly_boundary",
    "Adx.C48_uni_mu_neg",
    "Adx.C48_lagrange_boundary",
    "Adx.C48_lagrange_Ft_boundary",
    "Adx.C48_nmax_boundary",
    "Adx.C48_zonal_origin"
   ],
   "note": "Reals extended by +inf, -inf and NaN, without rounding, overflow or signed zeros. On the documented domain each function returns the finite real value; boundary and off-domain cases are stated one by one. C48c completes the scalar formulas: every finite argument is covered."
  },
  {
   "property": "C49",
   "status": "proved",
   "theorems": [
    "Adx.C49_absorbed",
    "Adx.C49_steps",
    "Adx.C49_exact",
    "Adx.C49_exact_zero",
    "Adx.C49_rounding",
    "Adx.C49_f32_absorbs",
    "Adx.C49_f32_steps",
    "Adx.C49_f32_large",
    "Adx.C49_f32_wrong"
   ],
   "note": "Exact half for the reals; general absorption lemma for any arithmetic; float32 half for round-to-nearest-even with 24-bit significand and unbounded exponent."
  },
  {
   "property": "C50",
   "status": "proved",
   "theorems": [
    "Adx.C50_orb_period",
    "Adx.C50_a_from_period",
    "Adx.C50_semimajor_axis",
    "Adx.C50_semiparameter",
    "Adx.C50_mean_motion",
    "Adx.C50_equ_of_orbit",
    "Adx.C50_equ_of_orb_uvi",
    "Adx.C50_radius_periapsis",
    "Adx.C50_radius_apoapsis",
    "Adx.C50_semipara_from_ae",
    "Adx.C50_a_from_pe",
    "Adx.C50_kepler_equ_elps",
    "Adx.C50_dE",
    "Adx.C50_kepler_equ_hypb",
    "Adx.C50_dH",
    "Adx.C50_mean_anomaly_elps",
    "Adx.C50_mean_anomaly_hypb",
    "Adx.C50_generalized_anomaly",
    "Adx.C50_starts",
    "Adx.C50_lagrange_F",
    "Adx.C50_lagrange_G",
    "Adx.C50_lagrange_Ft",
    "Adx.C50_lagrange_Gt",
    "Adx.C50_C_func",
    "Adx.C50_nmax_by_periapsis",
    "Adx.C50_ufunc",
    "Adx.C50_kepler_equ_uni",
    "Adx.C50_dchi",
    "Adx.C50_broadcast_shape"
   ],
   "note": "Any scalar arithmetic, any shapes, any number of arguments. NumPy's broadcasting rule is assumed and specified in Spec/Broadcast. Functions branching with lax.cond are element-wise in all arguments but the scalar alpha."
  },
  {
   "property": "C51",
   "status": "proved",
   "theorems": [
    "Adx.C51_elliptic_radii",
    "Adx.C51_open_radii"
   ],
   "note": "Over exact propagation, for all times."
  },
  {
   "property": "C52",
   "status": "proved",
   "theorems": [
    "Adx.C52_elps_order",
    "Adx.C52_elps_apsides",
    "Adx.C52_hypb",
    "Adx.C52_hypb_sign",
    "Adx.C52_uni_sign",
    "Adx.C52_uni_root_sign",
    "Adx.C52_uni_circular",
    "Adx.C52_uni_circular_run",
    "Adx.C52_uni_root_sign_any"
   ],
   "note": "Accuracy and sign of the three Newton starting values in exact arithmetic; the sign on every state with r /= 0 (C52_uni_root_sign_any)."
  },
  {
   "property": "C53",
   "status": "proved",
   "theorems": [
    "Adx.C53_eccentric_exists",
    "Adx.C53_eccentric_unique",
    "Adx.C53_elliptic_equation",
    "Adx.C53_elliptic_motion",
    "Adx.C53_true_anomaly",
    "Adx.C53_hyperbolic_existsUnique",
    "Adx.C53_hyperbolic_equation",
    "Adx.C53_hyperbolic_motion",
    "Adx.C53_parabolic_equation",
    "Adx.C53_parabolic_motion"
   ],
   "note": "Exact arithmetic; anomalies specified in Spec/Anomaly from radius and radial velocity."
  },
  {
   "property": "C54",
   "status": "proved",
   "theorems": [
    "Adx.C54_elliptic_return",
    "Adx.C54_open_no_return",
    "Adx.C54_elliptic_least_period",
    "Adx.C54_open_injective",
    "Adx.C54_radius_return",
    "Adx.C54_radius_least_period",
    "Adx.C54_circle_radius"
   ],
   "note": "Exact arithmetic, exact root of the universal Kepler equation."
  },
  {
   "property": "C55",
   "status": "partial",
   "theorems": [
    "Adx.C55_elliptic_newton",
    "Adx.C55_elliptic_default_partial",
    "Adx.C55_elliptic_refuted",
    "Adx.C55_kepler_refuted",
    "Adx.C55_kepler_default_partial",
    "Adx.C55_apsis_default_partial",
    "Adx.C55_kepler_apsis_partial",
    "Adx.C55_phase_default_partial",
    "Adx.C55_kepler_phase_partial",
    "Adx.C55_cycle_refuted",
    "Adx.C55_kepler_cycle_refuted"
   ],
   "note": "Refuted as stated: C55_elliptic_refuted (e = 0.999999 from periapsis, every iteration limit), C55_kepler_refuted, and C55_cycle_refuted / C55_kepler_cycle_refuted: on EVERY ellipse with e >= 0.802 there are a state and a time of flight for which Newton's method alternates between two points for ever, for every tolerance and iteration limit. Proved: the iteration is Newton's method for kepler_equ_elps started at M + e sin E0 (C55_elliptic_newton), and the default call meets the tolerance from every state and for every time of flight when e <= 0.785 and a^(3/2) <= 10^300 (C55_phase_default_partial, C55_kepler_phase_partial). Missing: 0.785 < e < 0.802. From an apsis (r.v = 0) convergence is proved up to e = 0.92 (C55_apsis_default_partial, C55_kepler_apsis_partial)."
  },
  {
   "property": "C56",
   "status": "partial",
   "theorems": [
    "Adx.C56_angular_momentum",
    "Adx.C56_eccentricity_vector",
    "Adx.C56_eccentricity_vector_scalar",
    "Adx.C56_sigma_fn",
    "Adx.C56_sigma_fn_scalar",
    "Adx.C56_inclination",
    "Adx.C56_true_anomaly",
    "Adx.C56_node_vec",
    "Adx.C56_right_ascension",
    "Adx.C56_argument_of_periapsis",
    "Adx.C56_rotmat",
    "Adx.C56_rv2coe",
    "Adx.C56_rv2coe_scalar",
    "Adx.C56_mu_last_axis_3",
    "Adx.C56_coe2rv_partial",
    "Adx.C56_coe2rv_raises",
    "Adx.C56_coe2rv_refuted",
    "Adx.C56_kepler_rows"
   ],
   "note": "Proved for all functions but coe2rv, for which the documented broadcasting is refuted (C56_coe2rv_refuted); C56_coe2rv_partial and C56_coe2rv_raises characterise it completely: it works exactly when e broadcasts into the shape of true_anom. mu must be a scalar or have a last axis of length 1 (C56_mu_last_axis_3)."
  },
  {
   "property": "C57",
   "status": "partial",
   "theorems": [
    "Adx.C57_integrals",
    "Adx.C57_vectors",
    "Adx.C57_ufunc",
    "Adx.C57_kepler_equations",
    "Adx.C57_lagrange",
    "Adx.C57_solver",
    "Adx.C57_kepler_partial",
    "Adx.C57_exact",
    "Adx.C57_rv2coe",
    "Adx.C57_coe2rv",
    "Adx.C57_accelerations",
    "Adx.C57_radius_islow",
    "Adx.C57_path_checks",
    "Adx.C57_dxdx0",
    "Adx.C57_small_orbit",
    "Adx.C57_kepler_refuted",
    "Adx.C57_fixed_steps",
    "Adx.C57_adaptive",
    "Adx.C57_same_dynamics",
    "Adx.C57_two_steps",
    "Adx.C57_fixed_steps_refuted"
   ],
   "note": "The Cowell propagators with a Runge-Kutta solver commute with the conversion if diffrax's clipping tolerance is converted too (C57_fixed_steps, C57_adaptive, C57_same_dynamics; relative to Model/Cowell and Model/RungeKutta); it is a fixed number, and with it fixed the claim is refuted (C57_fixed_steps_refuted, C57_two_steps: a flight shorter than the tolerance takes two steps whatever dt). Proved for every other function but kepler, which has a fixed tolerance of dimension length^(3/2): refuted by C57_kepler_refuted (time wrong by 8% of the period in a unit of length 10^4 times larger). What kepler does in other units is characterised by C57_kepler_partial; C57_small_orbit: on small ellipses it makes no Newton step at all."
  },
  {
   "property": "C58",
   "status": "partial",
   "theorems": [
    "Adx.C58_hyperbolic_newton",
    "Adx.C58_periapsis_refuted",
    "Adx.C58_inbound_refuted",
    "Adx.C58_outbound_default_partial",
    "Adx.C58_kepler_outbound_partial",
    "Adx.C58_periapsis_example",
    "Adx.C58_inbound_example",
    "Adx.C58_wide_default_partial",
    "Adx.C58_outbound_wide_partial",
    "Adx.C58_periapsis_near_refuted",
    "Adx.C58_wide_example",
    "Adx.C58_halving",
    "Adx.C58_every_eccentricity_partial",
    "Adx.C58_kepler_every_eccentricity_partial",
    "Adx.C58_far_default_partial",
    "Adx.C58_kepler_far_partial",
    "Adx.C58_far_example"
   ],
   "note": "The statement as given is refuted: from the periapsis of any hyperbola, once n t >= 55 the returned state is the exact state of at least 5/4 of the requested time (C58_periapsis_near_refuted), beyond 60 of more than 100 times (C58_periapsis_refuted); on the way in also for short times (C58_inbound_refuted), with concrete orbits (C58_periapsis_example, C58_inbound_example, C58_wide_example). Proved: outbound and forward or inbound and backward for |H0 + n t| <= 28.9 if e >= 1.1 and <= 23.8 if e >= 1.01; in general whenever the start H0 + n t and the final state are on the same side of periapsis and the first Newton iterate is at most 29 (e >= 1.1), 24 (e >= 1.01) or 17 (e >= 1.0005) (C58_wide_default_partial). With a mean anomaly of the final state of at least 4.6 e and e >= 1.1 the first iterate may be up to 39.9 and |H0 + n t| up to 39.8 (C58_far_default_partial, C58_kepler_far_partial; on the hyperbola e = 6/5 every |n t| <= 39.8 from periapsis is met, C58_far_example). For every e > 1: once an iterate is on the side of periapsis of the final state, each later step at least halves the residual (C58_halving), so outbound and forward the default call meets its tolerance if (-a)^(3/2) e sinh(x + 2/x) <= 5*10^8, x = H0 + n t (C58_every_eccentricity_partial, C58_kepler_every_eccentricity_partial). Missing: between these and 55, starts on the other side of periapsis than the final state, e < 1.0005 near periapsis."
  },
  {
   "property": "C59",
   "status": "partial",
   "theorems": [
    "Adx.C59_parabolic_newton",
    "Adx.C59_outbound_default_partial",
    "Adx.C59_default_partial",
    "Adx.C59_kepler_partial",
    "Adx.C59_periapsis_refuted",
    "Adx.C59_example",
    "Adx.C59_wide_default_partial",
    "Adx.C59_kepler_wide_partial",
    "Adx.C59_from_periapsis_partial",
    "Adx.C59_periapsis_far_refuted",
    "Adx.C59_wide_example"
   ],
   "note": "The statement as given is refuted for extreme times: from the periapsis of any parabola, beyond 10^13 p^(3/2)/sqrt(mu) fifty steps do not suffice (C59_periapsis_far_refuted; beyond 10^14 the returned time is a hundredfold, C59_periapsis_refuted; concrete orbit in C59_example). Proved (C59_wide_default_partial, C59_kepler_wide_partial): outbound and forward or inbound and backward as long as |D0 + sqrt(mu) t/r0| <= 10^10 sqrt(p), i.e. from periapsis up to 5*10^9 p^(3/2)/sqrt(mu) (C59_from_periapsis_partial); back on the same side from |D0| <= 3*10^6 max(|D1|, sqrt p); from any side with |D1| <= 25 sqrt(p) and |D0| <= 1000 max(|D1|, sqrt p). Missing: the ranges in between."
  },
  {
   "property": "C60",
   "status": "partial",
   "theorems": [
    "Adx.C60_lost",
    "Adx.C60_straight_line",
    "Adx.C60_exact_U2",
    "Adx.C60_frozen",
    "Adx.C60_exact_x",
    "Adx.C60_witness"
   ],
   "note": "The accuracy claim is refuted: when the computed sqrt(|alpha|) chi is at most 2^-12, ufunc2 and ufunc3 are exactly 0 (C60_lost), kepler returns r0 + G v0 (C60_straight_line), and at r = (1,0,0), v = (0,1,0), mu = 1/2 + 2^-24, t = 5/8 the returned x is 1 where the exact one is at most 0.93 (C60_witness; C60_frozen: for all |t| <= 5/8). What is proved for all inputs is the loss itself. Error bounds away from the parabola are C67 and C68, overflow is C69. Underflow is C83, which does not cover kepler."
  },
  {
   "property": "C61",
   "status": "proved",
   "theorems": [
    "Adx.C61_orb_integrals",
    "Adx.C61_uniformulas",
    "Adx.C61_lagrange",
    "Adx.C61_kep_equ",
    "Adx.C61_solvers",
    "Adx.C61_orb_elements",
    "Adx.C61_state_trans",
    "Adx.C61_gravity",
    "Adx.C61_path_check",
    "Adx.C61_kepler"
   ],
   "note": "Forward mode is the instance Dual (value and tangent, JAX's rules) of the generic model; the theorems say that taking values commutes with every model function, in any arithmetic, the solver loops with their iteration counts included. Reverse mode is C72, C79, C82."
  },
  {
   "property": "C62",
   "status": "partial",
   "theorems": [
    "Adx.C62_orb_period",
    "Adx.C62_a_from_period",
    "Adx.C62_angular_momentum",
    "Adx.C62_semimajor_axis",
    "Adx.C62_eccentricity_vector",
    "Adx.C62_semiparameter",
    "Adx.C62_mean_motion",
    "Adx.C62_equ_of_orbit",
    "Adx.C62_equ_of_orb_uvi",
    "Adx.C62_radii",
    "Adx.C62_sizes",
    "Adx.C62_sigma",
    "Adx.C62_lagrange",
    "Adx.C62_kepler_equ",
    "Adx.C62_mean_anomaly",
    "Adx.C62_generalized_anomaly",
    "Adx.C62_ufunc",
    "Adx.C62_ufunc_at_zero",
    "Adx.C62_ufunc_refuted",
    "Adx.C62_kepler_equ_uni",
    "Adx.C62_dchi",
    "Adx.C62_C_func",
    "Adx.C62_keplerStep",
    "Adx.C62_wrapNeg",
    "Adx.C62_inclination",
    "Adx.C62_true_anomaly",
    "Adx.C62_argument_of_periapsis",
    "Adx.C62_right_ascension",
    "Adx.C62_rotmat",
    "Adx.C62_coe2rv",
    "Adx.C62_gravity",
    "Adx.C62_radius_islow",
    "Adx.C62_nmax",
    "Adx.C62_blocks"
   ],
   "note": "Refuted at alpha = 0: forward mode returns 0 for the derivatives of ufunc0-ufunc3 with respect to alpha, where the true values are -chi^2/2, -chi^3/6, -chi^4/24, -chi^5/120 (C62_ufunc_refuted). Everything else holds on its smooth domain, alpha = 0 with respect to chi included (C62_ufunc_at_zero, C62_dchi); right_ascension across its cut too."
  },
  {
   "property": "C63",
   "status": "partial",
   "theorems": [
    "Adx.C63_elps_iterate",
    "Adx.C63_elps_derivative",
    "Adx.C63_elps_stopped",
    "Adx.C63_elps_accurate_partial",
    "Adx.C63_elps_default_partial",
    "Adx.C63_hypb_iterate",
    "Adx.C63_hypb_derivative",
    "Adx.C63_hypb_refuted",
    "Adx.C63_uni_iterate",
    "Adx.C63_uni_derivative",
    "Adx.C63_uni_tangent",
    "Adx.C63_uni_refuted",
    "Adx.C63_kepler_rate",
    "Adx.C63_kepler_refuted",
    "Adx.C63_kepler_near_zero_refuted",
    "Adx.C63_elps_default_9935_partial",
    "Adx.C63_hypb_stopped",
    "Adx.C63_hypb_stopped_two",
    "Adx.C63_hypb_default_2_partial",
    "Adx.C63_hypb_default_15_partial",
    "Adx.C63_hypb_default_12_partial",
    "Adx.C63_hypb_curve",
    "Adx.C63_hypb_curve_default_partial",
    "Adx.C63_uni_outbound",
    "Adx.C63_kepler_outbound_partial",
    "Adx.C63_kepler_ellipse_refuted",
    "Adx.C63_kepler_every_ellipse_refuted",
    "Adx.C63_elps_default_9965_partial"
   ],
   "note": "Proved: the tangent of every iterate is its derivative (C63_*_iterate), away from jumps of the iteration count the tangent is the derivative of the solver's own result (C63_*_derivative), and for solve_kepler_elps the error against the exact root is bounded by the last step (C63_elps_stopped), with default settings by 2.1e-5 for e <= 1/2 (C63_elps_default_partial) and by 1.4e-3/(1-e) for e <= 0.9935 (C63_elps_default_9935_partial) and 9e-3/(1-e) for e <= 0.9965 (C63_elps_default_9965_partial). For solve_kepler_hypb, whenever a step is made and the tolerance met, dH/dN has a relative error of order sqrt(tol) for every e > 1 (C63_hypb_stopped), with default settings at most 1/150 for e >= 2, 1/40 for e >= 3/2 and 3/50 for e >= 6/5 (C63_hypb_default_*_partial). Along any curve of mean anomalies and eccentricities e >= 2 the error is bounded likewise (C63_hypb_curve, C63_hypb_curve_default_partial). For solve_kepler_uni on the way out of a hyperbola, forward in time from a distance of at least -a, the derivative with respect to time has a relative error of order sqrt(tol) once a step is made (C63_uni_outbound); for kepler with e >= 1.1 and -a >= 1, up to the distance -100a, the derivatives of position and velocity are velocity and acceleration times a factor within 1/16 of 1 (C63_kepler_outbound_partial). Refuted: solve_kepler_hypb at N = 0 returns dH/dN = 2/e instead of 1/(e-1); solve_kepler_uni at t = 0 returns sqrt(mu)|alpha| instead of sqrt(mu)/r0; kepler on an interval of times around 0 returns |alpha| |r| times the velocity as derivative of the position (C63_kepler_refuted, C63_kepler_near_zero_refuted). It is also false when a step is made: on every ellipse with e = 7/10 and a >= 1 there are a state and a time at which the start fails the test, the single step lands on the root, the returned state is exact, and the derivatives come out as at least 7/5 of velocity and acceleration (C63_kepler_ellipse_refuted); the same happens with a factor of at least 1 + e^3/10 on every ellipse that is not a circle and not tiny, a^(3/2) e (1-e) > 2 tol (C63_kepler_every_ellipse_refuted). Missing: such bounds for e > 0.9965 in solve_kepler_elps, for derivatives with respect to e < 2 in solve_kepler_hypb, and for solve_kepler_uni on other orbits when a step is made."
  },
  {
   "property": "C64",
   "status": "partial",
   "theorems": [
    "Adx.C64_orb_period",
    "Adx.C64_a_from_period",
    "Adx.C64_angular_momentum",
    "Adx.C64_semimajor_axis",
    "Adx.C64_norm",
    "Adx.C64_eccentricity_vector",
    "Adx.C64_semiparameter",
    "Adx.C64_mean_motion",
    "Adx.C64_equ_of_orbit",
    "Adx.C64_equ_of_orb_uvi",
    "Adx.C64_radii",
    "Adx.C64_sigma_fn",
    "Adx.C64_ufunc",
    "Adx.C64_lagrange",
    "Adx.C64_kepler_equ",
    "Adx.C64_mean_anomaly",
    "Adx.C64_kepler_equ_uni",
    "Adx.C64_solve_elps",
    "Adx.C64_solve_hypb",
    "Adx.C64_solve_uni",
    "Adx.C64_keplerStep",
    "Adx.C64_alpha",
    "Adx.C64_kepler",
    "Adx.C64_gravity",
    "Adx.C64_norm_zero",
    "Adx.C64_inclination",
    "Adx.C64_true_anomaly",
    "Adx.C64_argument_of_periapsis",
    "Adx.C64_right_ascension",
    "Adx.C64_rv2coe",
    "Adx.C64_alpha_refuted",
    "Adx.C64_dxdx0_parabola_refuted",
    "Adx.C64_rotmat",
    "Adx.C64_coe2rv",
    "Adx.C64_nmax",
    "Adx.C64_prpr0",
    "Adx.C64_prpv0",
    "Adx.C64_pvpr0",
    "Adx.C64_pvpv0",
    "Adx.C64_dxdx0"
   ],
   "note": "Proved: finite tangents on the smooth domain for every formula, the six universal functions (every alpha), the three solvers, the accelerations, the rotation matrices, coe2rv, nmax_by_periapsis, dxdx0 off the parabolas (C64_dxdx0), kepler with respect to times, state and mu on every orbit with h /= 0 (C64_kepler; whether those tangents are the right ones is C66); rv2coe element by element, finite off and NaN on its degenerate set (C64_rv2coe). Refuted: at every parabolic state alpha and every entry of dxdx0 have a NaN derivative with respect to the state although values are finite and both are smooth (C64_alpha_refuted, C64_dxdx0_parabola_refuted). Reverse mode is C82."
  },
  {
   "property": "C65",
   "status": "proved",
   "theorems": [
    "Adx.C65_composition",
    "Adx.C65_inverse",
    "Adx.C65_flow",
    "Adx.C65_turn",
    "Adx.C65_energy",
    "Adx.C65_momentum",
    "Adx.C65_scaling",
    "Adx.C65_monodromy",
    "Adx.C65_reversal",
    "Adx.C65_frame"
   ],
   "note": "Proved for every conic, every time and every variation; C65_monodromy for every ellipse and every number of revolutions; C65_reversal and C65_frame for all arguments, also states not on one orbit."
  },
  {
   "property": "C66",
   "status": "partial",
   "theorems": [
    "Adx.C66_kepler_tangent",
    "Adx.C66_kepler_state",
    "Adx.C66_rotation",
    "Adx.C66_kepler_refuted",
    "Adx.C66_parabola",
    "Adx.C66_circle_refuted"
   ],
   "note": "Refuted: for every state with h /= 0 and every time at which the returned anomaly is not 0 there is a direction in which the computed derivative of the velocity is wrong (C66_kepler_refuted); in closed form on the unit circle, drift -t instead of -3t (C66_circle_refuted). Proved instead, for every variation of state and time: computed = dxdx0 applied to the variation + delta (velocity, acceleration), delta the rate of the time of flight at fixed anomaly (C66_kepler_tangent, C66_kepler_state); so it is exact for infinitesimal rotations (C66_rotation). On parabolas the first two need a variation that keeps the energy; C66_parabola says what comes out for the others. Variation of mu: C75."
  },
  {
   "property": "C67",
   "status": "proved",
   "theorems": [
    "Adx.C67_orb_period",
    "Adx.C67_a_from_period",
    "Adx.C67_semiparameter",
    "Adx.C67_mean_motion",
    "Adx.C67_radii",
    "Adx.C67_ae_pe",
    "Adx.C67_equ_of_orbit",
    "Adx.C67_equ_of_orb_uvi",
    "Adx.C67_norm",
    "Adx.C67_dot",
    "Adx.C67_angular_momentum",
    "Adx.C67_conic",
    "Adx.C67_semimajor_axis",
    "Adx.C67_eccentricity_vector",
    "Adx.C67_sigma_fn",
    "Adx.C67_lagrange",
    "Adx.C67_generalized_anomaly",
    "Adx.C67_kepler_elps",
    "Adx.C67_kepler_hypb",
    "Adx.C67_slopes",
    "Adx.C67_mean_anomaly",
    "Adx.C67_ufunc_elliptic",
    "Adx.C67_ufunc_hyperbolic",
    "Adx.C67_ufunc_parabolic",
    "Adx.C67_point_mass",
    "Adx.C67_j2",
    "Adx.C67_j3",
    "Adx.C67_j4",
    "Adx.C67_is_short_way",
    "Adx.C67_pass_perigee",
    "Adx.C67_rv2coe_pe",
    "Adx.C67_rp_islower_rmin",
    "Adx.C67_coe2rv_pos",
    "Adx.C67_coe2rv_vel",
    "Adx.C67_one_sub_sq_loses",
    "Adx.C67_inclination_lost",
    "Adx.C67_rv2coe_incl",
    "Adx.C67_rv2coe_raan",
    "Adx.C67_rv2coe_true_anom",
    "Adx.C67_rv2coe_argp"
   ],
   "note": "All bounds hold for every input and every arithmetic satisfying Spec.StdModel; binary32 and binary64 (unbounded exponent, correctly rounded functions) are proved to satisfy it (stdModel_F32, stdModel_F64). C67_one_sub_sq_loses and C67_inclination_lost show that the condition numbers are needed. The angles of rv2coe carry the condition numbers |r||v|/|h|, 1/sin i and 1/e (C67_rv2coe_incl/raan/argp/true_anom; the inclination also has a bound without 1/sin i, with the square root of u). Overflow is C69, underflow C83. Not covered: fused multiply-add."
  },
  {
   "property": "C68",
   "status": "proved",
   "theorems": [
    "Adx.C68_hypb",
    "Adx.C68_elps",
    "Adx.C68_kepler_exact",
    "Adx.C68_kepler_elliptic",
    "Adx.C68_chi_bound",
    "Adx.C68_kepler_hyperbolic",
    "Adx.C68_uni",
    "Adx.C68_circle_f64",
    "Adx.C68_elps_stops",
    "Adx.C68_elps_total",
    "Adx.C68_elps_f64",
    "Adx.C68_uni_stops",
    "Adx.C68_kepler_lowecc",
    "Adx.C68_kepler_f64",
    "Adx.C68_hypb_total",
    "Adx.C68_hypb_f64"
   ],
   "note": "A posteriori bounds for every orbit on which the loop stops on its test (C68_elps, C68_hypb, C68_uni, C68_kepler_exact, C68_kepler_elliptic, C68_kepler_hyperbolic); a priori for solve_kepler_hypb with e >= 3 (C68_hypb_total; C68_hypb_f64), and, with termination proved, for solve_kepler_elps with e <= 1/2 (C68_elps_total) and kepler with e <= 1/4 (C68_kepler_lowecc); binary64 instances C68_elps_f64, C68_kepler_f64, C68_circle_f64. Unbounded exponent range."
  },
  {
   "property": "C69",
   "status": "proved",
   "theorems": [
    "Adx.C69_point_mass_zero",
    "Adx.C69_j2_zero",
    "Adx.C69_j3_zero",
    "Adx.C69_j4_zero",
    "Adx.C69_j4_nan",
    "Adx.C69_earth_tests",
    "Adx.C69_hypb_ninf",
    "Adx.C69_hypb_pinf",
    "Adx.C69_hypb_bin32",
    "Adx.C69_hypb_bin64",
    "Adx.C69_hypb_bin32_pinf",
    "Adx.C69_kepler_nan",
    "Adx.C69_kepler_bin32",
    "Adx.C69_kepler_bin64",
    "Adx.C69_elps_transfer",
    "Adx.C69_elps_bin64",
    "Adx.C69_orb_period_inf",
    "Adx.C69_kepler_transfer",
    "Adx.C69_kepler_ellipse_bin64"
   ],
   "note": "Arithmetic `Fl F \u03a9` (Verif/Fl.lean): every operation is rounded by F, becomes infinite above \u03a9, and follows the IEEE rules on infinities and NaN; no underflow, one zero. Powers are repeated products. Gravity theorems hold for every F in the standard model; the solver theorems for correctly rounded binary formats."
  },
  {
   "property": "C70",
   "status": "proved",
   "theorems": [
    "Adx.C70_orb_period",
    "Adx.C70_orb_period_fits",
    "Adx.C70_orb_period_nan",
    "Adx.C70_orb_period_nan_range",
    "Adx.C70_orb_period_leo",
    "Adx.C70_orb_period_wrong",
    "Adx.C70_a_from_period",
    "Adx.C70_a_from_period_fits",
    "Adx.C70_a_from_period_neg",
    "Adx.C70_a_from_period_geo",
    "Adx.C70_semiparameter",
    "Adx.C70_semiparameter_fits",
    "Adx.C70_semiparameter_neg",
    "Adx.C70_semimajor_axis",
    "Adx.C70_semimajor_axis_r",
    "Adx.C70_semimajor_axis_wrong",
    "Adx.C70_mean_anomaly",
    "Adx.C70_mean_anomaly_fits",
    "Adx.C70_angular_momentum",
    "Adx.C70_wrap_iff",
    "Adx.C70_angular_momentum_wrong",
    "Adx.C70_sigma",
    "Adx.C70_sigma_fits",
    "Adx.C70_is_short_way",
    "Adx.C70_is_short_way_fits",
    "Adx.C70_is_short_way_wrong",
    "Adx.C70_transparent",
    "Adx.C70_lagrange_Ft",
    "Adx.C70_double",
    "Adx.C70_double_flt",
    "Adx.C70_solve_elps",
    "Adx.C70_solve_hypb",
    "Adx.C70_hypb_start_wraps",
    "Adx.C70_hypb_start_wrong",
    "Adx.C70_solve_uni",
    "Adx.C70_neg_abs",
    "Adx.C70_ufunc_int_error",
    "Adx.C70_ufunc_flt_ok",
    "Adx.C70_ufunc23_ok",
    "Adx.C70_kepler_equ_uni"
   ],
   "note": "Arithmetic `JN` (Verif/JN.lean): int32 wrapping modulo 2^32 next to exact floating point with infinities and NaN; promotion rules of jax.numpy for one int32 and one float32 operand assumed. Functions that call vector_norm are left out: jnp.linalg.norm converts to float before squaring. Python integers do not wrap (only arrays do). The TypeError of lax.cond is modelled by `tcond`."
  },
  {
   "property": "C71",
   "status": "proved",
   "theorems": [
    "Adx.C71_orb_integrals",
    "Adx.C71_kep_lagrange",
    "Adx.C71_nmax",
    "Adx.C71_ufunc_chi",
    "Adx.C71_kepler_equ_uni",
    "Adx.C71_vectors",
    "Adx.C71_vectors_mu",
    "Adx.C71_rv2coe",
    "Adx.C71_coe2rv",
    "Adx.C71_gravity",
    "Adx.C71_solve_elps",
    "Adx.C71_solve_hypb",
    "Adx.C71_solve_uni",
    "Adx.C71_solve_uni_swallowed",
    "Adx.C71_nan_tol",
    "Adx.C71_solve_uni_refuted",
    "Adx.C71_kepler",
    "Adx.C71_kepler_time",
    "Adx.C71_dxdx0",
    "Adx.C71_path_check",
    "Adx.C71_path_check_r2",
    "Adx.C71_ufunc_alpha",
    "Adx.C71_kepler_equ_uni_alpha",
    "Adx.C71_kepler_equ_uni_refuted",
    "Adx.C71_rv2coe_mu",
    "Adx.C71_gravity_args",
    "Adx.C71_path_check_args"
   ],
   "note": "In `XR` (exact arithmetic with IEEE special values). The angular momentum has two NaN components (TwoNaN), the third does not read the NaN coordinate. For a NaN alpha see C71_ufunc_alpha, C71_kepler_equ_uni_alpha and, for finite chi, C48_ufunc_nan_alpha."
  },
  {
   "property": "C72",
   "status": "partial",
   "theorems": [
    "Adx.C72_input",
    "Adx.C72_const",
    "Adx.C72_orb_period",
    "Adx.C72_a_from_period",
    "Adx.C72_mean_motion",
    "Adx.C72_norm",
    "Adx.C72_angular_momentum",
    "Adx.C72_semimajor_axis",
    "Adx.C72_eccentricity_vector",
    "Adx.C72_semiparameter",
    "Adx.C72_equ_of_orbit",
    "Adx.C72_equ_of_orb_uvi",
    "Adx.C72_sizes",
    "Adx.C72_sigma",
    "Adx.C72_lagrange",
    "Adx.C72_kepler_equ",
    "Adx.C72_mean_anomaly",
    "Adx.C72_generalized_anomaly",
    "Adx.C72_ufunc",
    "Adx.C72_kepler_equ_uni",
    "Adx.C72_C_func",
    "Adx.C72_keplerStep",
    "Adx.C72_inclination",
    "Adx.C72_true_anomaly",
    "Adx.C72_argument_of_periapsis",
    "Adx.C72_right_ascension",
    "Adx.C72_node_vec",
    "Adx.C72_rv2coe",
    "Adx.C72_rotmat",
    "Adx.C72_coe2rv",
    "Adx.C72_nmax",
    "Adx.C72_gravity",
    "Adx.C72_radius_islow",
    "Adx.C72_transpose",
    "Adx.C72_ufunc_refuted"
   ],
   "note": "Proved for every function without a loop: reverse mode is the transpose of forward mode at every argument (C72_transpose and the lemmas Compat.*), and where the formula is smooth the result carries its gradient whenever its arguments do, so compositions such as period of a state or rv2coe (C72_rv2coe) follow. Refuted at alpha = 0 for the universal functions with respect to alpha (C72_ufunc_refuted), as in forward mode. The solvers and kepler have no reverse mode in JAX (while_loop). Exact arithmetic; the IEEE special values are C82."
  },
  {
   "property": "C73",
   "status": "proved",
   "theorems": [
    "Adx.C73_general",
    "Adx.C73_force",
    "Adx.C73_point_mass",
    "Adx.C73_kepler",
    "Adx.C73_zonal",
    "Adx.C73_reaches",
    "Adx.C73_to_final",
    "Adx.C73_limit",
    "Adx.C73_defect"
   ],
   "note": "In exact arithmetic, relative to the contract of diffeqsolve (Model/Cowell.lean) and to the model of diffrax's explicit Runge-Kutta solvers (Model/RungeKutta.lean; external code, coefficients are parameters). First-order bound whatever the order of the method; constants from compactness, not explicit. custom_steps (dense output) is not covered. For adaptive_steps and to_final the bound on the kept steps is a hypothesis: the PID rule is not modelled."
  },
  {
   "property": "C74",
   "status": "partial",
   "theorems": [
    "Adx.C74_fixed",
    "Adx.C74_adaptive",
    "Adx.C74_point_mass",
    "Adx.C74_zonal",
    "Adx.C74_chain",
    "Adx.C74_planar",
    "Adx.C74_plane_normal",
    "Adx.C74_equatorial",
    "Adx.C74_equatorial_j3",
    "Adx.C74_momentum_refuted",
    "Adx.C74_energy_refuted",
    "Adx.C74_pid_refuted"
   ],
   "note": "Proved relative to Model/Cowell.lean and Model/RungeKutta.lean (external code): equivariance of fixed_steps for every linear symmetry (C74_fixed, C74_point_mass, C74_zonal), of the other propagators when the controller is invariant (C74_adaptive), planarity, invariance of the equator. Refuted: angular momentum and energy are not conserved by Runge-Kutta methods (C74_momentum_refuted, C74_energy_refuted); the error norm of the default controller depends on the axes (C74_pid_refuted); with J3 the equator is not invariant (C74_equatorial_j3)."
  },
  {
   "property": "C75",
   "status": "partial",
   "theorems": [
    "Adx.C75_sensitivity",
    "Adx.C75_kepler_tangent",
    "Adx.C75_circle_refuted"
   ],
   "note": "Proved: C75_sensitivity (the derivative of the motion with respect to mu from the transition matrix) and C75_kepler_tangent (what differentiating kepler returns with time, state and mu all traced; right exactly when the rate of the time of flight is 0). Refuted: that kepler can be differentiated with respect to mu, C75_circle_refuted (unit circle, drift t instead of 2t)."
  },
  {
   "property": "C76",
   "status": "partial",
   "theorems": [
    "Adx.C76_orb_integrals",
    "Adx.C76_semimajor_axis",
    "Adx.C76_alpha",
    "Adx.C76_ufunc",
    "Adx.C76_kep_equ",
    "Adx.C76_kepler_equ_uni",
    "Adx.C76_lagrange",
    "Adx.C76_nmax",
    "Adx.C76_solve_elps",
    "Adx.C76_solve_hypb",
    "Adx.C76_solve_uni",
    "Adx.C76_angular_momentum",
    "Adx.C76_eccentricity_vector",
    "Adx.C76_sigma",
    "Adx.C76_node_vec",
    "Adx.C76_path_checks",
    "Adx.C76_inclination",
    "Adx.C76_right_ascension",
    "Adx.C76_rv2coe",
    "Adx.C76_rv2coe_shape",
    "Adx.C76_rotmats",
    "Adx.C76_coe2rv",
    "Adx.C76_dxdx0",
    "Adx.C76_keplerRow",
    "Adx.C76_kepler",
    "Adx.C76_gravity",
    "Adx.C76_direct",
    "Adx.C76_retrograde",
    "Adx.C76_retrograde_state",
    "Adx.C76_retrograde_real",
    "Adx.C76_raan_jumps",
    "Adx.C76_roundtrip_refuted"
   ],
   "note": "Proved: every function on its domain (C76_orb_integrals, C76_alpha, C76_ufunc, C76_kep_equ, C76_kepler_equ_uni, C76_solve_*, C76_kepler, C76_dxdx0, C76_path_checks, C76_nmax, C76_gravity, C76_coe2rv; C76_rv2coe off the equator and off circular orbits). Refuted: equatorial retrograde orbits, C76_retrograde, C76_retrograde_state, C76_raan_jumps (the right ascension jumps by pi along one orbit), C76_roundtrip_refuted (the round trip through the elements returns the opposite point, where the model over the reals recovers the state)."
  },
  {
   "property": "C77",
   "status": "partial",
   "theorems": [
    "Adx.C77_norm_nonneg",
    "Adx.C77_norm_ge",
    "Adx.C77_inclination_arg",
    "Adx.C77_inclination_not_nan",
    "Adx.C77_right_ascension",
    "Adx.C77_ranges",
    "Adx.C77_rv2coe_arccos",
    "Adx.C77_apsides",
    "Adx.C77_dE_pos",
    "Adx.C77_dH_pos",
    "Adx.C77_radius_islow",
    "Adx.C77_orb_period_mono",
    "Adx.C77_mean_motion_anti",
    "Adx.C77_time_mono",
    "Adx.C77_raan_two_pi",
    "Adx.C77_anomaly_above_pi"
   ],
   "note": "Norm bound, arccos argument, NaN-freedom of inclination, closed ranges of all elements, apsides, dE, dH, radius_islow, monotone periods and mean anomalies, for all numbers of a binary format with p digits (unbounded exponent; overflow only in C77_inclination_not_nan). The half-open range of raan is refuted (C77_raan_two_pi), so is the bound by the real pi in binary32 (C77_anomaly_above_pi)."
  },
  {
   "property": "C78",
   "status": "partial",
   "theorems": [
    "Adx.C78_orb_period",
    "Adx.C78_a_from_period",
    "Adx.C78_angular_momentum",
    "Adx.C78_semimajor_axis",
    "Adx.C78_eccentricity_vector",
    "Adx.C78_semiparameter",
    "Adx.C78_mean_motion",
    "Adx.C78_equ_of_orbit",
    "Adx.C78_equ_of_orb_uvi",
    "Adx.C78_radii",
    "Adx.C78_sizes",
    "Adx.C78_sigma",
    "Adx.C78_lagrange",
    "Adx.C78_kepler_equ",
    "Adx.C78_mean_anomaly",
    "Adx.C78_generalized_anomaly",
    "Adx.C78_ufunc",
    "Adx.C78_ufunc_at_zero",
    "Adx.C78_kepler_equ_uni",
    "Adx.C78_C_func",
    "Adx.C78_keplerStep",
    "Adx.C78_wrapNeg",
    "Adx.C78_inclination",
    "Adx.C78_true_anomaly",
    "Adx.C78_argument_of_periapsis",
    "Adx.C78_right_ascension",
    "Adx.C78_rotmat",
    "Adx.C78_coe2rv",
    "Adx.C78_gravity",
    "Adx.C78_radius_islow",
    "Adx.C78_nmax",
    "Adx.C78_blocks",
    "Adx.C78_elps_iterate",
    "Adx.C78_elps_derivatives",
    "Adx.C78_hypb_iterate",
    "Adx.C78_hypb_derivatives",
    "Adx.C78_uni_iterate",
    "Adx.C78_uni_derivatives",
    "Adx.C78_elps_third_refuted",
    "Adx.C78_ufunc_refuted"
   ],
   "note": "All formulas, all orders, all directions on the smooth domain (C78_orb_period ... C78_blocks; Jet.top identifies the returned number with the n-th Frechet derivative); iterates and results of the three solvers away from jumps of the iteration count (C78_*_iterate, C78_*_derivatives). Refuted: the mixed derivative of ufunc2 with respect to alpha and chi at alpha = 0 comes out as 0 instead of -chi^3/6 (C78_ufunc_refuted); the third derivative of solve_kepler_elps at M = 0 comes out as -e(1-3e^6+2e^9)/(1-e)^4 instead of -e/(1-e)^4 for every tolerance and limit (C78_elps_third_refuted). Missing: error bounds for derivatives of order >= 2 against the exact root away from M = 0."
  },
  {
   "property": "C79",
   "status": "partial",
   "theorems": [
    "Adx.C79_orb_period",
    "Adx.C79_a_from_period",
    "Adx.C79_angular_momentum",
    "Adx.C79_semimajor_axis",
    "Adx.C79_eccentricity_vector",
    "Adx.C79_semiparameter",
    "Adx.C79_mean_motion",
    "Adx.C79_equ_of_orbit",
    "Adx.C79_equ_of_orb_uvi",
    "Adx.C79_radii",
    "Adx.C79_sizes",
    "Adx.C79_sigma",
    "Adx.C79_lagrange",
    "Adx.C79_kepler_equ",
    "Adx.C79_mean_anomaly",
    "Adx.C79_generalized_anomaly",
    "Adx.C79_ufunc",
    "Adx.C79_ufunc_at_zero",
    "Adx.C79_kepler_equ_uni",
    "Adx.C79_C_func",
    "Adx.C79_keplerStep",
    "Adx.C79_wrapNeg",
    "Adx.C79_inclination",
    "Adx.C79_true_anomaly",
    "Adx.C79_argument_of_periapsis",
    "Adx.C79_right_ascension",
    "Adx.C79_rotmat",
    "Adx.C79_coe2rv",
    "Adx.C79_gravity",
    "Adx.C79_radius_islow",
    "Adx.C79_nmax",
    "Adx.C79_blocks",
    "Adx.C79_hessian",
    "Adx.C79_symmetric",
    "Adx.C79_modes_agree",
    "Adx.C79_ufunc_refuted"
   ],
   "note": "All formulas, any number of inputs, all orders on the smooth domain (C79_orb_period ... C79_blocks), the Hessian and its symmetry (C79_hessian, C79_symmetric), agreement of the modes (C79_modes_agree). Refuted at alpha = 0: the entry (chi, alpha) of the Hessian of ufunc2 comes out as 0 instead of -chi^3/6 (C79_ufunc_refuted); C79_ufunc_at_zero says what comes out there for all six functions. The solvers and kepler have no reverse mode."
  },
  {
   "property": "C80",
   "status": "proved",
   "theorems": [
    "Adx.C80_forward",
    "Adx.C80_wrong_sign",
    "Adx.C80_backward",
    "Adx.C80_fixed",
    "Adx.C80_adaptive",
    "Adx.C80_fixed_times",
    "Adx.C80_fixed_completes",
    "Adx.C80_custom_refused",
    "Adx.C80_custom",
    "Adx.C80_final",
    "Adx.C80_reversal_fixed",
    "Adx.C80_reversal_adaptive",
    "Adx.C80_pid",
    "Adx.C80_point_mass",
    "Adx.C80_zonal",
    "Adx.C80_radius",
    "Adx.C80_force",
    "Adx.C80_kepler",
    "Adx.C80_limit",
    "Adx.C80_chain",
    "Adx.C80_round_trip",
    "Adx.C80_there_and_back",
    "Adx.C80_there_and_back_kepler"
   ],
   "note": "In exact arithmetic, relative to the contract of diffeqsolve for either order of t0 and t1 (Model/CowellBack.lean; external code). Convergence and the way there and back for explicit Runge-Kutta solvers (Model/RungeKutta.lean), first-order bounds with constants from compactness. The event function is given the original time."
  },
  {
   "property": "C81",
   "status": "proved",
   "theorems": [
    "Adx.C81_root",
    "Adx.C81_two_body",
    "Adx.C81_unique",
    "Adx.C81_composition",
    "Adx.C81_periodic",
    "Adx.C81_exact_up_to_time",
    "Adx.C81_on_ray",
    "Adx.C81_velocity_on_ray",
    "Adx.C81_collides",
    "Adx.C81_one_collision",
    "Adx.C81_collision_times",
    "Adx.C81_bounce",
    "Adx.C81_speed_unbounded",
    "Adx.C81_return",
    "Adx.C81_no_return",
    "Adx.C81_eccentricity"
   ],
   "note": "Exact real arithmetic, root of the universal Kepler equation exact except in C81_exact_up_to_time, which is about the code's own solver. The velocity at the instant of a collision is a division by zero in the code and is excluded everywhere."
  },
  {
   "property": "C82",
   "status": "partial",
   "theorems": [
    "Adx.C82_input",
    "Adx.C82_const",
    "Adx.C82_grad",
    "Adx.C82_orb_period",
    "Adx.C82_a_from_period",
    "Adx.C82_mean_motion",
    "Adx.C82_angular_momentum",
    "Adx.C82_semimajor_axis",
    "Adx.C82_norm",
    "Adx.C82_eccentricity_vector",
    "Adx.C82_semiparameter",
    "Adx.C82_equ_of_orbit",
    "Adx.C82_equ_of_orb_uvi",
    "Adx.C82_sizes",
    "Adx.C82_sigma_fn",
    "Adx.C82_ufunc",
    "Adx.C82_lagrange",
    "Adx.C82_kepler_equ",
    "Adx.C82_mean_anomaly",
    "Adx.C82_generalized_anomaly",
    "Adx.C82_kepler_equ_uni",
    "Adx.C82_C_func",
    "Adx.C82_keplerStep",
    "Adx.C82_rotmat",
    "Adx.C82_coe2rv",
    "Adx.C82_nmax",
    "Adx.C82_prpr0",
    "Adx.C82_prpv0",
    "Adx.C82_pvpr0",
    "Adx.C82_pvpv0",
    "Adx.C82_alpha",
    "Adx.C82_dxdx0",
    "Adx.C82_gravity",
    "Adx.C82_reach",
    "Adx.C82_norm_zero",
    "Adx.C82_inclination",
    "Adx.C82_true_anomaly",
    "Adx.C82_argument_of_periapsis",
    "Adx.C82_right_ascension",
    "Adx.C82_rv2coe",
    "Adx.C82_recip_recip",
    "Adx.C82_alpha_refuted",
    "Adx.C82_dxdx0_parabola_refuted"
   ],
   "note": "Model run on Rev over XR (value and pullback with inf and NaN). Finite and equal to the exact-arithmetic pullbacks on the smooth domain (C82_orb_period ... C82_dxdx0, C82_gravity), which C72 shows to be the gradients (C82_grad); rv2coe finite off and NaN on its degenerate sets (C82_rv2coe). The smooth-function part is refuted at parabolas: C82_alpha_refuted, C82_dxdx0_parabola_refuted. Not covered: lax.cond turned into select by vmap, where the branch not taken gets a zero cotangent. Solvers and kepler have no reverse mode (while_loop)."
  },
  {
   "property": "C83",
   "status": "proved",
   "theorems": [
    "Adx.C83_orb_period",
    "Adx.C83_a_from_period",
    "Adx.C83_semiparameter",
    "Adx.C83_mean_motion",
    "Adx.C83_radii",
    "Adx.C83_ae_pe",
    "Adx.C83_semimajor_axis",
    "Adx.C83_mean_anomaly",
    "Adx.C83_lagrange",
    "Adx.C83_generalized_anomaly",
    "Adx.C83_sigma_fn",
    "Adx.C83_vectors",
    "Adx.C83_rv2coe_pe",
    "Adx.C83_norm",
    "Adx.C83_point_mass",
    "Adx.C83_j3_j4_lost",
    "Adx.C83_j2_mu_lost",
    "Adx.C83_j2",
    "Adx.C83_j3",
    "Adx.C83_j4",
    "Adx.C83_asteroid"
   ],
   "note": "Spec.UModel (Verif/Spec/Underflow.lean) is the arithmetic: relative error u from the smallest normal number on, absolute error eta below; uModel_FU and uModel_FZ prove it for binary formats with gradual underflow and with flush to zero. The bounds B follow from the hypothesis C B^k N^j <= M with [1/M, M] free of underflow and overflow (rg32, rg64). The loss theorems refute the naive claim that j3_acc and j4_acc are finite for every finite non-zero position; C83_asteroid is a concrete orbit, accurate in binary64 and lost in binary32. Powers are repeated products, as in C69. Not covered: the formulas with sin, cos, arccos and arctan2 (solvers, rv2coe angles, coe2rv)."
  },
  {
   "property": "C84",
   "status": "partial",
   "theorems": [
    "Adx.C84_orb_integrals_partial",
    "Adx.C84_a_from_period_iff",
    "Adx.C84_a_from_period_refuted",
    "Adx.C84_uniformulas",
    "Adx.C84_kepler_equations",
    "Adx.C84_elements_partial",
    "Adx.C84_right_ascension",
    "Adx.C84_right_ascension_refuted",
    "Adx.C84_rv2coe",
    "Adx.C84_rotations",
    "Adx.C84_coe2rv_partial",
    "Adx.C84_coe2rv_refuted",
    "Adx.C84_gravity",
    "Adx.C84_path_check",
    "Adx.C84_state_trans_partial",
    "Adx.C84_pvpr0_difference",
    "Adx.C84_pvpv0_difference",
    "Adx.C84_pvpr0_iff",
    "Adx.C84_pvpv0_iff",
    "Adx.C84_state_trans_refuted"
   ],
   "note": "Spec.Doc (Verif/Spec/Documented.lean) transcribes the displayed formulas with Mathlib vectors and matrices. The naive claim (every displayed formula is what the code computes) is refuted for a_from_period, right_ascension, coe2rv, pvpr0 and pvpv0; for these the exact relation is proved (C84_a_from_period_iff, C84_right_ascension, C84_rv2coe, C84_coe2rv_partial, C84_pvpr0_iff, C84_pvpv0_iff), for all others equality. Exact arithmetic; where a denominator vanishes both sides are the totalised value, which says nothing about the code."
  },
  {
   "property": "C85",
   "status": "proved",
   "theorems": [
    "Adx.C85_orb_integrals",
    "Adx.C85_kepler_equations",
    "Adx.C85_solvers",
    "Adx.C85_elements",
    "Adx.C85_arrays",
    "Adx.C85_propagators",
    "Adx.C85_lagrange",
    "Adx.C85_path_check",
    "Adx.C85_gravity",
    "Adx.C85_dictionaries",
    "Adx.C85_radius_islow",
    "Adx.C85_state_trans",
    "Adx.C85_dxdx0_refuted"
   ],
   "note": "The statements for solvers, propagators, elements and arrays hold over every arithmetic and say which value is used; the others are evaluated over the reals. C85_dxdx0_refuted is the exception deltat = 3.14. The defaults Tsit5() and PIDController(rtol=1e-8, atol=1e-8) of the propagators are parameters of the model."
  },
  {
   "property": "C86",
   "status": "proved",
   "theorems": [
    "Adx.C86_quiet",
    "Adx.C86_alarm",
    "Adx.C86_orbit",
    "Adx.C86_missed_refuted"
   ],
   "note": "Exact arithmetic, relative to the contract of diffeqsolve and the Runge-Kutta model as in C73. The bound on the steps is not explicit (compactness). fixed_steps with enough iterations is shown to come back; for adaptive_steps coming back and the bound on the kept steps are hypotheses, since the PID rule is not modelled. The failure with a given step is C86_missed_refuted: one Euler step of a whole revolution over a dive to 1/7, rmin = 1/2, no event though rp_islower_rmin is true."
  },
  {
   "property": "C87",
   "status": "proved",
   "theorems": [
    "Adx.C87_elliptic",
    "Adx.C87_hyperbolic",
    "Adx.C87_parabolic",
    "Adx.C87_total_elps",
    "Adx.C87_total_hypb",
    "Adx.C87_total_parb",
    "Adx.C87_elements",
    "Adx.C87_rate",
    "Adx.C87_route"
   ],
   "note": "Exact arithmetic. exactProp is kepler with the universal equation solved exactly (C19-C21). C87_elliptic and C87_hyperbolic hold for every E (H), with the residual as an error in time; C87_route adds existence and uniqueness of the solved E; C87_total_* say every anomaly has its counterpart, so the hypotheses TrueOf* exclude nothing on the orbit. The code has no Barker equation; C87_parabolic states it directly. C87_elements holds for whatever root the search returned. C87_rate: the folding of the true anomaly (C33, C34) seen along the motion."
  },
  {
   "property": "C88",
   "status": "proved",
   "theorems": [
    "Adx.C88_momentum",
    "Adx.C88_semiparameter",
    "Adx.C88_semimajor",
    "Adx.C88_eccentricity",
    "Adx.C88_eccentricity_magnitude",
    "Adx.C88_inclination",
    "Adx.C88_node",
    "Adx.C88_node_j2",
    "Adx.C88_kozai",
    "Adx.C88_polar"
   ],
   "note": "Exact arithmetic, exact motions (not the numerical propagation; for its error see C73). PerturbedAt says only what the motion does at one instant, so f may be anything: another force model, thrust, a numerical velocity field. The rates of the argument of periapsis and of the true anomaly are left out: the code folds these angles (C33, C34). The rate of the node is stated through its cosine and sine, since the returned angle jumps from 2 pi to 0. Inclination and node need a node (non-equatorial orbit); the magnitude of the eccentricity needs e != 0."
  },
  {
   "property": "C89",
   "status": "proved",
   "theorems": [
    "Adx.C89_exists",
    "Adx.C89_unique",
    "Adx.C89_symmetry",
    "Adx.C89_reverse",
    "Adx.C89_periodic",
    "Adx.C89_kepler",
    "Adx.C89_equatorial",
    "Adx.C89_axis",
    "Adx.C89_zonal_exists"
   ],
   "note": "Existence is local (Picard-Lindelof; solutions of the zonal models may run into the centre), uniqueness holds on any open connected set of times. Stated for every force with SmoothForce (C73), which the point mass, J2, J3, J4 and their sums satisfy for all argument values. C89_zonal_exists gives the motions that the hypotheses of C41 and C88 ask for."
  },
  {
   "property": "C90",
   "status": "proved",
   "theorems": [
    "Adx.C90_average",
    "Adx.C90_node",
    "Adx.C90_periapsis",
    "Adx.C90_energy",
    "Adx.C90_constants",
    "Adx.C90_critical",
    "Adx.C90_j3_momentum",
    "Adx.C90_j3_eccentricity",
    "Adx.C90_j4_momentum",
    "Adx.C90_j4_eccentricity",
    "Adx.C90_j3_frozen",
    "Adx.C90_j3_circular"
   ],
   "note": "Exact arithmetic. The integrands are the rates C88_momentum, C88_eccentricity and C88_semimajor give for a motion perturbed by the zonal term, taken along the unperturbed orbit exactProp (C21): the first order of perturbation theory. What the perturbed motion itself does over one revolution differs from this by terms of second order in J2, which are not bounded here. J3 and J4 are stated in the elements (C34_coe2rv_surjective: every state has them), J2 in the state."
  },
  {
   "property": "C91",
   "status": "proved",
   "theorems": [
    "Adx.C91_first_order",
    "Adx.C91_oblate",
    "Adx.C91_zonal",
    "Adx.C91_propagated",
    "Adx.C91_oblate_propagated",
    "Adx.C91_revolutions"
   ],
   "note": "Real arithmetic, the exact flow of the modelled force terms. Existence by Picard-Lindelof with a truncated field, closeness by a fencing argument, second order by Lipschitz bounds in a tube. C and the bound on the coefficients are not computed."
  }
 ]
}