{
 "claims": [
  {
   "property": "C01",
   "status": "proved",
   "theorems": [
    "PyQ.C01_histories_aligned"
   ],
   "note": "Any number type, any dynamics, any run length."
  },
  {
   "property": "C02",
   "status": "proved",
   "theorems": [
    "PyQ.C02_exit_codes"
   ],
   "note": "Law-free."
  },
  {
   "property": "C03",
   "status": "proved",
   "theorems": [
    "PyQ.C03_strict_convergence"
   ],
   "note": "Law-free; both directions."
  },
  {
   "property": "C04",
   "status": "proved",
   "theorems": [
    "PyQ.C04_relaxed_convergence"
   ],
   "note": "Law-free."
  },
  {
   "property": "C05",
   "status": "proved",
   "theorems": [
    "PyQ.C05_mass_depleted"
   ],
   "note": "Law-free."
  },
  {
   "property": "C06",
   "status": "proved",
   "theorems": [
    "PyQ.C06_time_out"
   ],
   "note": "Law-free; on any object."
  },
  {
   "property": "C07",
   "status": "proved",
   "theorems": [
    "PyQ.C07_nan_abort",
    "PyQ.C07_nan_steps_coast",
    "PyQ.C07_nan_count"
   ],
   "note": "Law-free; the count is max(threshold,0)+1."
  },
  {
   "property": "C08",
   "status": "partial",
   "theorems": [
    "PyQ.C08_own_outcome_partial",
    "PyQ.C08_stale_timeout",
    "PyQ.C08_violated"
   ],
   "note": "Violated by the code: flags are not reset. The negation is proved in general form and by a concrete call sequence; the partial theorem covers fresh objects and runs that do not time out."
  },
  {
   "property": "C09",
   "status": "proved",
   "theorems": [
    "PyQ.C09_time_forward"
   ],
   "note": "Exact arithmetic with nan/inf."
  },
  {
   "property": "C10",
   "status": "proved",
   "theorems": [
    "PyQ.C10_tf_max_respected",
    "PyQ.C10_last_time"
   ],
   "note": "Law-free for the guard, exact arithmetic for the last time."
  },
  {
   "property": "C11",
   "status": "proved",
   "theorems": [
    "PyQ.C11_terminates",
    "PyQ.C11_terminates_archimedean",
    "PyQ.C11_zero_step",
    "PyQ.C11_zero_step_diverges"
   ],
   "note": "Proved for t_step > 0 with an explicit bound; t_step = 0 is proved to run forever (negation). With rounding see C105: the same holds if t_step is not lost when added to times up to tf_max, and a run that never returns is exhibited otherwise."
  },
  {
   "property": "C12",
   "status": "proved",
   "theorems": [
    "PyQ.C12_backward_times",
    "PyQ.C12_backward_terminates"
   ],
   "note": "Exact arithmetic."
  },
  {
   "property": "C13",
   "status": "proved",
   "theorems": [
    "PyQ.C13_step_mass",
    "PyQ.C13_propellant"
   ],
   "note": "Per-step relation law-free, total by induction in exact arithmetic."
  },
  {
   "property": "C14",
   "status": "proved",
   "theorems": [
    "PyQ.C14_above_threshold",
    "PyQ.C14_mass_monotone",
    "PyQ.C14_mass"
   ],
   "note": ""
  },
  {
   "property": "C15",
   "status": "proved",
   "theorems": [
    "PyQ.C15_battery_in_capacity",
    "PyQ.C15_battery_finite"
   ],
   "note": "Comparison laws only, plus exact arithmetic for finiteness."
  },
  {
   "property": "C16",
   "status": "proved",
   "theorems": [
    "PyQ.C16_no_thrust_depleted"
   ],
   "note": "Law-free."
  },
  {
   "property": "C17",
   "status": "proved",
   "theorems": [
    "PyQ.C17_full_recharge",
    "PyQ.C17_full_recharge_exact"
   ],
   "note": "In any arithmetic the level that ends the lockout equals capacity[1] or is not below it; with finite data in exact arithmetic it is exactly capacity[1]."
  },
  {
   "property": "C18",
   "status": "partial",
   "theorems": [
    "PyQ.C18_thrust_is_paid_partial",
    "PyQ.C18_free_energy"
   ],
   "note": "Violated by the code when require_full_recharge is False: thrusting while charging uses energy the battery does not have (counterexample proved)."
  },
  {
   "property": "C19",
   "status": "proved",
   "theorems": [
    "PyQ.C19_on_time",
    "PyQ.C19_off_time",
    "PyQ.C19_backward_never_off",
    "PyQ.C19_backward_violation"
   ],
   "note": "Forward runs, as stated; backward runs violate it: the cycle never switches off (general theorem and concrete run)."
  },
  {
   "property": "C20",
   "status": "proved",
   "theorems": [
    "PyQ.C20_never_inhibited",
    "PyQ.C20_defaults",
    "PyQ.C20_defaults_thrust"
   ],
   "note": ""
  },
  {
   "property": "C21",
   "status": "partial",
   "theorems": [
    "PyQ.C21_floor_start_raises",
    "PyQ.C21_later_coast_partial"
   ],
   "note": "The code raises UnboundLocalError instead of coasting when the first step has no duty (proved); the partial theorem covers the later steps."
  },
  {
   "property": "C22",
   "status": "proved",
   "theorems": [
    "PyQ.C22_thrust_coast",
    "PyQ.C22_forced_coast",
    "PyQ.C22_no_threshold"
   ],
   "note": "Law-free."
  },
  {
   "property": "C23",
   "status": "proved",
   "theorems": [
    "PyQ.C23_effectivities_normalised",
    "PyQ.C23_samples",
    "PyQ.C23_package",
    "PyQ.C23_backward_inverted",
    "PyQ.C23_backward_violation"
   ],
   "note": "Forward runs, as stated, for any control law whose rates are finite and non-negative. C23_package instantiates it over the reals with the Lyapunov function of the package in either element set: the sampled rates are the fastest possible decreases of Q at the sampled anomalies and both effectivities lie in [0, 1]. Backward runs are proved to invert both effectivities."
  },
  {
   "property": "C24",
   "status": "partial",
   "theorems": [
    "PyQ.C24_eta_a_checked_partial",
    "PyQ.C24_eta_r_ignored",
    "PyQ.C24_eta_r_violation"
   ],
   "note": "eta_a part proved; the eta_r part is violated: an eta_r that is not a number is silently ignored and acts like no threshold (proved)."
  },
  {
   "property": "C25",
   "status": "proved",
   "theorems": [
    "PyQ.C25_thrust_vector",
    "PyQ.C25_magnitude"
   ],
   "note": "Law-free for the vector; magnitude over the reals."
  },
  {
   "property": "C26",
   "status": "partial",
   "theorems": [
    "PyQ.C26_mee_partial",
    "PyQ.C26_keplerian_partial",
    "PyQ.C26_in_bounds_partial",
    "PyQ.C26_violated"
   ],
   "note": "Holds for mee_with_a and for in-bounds keplerian problems; violated for out-of-bounds keplerian ones (concrete run)."
  },
  {
   "property": "C27",
   "status": "proved",
   "theorems": [
    "PyQ.C27_states_in_bounds",
    "PyQ.C27_mee_bounds_unused"
   ],
   "note": "Comparison laws only; for mee_with_a the bounds are proved to be never read."
  },
  {
   "property": "C28",
   "status": "proved",
   "theorems": [
    "PyQ.C28_protocol",
    "PyQ.C28_constructor",
    "PyQ.C28_constructor_validates",
    "PyQ.C28_solve_needs_problem",
    "PyQ.C28_setters",
    "PyQ.C28_set_problem"
   ],
   "note": "Induction over arbitrary call sequences."
  },
  {
   "property": "C29",
   "status": "partial",
   "theorems": [
    "PyQ.C29_agree_partial",
    "PyQ.C29_stale",
    "PyQ.C29_violated"
   ],
   "note": "Violated by assigning elements_type (general theorem and witness); the partial theorem covers call sequences that never assign the other type."
  },
  {
   "property": "C30",
   "status": "proved",
   "theorems": [
    "PyQ.C30_six_components",
    "PyQ.C30_wrong_length"
   ],
   "note": "Law-free."
  },
  {
   "property": "C31",
   "status": "proved",
   "theorems": [
    "PyQ.C31_keplerian",
    "PyQ.C31_mee",
    "PyQ.C31_backward_runs_forward"
   ],
   "note": "Over the reals, for every run of solve. The battery may cut a step short. The violation for negative t_step is a separate theorem."
  },
  {
   "property": "C32",
   "status": "partial",
   "theorems": [
    "PyQ.C32_step_not_adapted",
    "PyQ.C32_rk4_books_elapsed_partial",
    "PyQ.C32_rkf45_books_suggestion",
    "PyQ.C32_violated"
   ],
   "note": "Violated by the code; both deviations are proved in general and by a concrete run; the bookkeeping part holds for rk4."
  },
  {
   "property": "C33",
   "status": "proved",
   "theorems": [
    "PyQ.C33_relaxed_contains_strict",
    "PyQ.C33_factor_enforced"
   ],
   "note": "Exact arithmetic with nan/inf; finite tolerances and factor."
  },
  {
   "property": "C34",
   "status": "proved",
   "theorems": [
    "PyQ.C34_mee_box_test",
    "PyQ.C34_nan_not_converged"
   ],
   "note": ""
  },
  {
   "property": "C35",
   "status": "proved",
   "theorems": [
    "PyQ.C35_keplerian_check",
    "PyQ.C35_turn_invariant"
   ],
   "note": "Over the reals."
  },
  {
   "property": "C36",
   "status": "proved",
   "theorems": [
    "PyQ.C36_elements_safety",
    "PyQ.C36_elements_safety_exact"
   ],
   "note": "Comparison laws only; equality form in exact arithmetic."
  },
  {
   "property": "C37",
   "status": "proved",
   "theorems": [
    "PyQ.C37_angles",
    "PyQ.C37_out_of_plane",
    "PyQ.C37_zero_nan"
   ],
   "note": "Over the reals; the NaN case in exact arithmetic with NaN, for elementary functions that propagate NaN."
  },
  {
   "property": "C38",
   "status": "proved",
   "theorems": [
    "PyQ.C38_steepest_descent",
    "PyQ.C38_unique",
    "PyQ.C38_sampled_rate",
    "PyQ.C38_raw_control"
   ],
   "note": "Over the reals, arbitrary gradient and Gauss matrix."
  },
  {
   "property": "C39",
   "status": "proved",
   "theorems": [
    "PyQ.C39_rates_agree"
   ],
   "note": "Over the reals; where the gradient has no in-plane part the control angles raise (C37)."
  },
  {
   "property": "C40",
   "status": "proved",
   "theorems": [
    "PyQ.C40_keplerian",
    "PyQ.C40_mee",
    "PyQ.C40_anomaly",
    "PyQ.C40_scaling"
   ],
   "note": "Over the reals, on the region where the formula has no division by zero and no real power of a negative number (KepAdmissible, MeeAdmissible); independence of the anomaly and scaling for all arguments."
  },
  {
   "property": "C41",
   "status": "proved",
   "theorems": [
    "PyQ.C41_kep_rate",
    "PyQ.C41_mee_rate",
    "PyQ.C41_kep_differentiable",
    "PyQ.C41_mee_differentiable",
    "PyQ.C41_decrease"
   ],
   "note": "Over the reals. Rate at every instant of a motion under the commanded thrust where Q is differentiable (joint differentiability, chain rule); the explicit regions are KepSmooth and MeeSmooth; on intervals Q is strictly monotone. The sign of the acceleration is that of the integration direction, so the rate is stated as -f|g| and covers backward runs."
  },
  {
   "property": "C42",
   "status": "proved",
   "theorems": [
    "PyQ.C42_a",
    "PyQ.C42_e",
    "PyQ.C42_i",
    "PyQ.C42_raan"
   ],
   "note": "Over the reals; each bound is shown to hold for every anomaly and unit direction and to be attained."
  },
  {
   "property": "C43",
   "status": "partial",
   "theorems": [
    "PyQ.C43_a_partial",
    "PyQ.C43_f_partial",
    "PyQ.C43_g_partial",
    "PyQ.C43_h_partial",
    "PyQ.C43_k_partial"
   ],
   "note": "Violated by the code: each theorem for f, g, h, k is an equivalence saying exactly when the rate used is the maximum (g = 0; f = 0; f <= 0; g <= 0). Missing: the property itself outside those sets, where it is false."
  },
  {
   "property": "C44",
   "status": "partial",
   "theorems": [
    "PyQ.C44_partial",
    "PyQ.C44_wrong_half_plane",
    "PyQ.C44_violated",
    "PyQ.C44_raises"
   ],
   "note": "Proved for f > 0; for f < 0 both coefficients are wrong (value proved, witness given); f = 0 raises in the equations of motion."
  },
  {
   "property": "C45",
   "status": "proved",
   "theorems": [
    "PyQ.C45_canonical",
    "PyQ.C45_mod_turns"
   ],
   "note": "Over the reals."
  },
  {
   "property": "C46",
   "status": "proved",
   "theorems": [
    "PyQ.C46_roundtrip",
    "PyQ.C46_violated"
   ],
   "note": "Over the reals; the failure at h=k=0 is proved by a witness."
  },
  {
   "property": "C47",
   "status": "proved",
   "theorems": [
    "PyQ.C47_inverse",
    "PyQ.C47_direct",
    "PyQ.C47_direct_back",
    "PyQ.C47_keplerian"
   ],
   "note": "Over the reals."
  },
  {
   "property": "C48",
   "status": "proved",
   "theorems": [
    "PyQ.C48_on_orbit",
    "PyQ.C48_skipped_rotations"
   ],
   "note": "Over the reals."
  },
  {
   "property": "C49",
   "status": "proved",
   "theorems": [
    "PyQ.C49_roundtrip",
    "PyQ.C49_any_conic"
   ],
   "note": "Over the reals, for all orbits outside the guard, hyperbolas included."
  },
  {
   "property": "C50",
   "status": "proved",
   "theorems": [
    "PyQ.C50_agrees",
    "PyQ.C50_circular",
    "PyQ.C50_violated"
   ],
   "note": "Over the reals. The equatorial failure is proved with a witness."
  },
  {
   "property": "C51",
   "status": "proved",
   "theorems": [
    "PyQ.C51_period",
    "PyQ.C51_of_elements",
    "PyQ.C51_degenerate_raises"
   ],
   "note": "Over the reals; semi-major axis characterised by the vis-viva equation."
  },
  {
   "property": "C52",
   "status": "proved",
   "theorems": [
    "PyQ.C52_value",
    "PyQ.C52_odd",
    "PyQ.C52_circular",
    "PyQ.C52_strictMono"
   ],
   "note": "Over the reals."
  },
  {
   "property": "C53",
   "status": "proved",
   "theorems": [
    "PyQ.C53_agrees",
    "PyQ.C53_circular"
   ],
   "note": "Over the reals; equality of the returned values."
  },
  {
   "property": "C54",
   "status": "proved",
   "theorems": [
    "PyQ.C54_closes",
    "PyQ.C54_points"
   ],
   "note": "Over the reals."
  },
  {
   "property": "C55",
   "status": "proved",
   "theorems": [
    "PyQ.C55_rotations",
    "PyQ.C55_axes"
   ],
   "note": "Over the reals."
  },
  {
   "property": "C56",
   "status": "partial",
   "theorems": [
    "PyQ.C56_range_partial",
    "PyQ.C56_period_two",
    "PyQ.C56_violated",
    "PyQ.C56_not_turn_invariant"
   ],
   "note": "The range holds; equivalence modulo full turns is violated already at the angle 0."
  },
  {
   "property": "C57",
   "status": "proved",
   "theorems": [
    "PyQ.C57_keplerian",
    "PyQ.C57_mee",
    "PyQ.C57_rk4_keplerian",
    "PyQ.C57_solve"
   ],
   "note": "Over the reals; C57_solve is about the recorded states of a run of solve."
  },
  {
   "property": "C58",
   "status": "proved",
   "theorems": [
    "PyQ.C58_newton"
   ],
   "note": "Over the reals, for every differentiable curve of elements at an instant where it moves by eom_kep_gauss."
  },
  {
   "property": "C59",
   "status": "proved",
   "theorems": [
    "PyQ.C59_consistent"
   ],
   "note": "Over the reals; all six elements for f > 0, the other five for every f != 0."
  },
  {
   "property": "C60",
   "status": "proved",
   "theorems": [
    "PyQ.C60_only_sum",
    "PyQ.C60_affine"
   ],
   "note": "Only-the-sum is law-free; affinity over the reals."
  },
  {
   "property": "C61",
   "status": "proved",
   "theorems": [
    "PyQ.C61_tableau",
    "PyQ.C61_exact_cubic",
    "PyQ.C61_linear",
    "PyQ.C61_zero_step",
    "PyQ.C61_equilibrium",
    "PyQ.C61_affine"
   ],
   "note": "Over the reals, any dimension."
  },
  {
   "property": "C62",
   "status": "partial",
   "theorems": [
    "PyQ.C62_tableau_partial",
    "PyQ.C62_constant_partial",
    "PyQ.C62_violated",
    "PyQ.C62_zero_error",
    "PyQ.C62_no_second_order"
   ],
   "note": "Violated at every constant right-hand side; the exact wrong factor, the ZeroDivisionError and the missing second-order term are proved in general."
  },
  {
   "property": "C63",
   "status": "proved",
   "theorems": [
    "PyQ.C63_third_body",
    "PyQ.C63_singular"
   ],
   "note": "Over the reals."
  },
  {
   "property": "C64",
   "status": "partial",
   "theorems": [
    "PyQ.C64_partial",
    "PyQ.C64_right_iff",
    "PyQ.C64_violated"
   ],
   "note": "Right exactly on the unit sphere and in the equatorial plane (iff proved)."
  },
  {
   "property": "C65",
   "status": "proved",
   "theorems": [
    "PyQ.C65_srp",
    "PyQ.C65_inverse_square"
   ],
   "note": "Over the reals."
  },
  {
   "property": "C66",
   "status": "proved",
   "theorems": [
    "PyQ.C66_rtn"
   ],
   "note": "Over the reals."
  },
  {
   "property": "C67",
   "status": "partial",
   "theorems": [
    "PyQ.C67_sum_partial",
    "PyQ.C67_disabled",
    "PyQ.C67_other_type",
    "PyQ.C67_violated"
   ],
   "note": "The sum and magnitude are proved for every ephemeris; third_bodies_names=None raises TypeError at every state."
  },
  {
   "property": "C68",
   "status": "proved",
   "theorems": [
    "PyQ.C68_saved",
    "PyQ.C68_unit_directions",
    "PyQ.C68_no_run"
   ],
   "note": "Rows and lengths law-free; unit norm over the reals."
  },
  {
   "property": "C69",
   "status": "partial",
   "theorems": [
    "PyQ.C69_partial",
    "PyQ.C69_rows",
    "PyQ.C69_violated"
   ],
   "note": "Proved for mee_with_a objects; violated for keplerian objects (a completed run is exhibited). Missing: the property for keplerian objects, where it is false."
  },
  {
   "property": "C70",
   "status": "proved",
   "theorems": [
    "PyQ.C70_columns",
    "PyQ.C70_on_orbit"
   ],
   "note": "Law-free; with C48 over the reals for elliptic states."
  },
  {
   "property": "C71",
   "status": "proved",
   "theorems": [
    "PyQ.C71_sphere",
    "PyQ.C71_ellipsoid",
    "PyQ.C71_equal_axis",
    "PyQ.C71_frame"
   ],
   "note": "Over the reals."
  },
  {
   "property": "C72",
   "status": "partial",
   "theorems": [
    "PyQ.C72_aligned_after_exception_partial",
    "PyQ.C72_misaligned"
   ],
   "note": "Violated by the code in the UnboundLocalError case (counterexample proved); proved for every other exception."
  },
  {
   "property": "C73",
   "status": "proved",
   "theorems": [
    "PyQ.C73_curves"
   ],
   "note": "Law-free."
  },
  {
   "property": "C74",
   "status": "proved",
   "theorems": [
    "PyQ.C74_interpolated"
   ],
   "note": "Ordered field with NaN and infinities; the interpolation routine (scipy) is any function exact at its nodes."
  },
  {
   "property": "C75",
   "status": "proved",
   "theorems": [
    "PyQ.C75_repeat",
    "PyQ.C75_past_irrelevant"
   ],
   "note": "Order laws without antisymmetry; the first theorem needs bounds for which clipping twice is the same as clipping once (BoundsExact, proved for Ext K)."
  },
  {
   "property": "C76",
   "status": "proved",
   "theorems": [
    "PyQ.C76_extends",
    "PyQ.C76_last_state_moves"
   ],
   "note": "Order laws only. That the last state of the shorter run can differ is proved with a witness."
  },
  {
   "property": "C77",
   "status": "partial",
   "theorems": [
    "PyQ.C77_zero_weight_partial",
    "PyQ.C77_violated"
   ],
   "note": "Proved over the reals for the law with the gradient of Q, which the generated code computes at regular states (C109). Missing because the code does not do it: at RAAN equal to a target of weight zero the generated gradient is 0*NaN; a run is exhibited that coasts to the time limit where the same problem with another irrelevant target thrusts."
  },
  {
   "property": "C78",
   "status": "proved",
   "theorems": [
    "PyQ.C78_weight_ratio"
   ],
   "note": "Over the reals."
  },
  {
   "property": "C79",
   "status": "proved",
   "theorems": [
    "PyQ.C79_mass_unit"
   ],
   "note": "Over the reals, for any dynamics and control law."
  },
  {
   "property": "C80",
   "status": "proved",
   "theorems": [
    "PyQ.C80_law_applied",
    "PyQ.C80_recorded",
    "PyQ.C80_nonneg"
   ],
   "note": "Call of the law in any arithmetic; the descent statements over the reals."
  },
  {
   "property": "C81",
   "status": "proved",
   "theorems": [
    "PyQ.C81_slow_step"
   ],
   "note": "Over the reals; the statement includes the constant factor by which rkf45 overshoots (see C62 for the weights)."
  },
  {
   "property": "C82",
   "status": "proved",
   "theorems": [
    "PyQ.C82_keplerian",
    "PyQ.C82_mee"
   ],
   "note": "Over the reals, any integrator."
  },
  {
   "property": "C83",
   "status": "proved",
   "theorems": [
    "PyQ.C83_raan_origin"
   ],
   "note": "Over the reals, both integrators."
  },
  {
   "property": "C84",
   "status": "proved",
   "theorems": [
    "PyQ.C84_units"
   ],
   "note": "Over the reals, rk4 (the error test of rkf45 adds errors of quantities with different units, so the step choice is not covered)."
  },
  {
   "property": "C85",
   "status": "proved",
   "theorems": [
    "PyQ.C85_whole_turns"
   ],
   "note": "Over the reals."
  },
  {
   "property": "C86",
   "status": "partial",
   "theorems": [
    "PyQ.C86_mee",
    "PyQ.C86_keplerian_partial",
    "PyQ.C86_violated"
   ],
   "note": "Proved for mee_with_a objects, and for a, e, i of keplerian objects; violated for RAAN and argument of periapsis (a completed run with exit code 1 that prints an error of 2 pi is exhibited)."
  },
  {
   "property": "C87",
   "status": "proved",
   "theorems": [
    "PyQ.C87_recorded",
    "PyQ.C87_in_band",
    "PyQ.C87_converted"
   ],
   "note": "Over the reals."
  },
  {
   "property": "C88",
   "status": "partial",
   "theorems": [
    "PyQ.C88_keplerian",
    "PyQ.C88_converted",
    "PyQ.C88_mee_partial",
    "PyQ.C88_violated"
   ],
   "note": "Proved for keplerian objects and for converted elements; for unconverted mee_with_a elements an equivalence says exactly when the overlay is right, and a witness shows that it can be wrong."
  },
  {
   "property": "C89",
   "status": "proved",
   "theorems": [
    "PyQ.C89_trajectory"
   ],
   "note": "Over the reals."
  },
  {
   "property": "C90",
   "status": "partial",
   "theorems": [
    "PyQ.C90_trip_partial",
    "PyQ.C90_equatorial_partial",
    "PyQ.C90_circular_forgets",
    "PyQ.C90_violated",
    "PyQ.C90_retrograde_violated"
   ],
   "note": "Over the reals. Missing because the code does not do it: circular orbits lose the position on the orbit, equatorial orbits flown clockwise come back elsewhere."
  },
  {
   "property": "C91",
   "status": "proved",
   "theorems": [
    "PyQ.C91_consistent"
   ],
   "note": "Over the reals."
  },
  {
   "property": "C92",
   "status": "partial",
   "theorems": [
    "PyQ.C92_units_partial",
    "PyQ.C92_violated"
   ],
   "note": "Over the reals. Missing because the code does not do it: with J2 the result depends on the unit of length."
  },
  {
   "property": "C93",
   "status": "proved",
   "theorems": [
    "PyQ.C93_om_rate",
    "PyQ.C93_max_unique",
    "PyQ.C93_b_zero"
   ],
   "note": "Over the reals."
  },
  {
   "property": "C94",
   "status": "proved",
   "theorems": [
    "PyQ.C94_mirror"
   ],
   "note": "Over the reals."
  },
  {
   "property": "C95",
   "status": "proved",
   "theorems": [
    "PyQ.C95_short_step"
   ],
   "note": "Over the reals, no perturbations (the length depends on state, mass and settings)."
  },
  {
   "property": "C96",
   "status": "partial",
   "theorems": [
    "PyQ.C96_whole_turns_partial",
    "PyQ.C96_anomaly",
    "PyQ.C96_perturbations",
    "PyQ.C96_violated"
   ],
   "note": "Over the reals. Proved for the anomaly and the true longitude, and for RAAN and argument of periapsis with bounds moved along; with fixed bounds a run is exhibited that is flown from another orbit."
  },
  {
   "property": "C97",
   "status": "proved",
   "theorems": [
    "PyQ.C97_keplerian",
    "PyQ.C97_mee",
    "PyQ.C97_penalty",
    "PyQ.C97_kep_exists",
    "PyQ.C97_mee_exists",
    "PyQ.C97_recorded_keplerian",
    "PyQ.C97_recorded_mee",
    "PyQ.C97_accel"
   ],
   "note": "Over the reals, on the region KepAdmissible or MeeAdmissible of C40. The maximum rates of MEE that are not maxima are recorded under C43."
  },
  {
   "property": "C98",
   "status": "proved",
   "theorems": [
    "PyQ.C98_step",
    "PyQ.C98_stretch"
   ],
   "note": "Over the reals, no perturbations. MEE states with f = 0 are excluded from the set (the source divides by f)."
  },
  {
   "property": "C99",
   "status": "proved",
   "theorems": [
    "PyQ.C99_converges"
   ],
   "note": "Over the reals, no perturbations. The run is assumed not to leave the set; thrust in every step is a hypothesis."
  },
  {
   "property": "C100",
   "status": "proved",
   "theorems": [
    "PyQ.C100_saved",
    "PyQ.C100_no_results",
    "PyQ.C100_numpy",
    "PyQ.C100_encoder"
   ],
   "note": "For every number type; json.dump and json.load are modelled by their documented tables, floats are written so that they read back."
  },
  {
   "property": "C101",
   "status": "partial",
   "theorems": [
    "PyQ.C101_pretty_partial",
    "PyQ.C101_mee_partial",
    "PyQ.C101_no_problem",
    "PyQ.C101_short_target",
    "PyQ.C101_settings",
    "PyQ.C101_violated"
   ],
   "note": "Names, targets, weights and settings as stated, initial values as stated for mee_with_a and before the first run. Missing because the code does not do it: after a run with Keplerian elements outside the bounds pretty prints the clipped values (concrete run)."
  },
  {
   "property": "C102",
   "status": "partial",
   "theorems": [
    "PyQ.C102_keplerian_partial",
    "PyQ.C102_mee_partial",
    "PyQ.C102_newton",
    "PyQ.C102_rkf45",
    "PyQ.C102_violated"
   ],
   "note": "Over the reals. rk4 as stated, both element types. Missing because the code does not do it: with rkf45 every short coast step is off by at least a fixed fraction of its length, for every orbit (C102_rkf45, Keplerian elements), hence no such constant exists (C102_violated)."
  },
  {
   "property": "C103",
   "status": "proved",
   "theorems": [
    "PyQ.C103_rocket"
   ],
   "note": "Over the reals."
  },
  {
   "property": "C104",
   "status": "proved",
   "theorems": [
    "PyQ.C104_rate_limit",
    "PyQ.C104_keplerian",
    "PyQ.C104_eccentricity_cost"
   ],
   "note": "Over the reals, no perturbations. Closed forms need an elliptic state with 0 < i < pi."
  },
  {
   "property": "C105",
   "status": "proved",
   "theorems": [
    "PyQ.C105_clock",
    "PyQ.C105_mass",
    "PyQ.C105_clock_error",
    "PyQ.C105_mass_error",
    "PyQ.C105_terminates",
    "PyQ.C105_no_timeout",
    "PyQ.C105_never_returns"
   ],
   "note": "Rounded arithmetic Rd K over any ordered field (no signed zeros); ** and the elementary functions are arbitrary. Round to nearest even with 53 bits and unbounded exponent is an instance (Binary.lean)."
  },
  {
   "property": "C106",
   "status": "proved",
   "theorems": [
    "PyQ.C106_defaults",
    "PyQ.C106_relaxed",
    "PyQ.C106_rounded"
   ],
   "note": "Default arguments transcribed in Model/Defaults.lean."
  },
  {
   "property": "C107",
   "status": "proved",
   "theorems": [
    "PyQ.C107_limit",
    "PyQ.C107_exists"
   ],
   "note": "rkf45: its weights sum to 1 + 2197/5610168, so the limit is the motion at that speed. Smoothness for MEE asks for a semi-major axis off target or an even exponent n."
  },
  {
   "property": "C108",
   "status": "proved",
   "theorems": [
    "PyQ.C108_completes",
    "PyQ.C108_reaches"
   ],
   "note": "With rkf45, gamma is the motion at 1 + 2197/5610168 times the speed (C107), and the battery must not discharge because it is charged for the suggested step (C32); the division by the error estimate is shown never to be by zero along such runs, thanks to the mismatched weights (C62)."
  },
  {
   "property": "C109",
   "status": "proved",
   "theorems": [
    "PyQ.C109_kep_gradient",
    "PyQ.C109_mee_gradient",
    "PyQ.C109_generated_law"
   ],
   "note": "Over the reals. sym.diff is modelled by the rules of differentiation on the transcribed code (Model/Diff.lean); sympy's rearrangement of terms is not modelled. Regular states are the structures KepRegular and MeeRegular."
  },
  {
   "property": "C110",
   "status": "proved",
   "theorems": [
    "PyQ.C110_no_step",
    "PyQ.C110_start",
    "PyQ.C110_raises"
   ],
   "note": "Any arithmetic, no laws assumed."
  },
  {
   "property": "C111",
   "status": "proved",
   "theorems": [
    "PyQ.C111_gradient",
    "PyQ.C111_angles",
    "PyQ.C111_coast",
    "PyQ.C111_frozen",
    "PyQ.C111_outcome"
   ],
   "note": "Arithmetic Ext K; of the elementary functions only the values at zero, NaN propagation and finiteness of sin and cos are assumed. The run-level theorems ask for a finite angular momentum and sin i != 0."
  },
  {
   "property": "C112",
   "status": "proved",
   "theorems": [
    "PyQ.C112_follows",
    "PyQ.C112_completes"
   ],
   "note": "Over the reals. The conditions f > 0 and off the reference plane for MEE are those under which eom_mee_with_a_gauss and mee_with_a2sv are right (C44, C50, C59)."
  },
  {
   "property": "C113",
   "status": "proved",
   "theorems": [
    "PyQ.C113_newton"
   ],
   "note": "Over the reals, for every differentiable curve of elements at an instant where it moves by eom_mee_with_a_gauss. For f < 0 the semi-major axis moves wrongly (C59) and on the reference plane mee_with_a2sv is wrong (C50)."
  },
  {
   "property": "C114",
   "status": "proved",
   "theorems": [
    "PyQ.C114_same_run",
    "PyQ.C114_completes",
    "PyQ.C114_reaches",
    "PyQ.C114_newton"
   ],
   "note": "Over the reals, with sym.diff modelled as in C109."
  },
  {
   "property": "C115",
   "status": "proved",
   "theorems": [
    "PyQ.C115_limit",
    "PyQ.C115_newton",
    "PyQ.C115_exists",
    "PyQ.C115_package_smooth",
    "PyQ.C115_package"
   ],
   "note": "Over the reals. The oblateness term is the coded one, which differs from the gradient of the potential away from unit radius (C64). With rkf45 the motion is traversed 1 + 2197/5610168 times too fast (C62)."
  },
  {
   "property": "C116",
   "status": "proved",
   "theorems": [
    "PyQ.C116_completes",
    "PyQ.C116_reaches",
    "PyQ.C116_newton",
    "PyQ.C116_moves"
   ],
   "note": "Over the reals. With rkf45, gamma is traversed 1 + 2197/5610168 times too fast (C62). Whether rkf45 can divide by a zero error estimate where thrust and perturbations hold all five slow elements still is left open: such instants are excluded by hypothesis."
  },
  {
   "property": "C117",
   "status": "proved",
   "theorems": [
    "PyQ.C117_limit",
    "PyQ.C117_exists"
   ],
   "note": "Over the reals. With rkf45, gamma is traversed 1 + 2197/5610168 times too fast (C62) while the mass falls at the true rate."
  },
  {
   "property": "C118",
   "status": "proved",
   "theorems": [
    "PyQ.C118_completes",
    "PyQ.C118_reaches"
   ],
   "note": "Over the reals, rk4. The code compares elapsed times with a strict inequality, so each phase of a run is up to one step longer than duty_on or duty_off; over any fixed time this shifts the cycle by a bounded number of steps and vanishes with h. Backwards in time the elapsed time is negative and the duty cycle never switches off, which C116 covers."
  },
  {
   "property": "C119",
   "status": "proved",
   "theorems": [
    "PyQ.C119_completes",
    "PyQ.C119_reaches"
   ],
   "note": "Over the reals, rk4, forward in time (backward runs with Sundman steps move forward, C31). At a true anomaly of exactly pi, where the real tangent of the half angle has no value, the model's step is that of some other anomaly; the bounds hold there too, as they do for any anomaly."
  },
  {
   "property": "C120",
   "status": "proved",
   "theorems": [
    "PyQ.C120_newton",
    "PyQ.C120_duty",
    "PyQ.C120_sundman",
    "PyQ.C120_package"
   ],
   "note": "Over the reals. Derivatives are taken from the right, since the velocity has a corner where the thruster is switched. With rkf45 the clock runs 1 + 2197/5610168 times too fast (C62)."
  },
  {
   "property": "C121",
   "status": "proved",
   "theorems": [
    "PyQ.C121_disturbed",
    "PyQ.C121_disturbed_reaches",
    "PyQ.C121_disturbed_newton",
    "PyQ.C121_duty",
    "PyQ.C121_duty_reaches",
    "PyQ.C121_sundman",
    "PyQ.C121_sundman_reaches",
    "PyQ.C121_newton",
    "PyQ.C121_exists"
   ],
   "note": "Over the reals, with sym.diff modelled as in C109. Limits as in C116, C118 and C119."
  },
  {
   "property": "C122",
   "status": "proved",
   "theorems": [
    "PyQ.C122_completes",
    "PyQ.C122_reaches"
   ],
   "note": "Over the reals, rk4. The step bound includes discharge_rate h <= 1e-12: with such steps the code's test `battery <= capacity[0] + 1e-12` ends a thrust phase before the step would have to be shortened, so the limiting cycle has the minimum level lo + 1e-12. The duty cycle's own off time must be shorter than the recharging time; otherwise it would delay the restart."
  },
  {
   "property": "C123",
   "status": "partial",
   "theorems": [
    "PyQ.C123_recharges_partial",
    "PyQ.C123_discharges",
    "PyQ.C123_drained"
   ],
   "note": "Proved for thresholds that are not positive and laws without NaN angles. Violated by the code otherwise: the battery update looks at the duty flag and not at the throttle, so every step that coasts because its effectivity is below a threshold drains the battery as if it thrust (proved for all such steps, with a run)."
  },
  {
   "property": "C124",
   "status": "partial",
   "theorems": [
    "PyQ.C124_budget_partial",
    "PyQ.C124_free",
    "PyQ.C124_unbounded",
    "PyQ.C124_overdrawn"
   ],
   "note": "Proved with require_full_recharge=True. Violated by the code otherwise: a depleted battery is charged for one step and then thrusts for a whole step again, with the level clipped at the minimum; 2m steps draw m discharge_rate t_step while m charge_rate t_step is supplied, for every m (proved for all such runs, with a witness)."
  },
  {
   "property": "C125",
   "status": "proved",
   "theorems": [
    "PyQ.C125_linear",
    "PyQ.C125_thrusting",
    "PyQ.C125_duty",
    "PyQ.C125_sundman",
    "PyQ.C125_battery"
   ],
   "note": "Over the reals. Stability of the scheme is a hypothesis, proved for linear interpolation; scipy's default quadratic spline is outside the repository and not modelled, whether it is stable is not claimed. Sundman steps need stability on every increasing mesh, fixed steps on uniform ones."
  },
  {
   "property": "C126",
   "status": "partial",
   "theorems": [
    "PyQ.C126_drawn_partial",
    "PyQ.C126_short",
    "PyQ.C126_empty",
    "PyQ.C126_no_steps",
    "PyQ.C126_single"
   ],
   "note": "Proved for at least 3 records and at least 2 evaluation times. Violated by the code otherwise: with fewer than 3 records scipy's quadratic interp1d raises ValueError (a run that converges in its first step is a witness); when the final time is below 0.005 in absolute value the default number of evaluation times is 0 and taking the first column is an IndexError; with one evaluation time the end marker is drawn at the start (witness: short backward runs)."
  },
  {
   "property": "C127",
   "status": "proved",
   "theorems": [
    "PyQ.C127_resume",
    "PyQ.C127_set_problem",
    "PyQ.C127_spice"
   ],
   "note": "Over the reals: in floating point the shifted times differ by rounding. The conditions are needed: two examples show that a resumed run restarts the count of relaxed convergences and the duty clock, neither of which is recorded. If the resumed run raises, exitcode keeps the -2 of the first run (C08)."
  },
  {
   "property": "C128",
   "status": "proved",
   "theorems": [
    "PyQ.C128_reverse",
    "PyQ.C128_cartesian",
    "PyQ.C128_perturbations",
    "PyQ.C128_pert",
    "PyQ.C128_k_weight",
    "PyQ.C128_rkf45"
   ],
   "note": "Over the reals. The conditions are needed: C128_k_weight shows that with a weight on k the MEE Q of the reversed orbit is 4/3 where the original has 12 (the denominator for k contains g without a square), and C128_rkf45 that rkf45 gives different results on y' = y forward and y' = -y backward because its stages are multiplied by the step twice (C62). With positive thresholds a backward run compares with the other extreme of dQ/dt."
  },
  {
   "property": "C129",
   "status": "proved",
   "theorems": [
    "PyQ.C129_retrograde",
    "PyQ.C129_cartesian",
    "PyQ.C129_perturbations"
   ],
   "note": "Over the reals. Keplerian elements only: the equinoctial elements used have no retrograde counterpart (they are singular at i = pi)."
  },
  {
   "property": "C130",
   "status": "proved",
   "theorems": [
    "PyQ.C130_sampled",
    "PyQ.C130_decision"
   ],
   "note": "Over the reals. Builds on C23_package (which values are recorded) with the rate being a Lipschitz function of the anomaly; for Keplerian elements with e > 0 and sin i nonzero, for MEE with f nonzero, where the entries of the Gauss matrix are defined."
  },
  {
   "property": "C131",
   "status": "proved",
   "theorems": [
    "PyQ.C131_comparable",
    "PyQ.C131_looser"
   ],
   "note": "Comparability for any arithmetic and any convergence check; the direction for the package's two checks under the order laws. Generalises C76 (time limit only)."
  },
  {
   "property": "C132",
   "status": "proved",
   "theorems": [
    "PyQ.C132_no_thrust",
    "PyQ.C132_verdict",
    "PyQ.C132_ends",
    "PyQ.C132_masked",
    "PyQ.C132_start"
   ],
   "note": "NaN propagation is assumed of + - * / neg, integer powers, sqrt, sin, cos, arccos and arctan2 only. The masking of NaN by elements_safety (C132_masked, C132_start) follows from Python's max and min, which keep their first argument when the comparison with NaN is false; numba compiles them the same way."
  },
  {
   "property": "C133",
   "status": "proved",
   "theorems": [
    "PyQ.C133_uncut",
    "PyQ.C133_until_cut"
   ],
   "note": "A raising threshold function or a raising evaluation of the sampled rates is outside: the run with thresholds is assumed to complete."
  },
  {
   "property": "C134",
   "status": "proved",
   "theorems": [
    "PyQ.C134_battery",
    "PyQ.C134_sufficient"
   ],
   "note": "The general comparison needs no arithmetic law; C134_sufficient compares with a battery that starts above its minimum and has zero rates (the default of set_problem is one)."
  },
  {
   "property": "C135",
   "status": "proved",
   "theorems": [
    "PyQ.C135_same",
    "PyQ.C135_printed",
    "PyQ.C135_stale"
   ],
   "note": "C135_stale shows why the object has to be fresh: after a run that converged, a run that breaks for its mass prints both messages (see C08). Formatting of the numbers is not modelled."
  },
  {
   "property": "C136",
   "status": "proved",
   "theorems": [
    "PyQ.C136_duty",
    "PyQ.C136_within"
   ],
   "note": ""
  },
  {
   "property": "C137",
   "status": "proved",
   "theorems": [
    "PyQ.C137_consulted",
    "PyQ.C137_until"
   ],
   "note": "Callables are functions of their arguments: what a callable with internal state returns at its k-th call is not modelled."
  },
  {
   "property": "C138",
   "status": "proved",
   "theorems": [
    "PyQ.C138_rk4",
    "PyQ.C138_rkf45",
    "PyQ.C138_bounds",
    "PyQ.C138_grid",
    "PyQ.C138_b_petro",
    "PyQ.C138_penalty"
   ],
   "note": "With rkf45 the settings of the step control enter only the battery level (see C32). Zero wp over the reals: in floating point an overflowing penalty gives 0 * inf = NaN."
  },
  {
   "property": "C139",
   "status": "partial",
   "theorems": [
    "PyQ.C139_turned",
    "PyQ.C139_quotient_partial",
    "PyQ.C139_control_partial",
    "PyQ.C139_check_partial",
    "PyQ.C139_differs",
    "PyQ.C139_check_differs"
   ],
   "note": "Proved for equal weights on f and g and none on h and k (thrust vector and dQ/dt with f > 0 in both descriptions); the convergence check up to a factor sqrt 2 of the tolerance. Violated in general, with witnesses for Q and for the check. Keplerian runs do not depend on the direction (C83)."
  },
  {
   "property": "C140",
   "status": "partial",
   "theorems": [
    "PyQ.C140_quotient",
    "PyQ.C140_thrust_partial",
    "PyQ.C140_differs"
   ],
   "note": "The quotients agree on every ellipse; thrust vector and dQ/dt agree for f > 0. For f < 0 the thrust vectors are proved to differ wherever the derivative of Q by the semi-major axis is not zero. With an odd n_petro the Keplerian scaling changes sign below the target and the MEE scaling does not."
  },
  {
   "property": "C141",
   "status": "proved",
   "theorems": [
    "PyQ.C141_no_thrust",
    "PyQ.C141_scale",
    "PyQ.C141_ends"
   ],
   "note": "As stated. What ** does with the two exponents is a hypothesis on the arithmetic (FracPowers), shown to hold with n_petro = 7/2 in the arithmetic of the example."
  },
  {
   "property": "C142",
   "status": "proved",
   "theorems": [
    "PyQ.C142_candidate",
    "PyQ.C142_lowered",
    "PyQ.C142_sharp"
   ],
   "note": "C40, C41, C95 and the statements about runs built on them admit a whole n_petro with m_petro >= 1 as well as an even n_petro."
  }
 ]
}