{
 "claims": [
  {
   "property": "C01",
   "status": "proved",
   "theorems": [
    "Kep3.Epoch.C01_julian_roundtrip",
    "Kep3.Epoch.C01_julian_roundtrip_exact",
    "Kep3.Epoch.C01_julian_offsets",
    "Kep3.Epoch.C01_julian_defined",
    "Kep3.Epoch.C01_julian_reference_dates"
   ],
   "note": ""
  },
  {
   "property": "C02",
   "status": "proved",
   "theorems": [
    "Kep3.Epoch.C02_order",
    "Kep3.Epoch.C02_order_diff",
    "Kep3.Epoch.C02_add_sub_cancel",
    "Kep3.Epoch.C02_sub_add_cancel",
    "Kep3.Epoch.C02_add_add",
    "Kep3.Epoch.C02_overflow",
    "Kep3.Epoch.C02_serialize"
   ],
   "note": ""
  },
  {
   "property": "C03",
   "status": "proved",
   "theorems": [
    "Kep3.Epoch.C03_calendar",
    "Kep3.Epoch.C03_monotone",
    "Kep3.Epoch.C03_no_ub"
   ],
   "note": ""
  },
  {
   "property": "C04",
   "status": "proved",
   "theorems": [
    "Kep3.Epoch.C04_print_parse",
    "Kep3.Epoch.C04_print_injective",
    "Kep3.Epoch.C04_range"
   ],
   "note": ""
  },
  {
   "property": "C05",
   "status": "proved",
   "theorems": [
    "Kep3.Epoch.C05_parse",
    "Kep3.Epoch.C05_reject_length",
    "Kep3.Epoch.C05_no_ub"
   ],
   "note": ""
  },
  {
   "property": "C06",
   "status": "partial",
   "theorems": [
    "Kep3.Epoch.C06_accepts_nonexistent_date",
    "Kep3.Epoch.C06_accepts_month_257",
    "Kep3.Epoch.C06_validation_partial",
    "Kep3.Epoch.C06_rejects_year"
   ],
   "note": "False in the code: C06_accepts_nonexistent_date and C06_accepts_month_257 are negation witnesses; C06_validation_partial gives exactly what is accepted."
  },
  {
   "property": "C07",
   "status": "partial",
   "theorems": [
    "Kep3.Epoch.C07_duration_not_from_mjd2000",
    "Kep3.Epoch.C07_duration_partial"
   ],
   "note": "False in the code for every duration (C07_duration_not_from_mjd2000); C07_duration_partial gives the constant error."
  },
  {
   "property": "C08",
   "status": "proved",
   "theorems": [
    "Kep3.C08_getters",
    "Kep3.C08_period",
    "Kep3.C08_elements",
    "Kep3.C08_python"
   ],
   "note": ""
  },
  {
   "property": "C09",
   "status": "proved",
   "theorems": [
    "Kep3.C09_rows",
    "Kep3.C09_err",
    "Kep3.C09_ok"
   ],
   "note": ""
  },
  {
   "property": "C10",
   "status": "proved",
   "theorems": [
    "Kep3.C10_kepler",
    "Kep3.C10_returns",
    "Kep3.C10_planet"
   ],
   "note": ""
  },
  {
   "property": "C11",
   "status": "partial",
   "theorems": [
    "Kep3.C11_hyperbola",
    "Kep3.C11_small_ellipse_refused",
    "Kep3.C11_refused_iff",
    "Kep3.C11_ellipse_partial",
    "Kep3.C11_read_back"
   ],
   "note": "C11_ellipse_partial proves it for semi-major axes of at least 1 (in the unit of the position), C11_hyperbola for hyperbolas. False for smaller ellipses, which are refused because the test compares the semi-major axis with 1 (C11_small_ellipse_refused, C11_refused_iff)."
  },
  {
   "property": "C12",
   "status": "proved",
   "theorems": [
    "Kep3.C12_ellipse",
    "Kep3.C12_hyperbola",
    "Kep3.C12_gudermannian"
   ],
   "note": ""
  },
  {
   "property": "C13",
   "status": "proved",
   "theorems": [
    "Kep3.C13_elliptic",
    "Kep3.C13_hyperbolic"
   ],
   "note": ""
  },
  {
   "property": "C14",
   "status": "proved",
   "theorems": [
    "Kep3.C14_mean_anomaly_bijective",
    "Kep3.C14_m2e",
    "Kep3.C14_m2e_e2m",
    "Kep3.C14_m2f_f2m",
    "Kep3.C14_n2h",
    "Kep3.C14_n2h_bracket_misses",
    "Kep3.C14_n2f_f2n",
    "Kep3.C14_error_only_from_solver"
   ],
   "note": "Root finder as a parameter, assumed to return a zero in its bracket when there is one and it has not used 100 iterations (Solver.Sound). Hyperbola: C14_n2h for N spanned by the bracket, C14_n2h_bracket_misses outside."
  },
  {
   "property": "C15",
   "status": "partial",
   "theorems": [
    "Kep3.C15_kepE",
    "Kep3.C15_kepH",
    "Kep3.C15_kepDE",
    "Kep3.C15_kepDH",
    "Kep3.C15_kepDS_partial",
    "Kep3.C15_dd_kepDS_wrong"
   ],
   "note": "Proved for kepE, kepH, kepDE, kepDH (first and second derivatives) and the first derivative of kepDS. False for the second derivative dd_kepDS (C15_dd_kepDS_wrong)."
  },
  {
   "property": "C16",
   "status": "proved",
   "theorems": [
    "Kep3.C16_round_trip"
   ],
   "note": ""
  },
  {
   "property": "C17",
   "status": "proved",
   "theorems": [
    "Kep3.C17_rejects",
    "Kep3.C17_orbit",
    "Kep3.C17_boundary_no_number"
   ],
   "note": ""
  },
  {
   "property": "C18",
   "status": "proved",
   "theorems": [
    "Kep3.C18_par_eq_par",
    "Kep3.C18_eq_par_eq"
   ],
   "note": ""
  },
  {
   "property": "C19",
   "status": "proved",
   "theorems": [
    "Kep3.C19_round_trip"
   ],
   "note": ""
  },
  {
   "property": "C20",
   "status": "proved",
   "theorems": [
    "Kep3.C20_same_state",
    "Kep3.C20_positive_axis"
   ],
   "note": ""
  },
  {
   "property": "C21",
   "status": "proved",
   "theorems": [
    "Kep3.C21_conserved",
    "Kep3.C21_returns"
   ],
   "note": "Non-radial motion; hyperbolas up to mean anomaly differences of 10^10 (HypRange: the code searches a bracket of length 100). Root finder as a parameter (Solver.Sound)."
  },
  {
   "property": "C22",
   "status": "proved",
   "theorems": [
    "Kep3.C22_solution",
    "Kep3.C22_unique",
    "Kep3.C22_zero",
    "Kep3.C22_ellipse"
   ],
   "note": "Same conditions as C21. C22_unique quantifies over every solution of the equations of motion."
  },
  {
   "property": "C23",
   "status": "proved",
   "theorems": [
    "Kep3.C23_compose",
    "Kep3.C23_there_and_back",
    "Kep3.C23_periodic"
   ],
   "note": "Same conditions as C21."
  },
  {
   "property": "C24",
   "status": "partial",
   "theorems": [
    "Kep3.C24_v_ok",
    "Kep3.C24_v_err",
    "Kep3.C24_keplerian_ellipse_partial",
    "Kep3.C24_keplerian_hyperbola_partial",
    "Kep3.C24_keplerian_returns_partial",
    "Kep3.C24_universal_partial",
    "Kep3.C24_universal_ellipse_partial",
    "Kep3.C24_universal_misses",
    "Kep3.C24_universal_misses_si",
    "Kep3.C24_keplerian_equatorial",
    "Kep3.C24_stm_flag"
   ],
   "note": "Vectorised entry point proved for all inputs. propagate_keplerian: proved for inclined non-circular orbits away from apocentre (the tangent of half the anomaly has no value there); gives no number for equatorial orbits (C24_keplerian_equatorial). propagate_lagrangian_u: proved when the root is in its bracket of half-width 2 pi, which depends on the units (C24_universal_*_partial); false otherwise (C24_universal_misses, C24_universal_misses_si: a low Earth orbit in SI units)."
  },
  {
   "property": "C25",
   "status": "proved",
   "theorems": [
    "Kep3.C25_jacobian",
    "Kep3.C25_propagator",
    "Kep3.C25_returns",
    "Kep3.C25_identity",
    "Kep3.C25_compose",
    "Kep3.C25_variational",
    "Kep3.C25_symplectic",
    "Kep3.C25_reynolds"
   ],
   "note": ""
  },
  {
   "property": "C26",
   "status": "proved",
   "theorems": [
    "Kep3.C26_rotation",
    "Kep3.C26_cone",
    "Kep3.C26_parallel"
   ],
   "note": ""
  },
  {
   "property": "C27",
   "status": "proved",
   "theorems": [
    "Kep3.C27_constraints",
    "Kep3.C27_vout"
   ],
   "note": ""
  },
  {
   "property": "C28",
   "status": "proved",
   "theorems": [
    "Kep3.C28_minimum",
    "Kep3.C28_bounds",
    "Kep3.C28_zero"
   ],
   "note": ""
  },
  {
   "property": "C29",
   "status": "partial",
   "theorems": [
    "Kep3.C29_physical_partial",
    "Kep3.C29_silent",
    "Kep3.C29_no_radius"
   ],
   "note": "False in the code: a planet that defines neither gives the number of a planet with mu = radius = 1 (C29_silent), one without safe radius gives a number as well (C29_no_radius). C29_physical_partial proves the first half for planets that define both."
  },
  {
   "property": "C30",
   "status": "proved",
   "theorems": [
    "Kep3.Lambert.C30_rejects",
    "Kep3.Lambert.C30_accepts",
    "Kep3.Lambert.C30_shape",
    "Kep3.Lambert.C30_collinear",
    "Kep3.Lambert.C30_overflow",
    "Kep3.Lambert.C30_example"
   ],
   "note": "In exact arithmetic. Outside of the statement: positions aligned with the centre are not rejected and give velocities that are not numbers (C30_collinear), and a time of flight of 2^32 half-turns or more is undefined behaviour even for zero revolutions (C30_overflow)."
  },
  {
   "property": "C31",
   "status": "proved",
   "theorems": [
    "Kep3.Lambert.C31_orbit",
    "Kep3.Lambert.C31_energy"
   ],
   "note": "For every solution whose iteration variable is a number, whatever its value."
  },
  {
   "property": "C32",
   "status": "partial",
   "theorems": [
    "Kep3.Lambert.C32_formulas",
    "Kep3.Lambert.C32_x2tof",
    "Kep3.Lambert.C32_parabola",
    "Kep3.Lambert.C32_jump",
    "Kep3.Lambert.C32_example"
   ],
   "note": "Lagrange and Lancaster agree exactly and dTdx returns the derivatives of that function everywhere (C32_formulas); the series next to the parabola is within 1e-10 (C32_x2tof). False in two places: no value at x = 1 (C32_parabola), and with revolutions the formulas differ on the hyperbolic side (C32_jump)."
  },
  {
   "property": "C33",
   "status": "proved",
   "theorems": [
    "Kep3.Lambert.C33_flies",
    "Kep3.Lambert.C33_arrives",
    "Kep3.Lambert.C33_error",
    "Kep3.Lambert.C33_fixpoint",
    "Kep3.Lambert.C33_convergence",
    "Kep3.Lambert.C33_example",
    "Kep3.Lambert.C33_propagator"
   ],
   "note": "Exact roots: C33_arrives, C33_propagator (by the code's own propagator); any other value: C33_error bounds the error in time by the residual; C33_convergence: the iterations converge near a simple root. Global convergence of the iterations is not claimed."
  },
  {
   "property": "C34",
   "status": "partial",
   "theorems": [
    "Kep3.C34_names",
    "Kep3.C34_physical",
    "Kep3.C34_dates",
    "Kep3.C34_dates_double"
   ],
   "note": "Names: proved, C34_names (pluto, the tenth entry of the map, is refused with another error). Dates: C34_dates refuses all real dates outside of the interval, C35_ellipse returns values inside of it; on doubles a NaN date is not refused (C34_dates_double)."
  },
  {
   "property": "C35",
   "status": "proved",
   "theorems": [
    "Kep3.C35_ellipse",
    "Kep3.C35_earth_inclination"
   ],
   "note": "For root finders that converge (Solver.Sound, Solver.Quick). The result is a number unless the planet is exactly at its apocentre, where the exact tangent of the half anomaly has no value. C35_earth_inclination records that the Earth's inclination is negative."
  },
  {
   "property": "C36",
   "status": "partial",
   "theorems": [
    "Kep3.C36_validation_kepF",
    "Kep3.C36_validation_kepM",
    "Kep3.C36_validation_posvel",
    "Kep3.C36_kepF",
    "Kep3.C36_kepM",
    "Kep3.C36_meq_partial",
    "Kep3.C36_state",
    "Kep3.C36_meq_hyperbola_refused",
    "Kep3.C36_meq_degenerate",
    "Kep3.C36_negative_eccentricity",
    "Kep3.C36_period",
    "Kep3.C36_meq_semilatus"
   ],
   "note": "Proved for the types KEP_F, KEP_M (not at the apocentre, where the exact true anomaly conversion has no value) and for states; for MEQ and MEQ_R on orbits with f < 1 that are neither circular nor equatorial (C36_meq_partial). False otherwise: C36_meq_hyperbola_refused (the test a(1-e) <= 0 is applied to p and f), C36_meq_degenerate (circular and equatorial orbits accepted without a state), C36_negative_eccentricity. C36_meq_semilatus: equinoctial elements with p <= 0 are refused, whatever the others are."
  },
  {
   "property": "C37",
   "status": "proved",
   "theorems": [
    "Kep3.C37_flow",
    "Kep3.C37_flow_exists",
    "Kep3.C37_reference",
    "Kep3.C37_periodic"
   ],
   "note": ""
  },
  {
   "property": "C38",
   "status": "proved",
   "theorems": [
    "Kep3.Cache.C38_validation",
    "Kep3.Cache.C38_function",
    "Kep3.Cache.C38_share",
    "Kep3.Cache.C38_threads",
    "Kep3.Cache.C38_eph",
    "Kep3.Cache.C38_example"
   ],
   "note": "Interleaving semantics of any number of threads; heyoka's compilation is a parameter. C38_eph assumes the compiled function evaluates the expression it was compiled from."
  },
  {
   "property": "C39",
   "status": "proved",
   "theorems": [
    "Kep3.Cache.C39_request",
    "Kep3.Cache.C39_same",
    "Kep3.Cache.C39_size",
    "Kep3.Cache.C39_dim",
    "Kep3.Cache.C39_stable",
    "Kep3.Cache.C39_example"
   ],
   "note": "heyoka's constructor is a parameter assumed to reject a NaN tolerance (nan_not_found shows why it is needed). Reported sizes are proved for the two functions that take the right mutex; for the variational ones C40_race applies."
  },
  {
   "property": "C40",
   "status": "partial",
   "theorems": [
    "Kep3.Cache.C40_race_free_partial",
    "Kep3.Cache.C40_progress",
    "Kep3.Cache.C40_race"
   ],
   "note": "The full claim is false: C40_race (the two variational size functions lock the wrong mutex). C40_race_free_partial: no race on the other maps, and none at all without those two functions; C40_progress: no deadlock."
  },
  {
   "property": "C41",
   "status": "proved",
   "theorems": [
    "Kep3.Stark.C41_history",
    "Kep3.Stark.C41_mass",
    "Kep3.Stark.C41_result",
    "Kep3.Stark.C41_sensitivities",
    "Kep3.Stark.C41_example"
   ],
   "note": "heyoka's integrators are parameters; C41_sensitivities assumes that they follow the flow and its partial derivatives."
  },
  {
   "property": "C42",
   "status": "partial",
   "theorems": [
    "Kep3.SF.C42_constructor",
    "Kep3.SF.C42_constructor_stores",
    "Kep3.SF.C42_invariant_partial",
    "Kep3.SF.C42_throwing_call_changes_nothing",
    "Kep3.SF.C42_set_accepts_anything",
    "Kep3.SF.C42_set_accepts_invalid",
    "Kep3.SF.C42_nan_accepted",
    "Kep3.SF.C42_constructor_cut_unchecked"
   ],
   "note": "Constructor, strong exception guarantee and the invariant over all individual setters are proved; for archives see C69. The full claim is false for the member set(), which validates the old members instead of its arguments (C42_set_accepts_anything, C42_set_accepts_invalid), for NaN (C42_nan_accepted) and for a cut <= -1 or huge, cast to unsigned before being checked (C42_constructor_cut_unchecked)."
  },
  {
   "property": "C43",
   "status": "proved",
   "theorems": [
    "Kep3.SF.C43_kepler",
    "Kep3.SF.C43_kepler_iff",
    "Kep3.SF.C43_mismatch_zero_iff_flyable"
   ],
   "note": "C43_kepler and C43_kepler_iff are about the propagator of the code (propagate_lagrangian with an accurate root finder) at visited states that are neither radial nor parabolic and, on hyperbolas, within the search interval."
  },
  {
   "property": "C44",
   "status": "proved",
   "theorems": [
    "Kep3.SF.C44_each_throttle_once"
   ],
   "note": ""
  },
  {
   "property": "C45",
   "status": "proved",
   "theorems": [
    "Kep3.SF.C45_throttle_constraints",
    "Kep3.SF.C45_tc_grad_is_jacobian"
   ],
   "note": ""
  },
  {
   "property": "C46",
   "status": "proved",
   "theorems": [
    "Kep3.SF.C46_rocket_equation",
    "Kep3.SF.C46_mass_monotone"
   ],
   "note": ""
  },
  {
   "property": "C47",
   "status": "proved",
   "theorems": [
    "Kep3.SF.C47_kepler",
    "Kep3.SF.C47_mc_grad"
   ],
   "note": "C47_kepler discharges the hypotheses on the propagator for propagate_lagrangian, at visited states that are neither radial nor parabolic and, on hyperbolas, within the search interval."
  },
  {
   "property": "C48",
   "status": "partial",
   "theorems": [
    "Kep3.HF.C48_faithful_partial",
    "Kep3.HF.C48_integrators_never_updated",
    "Kep3.HF.C48_set_mu_stale",
    "Kep3.HF.C48_set_isp_stale",
    "Kep3.HF.C48_set_tol_stale",
    "Kep3.HF.C48_set_max_thrust_stale"
   ],
   "note": "False in the code: C48_set_mu_stale, C48_set_isp_stale, C48_set_tol_stale, C48_set_max_thrust_stale (setters do not update the integrators / the thrusts), C48_integrators_never_updated. C48_faithful_partial proves it for every history of the calls that do not touch these parameters."
  },
  {
   "property": "C49",
   "status": "partial",
   "theorems": [
    "Kep3.HF.C49_setters_partial",
    "Kep3.HF.C49_set4_failed_keeps_arguments",
    "Kep3.HF.C49_set_failed_keeps_arguments",
    "Kep3.HF.C49_setRv_failed_keeps_arguments",
    "Kep3.HF.C49_failed_set_then_ub"
   ],
   "note": "Proved for the individual setters (C49_setters_partial). False for the three set members, which keep rejected arguments (C49_set*_failed_keeps_arguments), after which the leg can run into undefined behaviour (C49_failed_set_then_ub)."
  },
  {
   "property": "C50",
   "status": "partial",
   "theorems": [
    "Kep3.HF.C50_history_partial",
    "Kep3.HF.C50_one_segment_ub"
   ],
   "note": "C50_history_partial proves it for nseg >= 2. For one segment the code reads an element that does not exist: C50_one_segment_ub."
  },
  {
   "property": "C51",
   "status": "proved",
   "theorems": [
    "Kep3.HF.C51_assembly"
   ],
   "note": ""
  },
  {
   "property": "C52",
   "status": "partial",
   "theorems": [
    "Kep3.Mga.C52_direct_alpha",
    "Kep3.Mga.C52_direct_alpha_range",
    "Kep3.Mga.C52_alpha_times",
    "Kep3.Mga.C52_alpha_direct_iff",
    "Kep3.Mga.C52_alpha_not_injective",
    "Kep3.Mga.C52_eta_direct",
    "Kep3.Mga.C52_direct_eta",
    "Kep3.Mga.C52_eta_times",
    "Kep3.Mga.C52_direct_eta_range",
    "Kep3.Mga.C52_decode"
   ],
   "note": "direct to alpha to direct, both directions of eta and the ranges are proved; alpha to direct to alpha is the identity exactly on chromosomes whose logarithms add up to -1 (C52_alpha_direct_iff), and different alpha chromosomes have the same times (C52_alpha_not_injective): for alpha the claim of mutual inverses is false in the code."
  },
  {
   "property": "C53",
   "status": "partial",
   "theorems": [
    "Kep3.Mga.C53_accepts_partial",
    "Kep3.Mga.C53_errors",
    "Kep3.Mga.C53_nobj",
    "Kep3.Mga.C53_bounds_partial",
    "Kep3.Mga.C53_alpha_anything",
    "Kep3.Mga.C53_launch_reversed",
    "Kep3.Mga.C53_one_date",
    "Kep3.Mga.C53_eta_string",
    "Kep3.Mga.C53_caller_list"
   ],
   "note": "C53_accepts_partial and C53_bounds_partial characterise what the constructor accepts and the bounds it gives. False in the code: the order and number of the launch dates and the contents of the alpha tof are unchecked, and the eta tof may be a numeric string (four negations). C53_caller_list: the caller's t0 list is overwritten."
  },
  {
   "property": "C54",
   "status": "partial",
   "theorems": [
    "Kep3.Mga.C54_select",
    "Kep3.Mga.C54_continuous_partial",
    "Kep3.Mga.C54_example"
   ],
   "note": "C54_select (rejection, leg, exactly one leg) has no hypothesis on the legs beyond their velocity being a number. Continuity needs each leg to be a transfer (exact root of the Lambert iteration) that is not a parabola; on a parabola the solver returns NaN (Lambert.C63_parabola)."
  },
  {
   "property": "C55",
   "status": "proved",
   "theorems": [
    "Kep3.Direct.P2P.C55_kepler",
    "Kep3.Direct.P2P.C55_gradient",
    "Kep3.Direct.P2P.C55_dimensions",
    "Kep3.Direct.P2P.C55_bounds",
    "Kep3.Direct.P2P.C55_fitness",
    "Kep3.Direct.P2P.C55_example"
   ],
   "note": "Gradient theorem at vectors with positive final mass and time of flight and without zero throttle vectors (where compute_mc_grad divides by zero), for every reversible propagator with its state transition matrix at the visited states; three scalings non-zero; fewer than 2^32 throttles. C55_kepler discharges the hypotheses on the propagator for propagate_lagrangian."
  },
  {
   "property": "C56",
   "status": "proved",
   "theorems": [
    "Kep3.Direct.Pl2Pl.C56_kepler",
    "Kep3.Direct.Pl2Pl.C56_gradient",
    "Kep3.Direct.Pl2Pl.C56_dimensions",
    "Kep3.Direct.Pl2Pl.C56_bounds",
    "Kep3.Direct.Pl2Pl.C56_fitness",
    "Kep3.Direct.Pl2Pl.C56_example"
   ],
   "note": "As C55; the entries for the launch epoch and the time of flight are derivatives when the planets' velocity is the derivative of their position and their acceleration is the central one of the leg's mu, which is what the code comment assumes. C56_kepler discharges these hypotheses for propagate_lagrangian and Keplerian planets about the same body."
  },
  {
   "property": "C57",
   "status": "partial",
   "theorems": [
    "Kep3.PyConst.C57_constants_partial",
    "Kep3.PyConst.C57_cpp",
    "Kep3.PyConst.C57_deg2rad",
    "Kep3.PyConst.C57_days",
    "Kep3.PyConst.C57_earth_velocity"
   ],
   "note": "All exported constants but DEG2RAD; DEG2RAD is exported with the value of RAD2DEG (C57_deg2rad, negation)."
  },
  {
   "property": "C58",
   "status": "partial",
   "theorems": [
    "Kep3.SF.C58_cut_matters",
    "Kep3.SF.C58_ballistic_cut_free_partial"
   ],
   "note": "False in the code: C58_cut_matters. C58_ballistic_cut_free_partial proves it for legs without burns."
  },
  {
   "property": "C59",
   "status": "partial",
   "theorems": [
    "Kep3.HF.C59_mismatch_partial",
    "Kep3.HF.C59_gradients_partial",
    "Kep3.HF.C59_gradients_use_defaults",
    "Kep3.HF.C59_roundtrip_changes_gradients"
   ],
   "note": "Mismatch proved; gradients only if the integrator had the default parameters; C59_roundtrip_changes_gradients is the negation witness."
  },
  {
   "property": "C60",
   "status": "proved",
   "theorems": [
    "Kep3.HF.C60_chromosome",
    "Kep3.HF.C60_short_chromosome",
    "Kep3.HF.C60_constraints_shape",
    "Kep3.PyAttr.C60_result"
   ],
   "note": ""
  },
  {
   "property": "C61",
   "status": "partial",
   "theorems": [
    "Kep3.HF.C61_gradient_wrt_thrusts",
    "Kep3.HF.C61_mc_grad_partial",
    "Kep3.HF.C61_missing_factor",
    "Kep3.HF.C61_witness"
   ],
   "note": "State and time-of-flight blocks proved; throttle columns only for max_thrust = 1 (C61_mc_grad_partial). C61_missing_factor is the negation; C61_gradient_wrt_thrusts says what the columns are instead. Assumes integrators that return the exact flow and sensitivities."
  },
  {
   "property": "C62",
   "status": "proved",
   "theorems": [
    "Kep3.HF.C62_tc_grad"
   ],
   "note": ""
  },
  {
   "property": "C63",
   "status": "partial",
   "theorems": [
    "Kep3.Lambert.C63_unique",
    "Kep3.Lambert.C63_solver",
    "Kep3.Lambert.C63_parabola"
   ],
   "note": "Existence, uniqueness and agreement with the solver at roots proved. The solver fails at the parabola (C63_parabola). That the iterations do end at a root is proved only near it (C33_convergence)."
  },
  {
   "property": "C64",
   "status": "partial",
   "theorems": [
    "Kep3.Lambert.C64_revolutions_partial",
    "Kep3.Lambert.C64_spurious",
    "Kep3.Lambert.C64_nmax"
   ],
   "note": "False in the code: C64_spurious. C64_nmax proves that exactly the numbers of revolutions that have a transfer are reported if the Halley iterations end closer to the minimum than the time of flight is to it; C64_revolutions_partial proves two transfers for all numbers of revolutions but the largest possible one."
  },
  {
   "property": "C65",
   "status": "proved",
   "theorems": [
    "Kep3.Stark.C65_jacobi",
    "Kep3.Stark.C65_mass",
    "Kep3.Stark.C65_power",
    "Kep3.Stark.C65_coast",
    "Kep3.Stark.C65_leg",
    "Kep3.Stark.C65_coast_example",
    "Kep3.Stark.C65_jacobi_example",
    "Kep3.Stark.C65_mass_example",
    "Kep3.Stark.C65_momentum",
    "Kep3.Stark.C65_torque",
    "Kep3.Stark.C65_rocket"
   ],
   "note": "Exact real arithmetic; solutions on a time span. C65_momentum, C65_torque and C65_rocket add Newton's second law with variable mass, the torque of the thrust and the rocket equation."
  },
  {
   "property": "C66",
   "status": "proved",
   "theorems": [
    "Kep3.Mga.C66_encoding",
    "Kep3.Mga.C66_objectives",
    "Kep3.Mga.C66_example",
    "Kep3.Mga.C66_insertion"
   ],
   "note": ""
  },
  {
   "property": "C67",
   "status": "proved",
   "theorems": [
    "Kep3.Epoch.C67_roundtrip",
    "Kep3.Epoch.C67_roundtrip_far",
    "Kep3.Epoch.C67_jd",
    "Kep3.Epoch.C67_write",
    "Kep3.Epoch.C67_monotone",
    "Kep3.Epoch.C67_strict",
    "Kep3.Epoch.C67_half_days",
    "Kep3.Epoch.C67_loses",
    "Kep3.Epoch.C67_jd_reached",
    "Kep3.Epoch.C67_collide"
   ],
   "note": "Rounding to 53 bits, nearest even; overflow and subnormal doubles not modelled. The losses are shown to occur: C67_loses, C67_jd_reached, C67_collide."
  },
  {
   "property": "C68",
   "status": "partial",
   "theorems": [
    "Kep3.Epoch.C68_add_days",
    "Kep3.Epoch.C68_sub_days",
    "Kep3.Epoch.C68_timedelta_partial",
    "Kep3.Epoch.C68_timedelta_sub",
    "Kep3.Epoch.C68_seconds",
    "Kep3.Epoch.C68_loses",
    "Kep3.Epoch.C68_datetime_partial",
    "Kep3.Epoch.C68_aware"
   ],
   "note": "Proved: days, within one microsecond for timedeltas below 2^53 microseconds, exact for whole seconds, exact for naive datetimes. Missing because false in the code: exactness of timedeltas (C68_loses) and aware datetimes (C68_aware). How pybind11 converts a timedelta (double seconds) is trusted."
  },
  {
   "property": "C69",
   "status": "partial",
   "theorems": [
    "Kep3.Archive.C69_epoch",
    "Kep3.Archive.C69_lambert",
    "Kep3.Archive.C69_stark",
    "Kep3.Archive.C69_sims_flanagan",
    "Kep3.Archive.C69_hf_partial",
    "Kep3.Archive.C69_hf_loses",
    "Kep3.Archive.C69_planet_partial",
    "Kep3.Archive.C69_python_planet",
    "Kep3.Archive.C69_bad_state"
   ],
   "note": "Proved for epochs, Lambert and Stark problems, Sims-Flanagan legs and planets of C++ classes. Missing because false in the code: high-fidelity legs lose the variational integrator (C69_hf_loses) and planets made from Python objects cannot be saved (C69_python_planet). Boost and heyoka are trusted for single values (Codec laws); archive headers and object tracking are left out."
  },
  {
   "property": "C70",
   "status": "partial",
   "theorems": [
    "Kep3.PyPlanet.C70_construct",
    "Kep3.PyPlanet.C70_construct_errors",
    "Kep3.PyPlanet.C70_extract_partial",
    "Kep3.PyPlanet.C70_object",
    "Kep3.PyPlanet.C70_derived",
    "Kep3.PyPlanet.C70_is",
    "Kep3.PyPlanet.C70_deepcopy",
    "Kep3.PyPlanet.C70_eph_v_defined",
    "Kep3.PyPlanet.C70_eph_v_out_of_bounds",
    "Kep3.PyPlanet.C70_eph_v"
   ],
   "note": "Proved: construction, extraction outside object and derived classes, is_, rows of eph_v. Missing because false in the code: extract(object) (C70_object), derived classes (C70_derived), independence of deep copies of Python planets (C70_deepcopy is an equivalence), short arrays (C70_eph_v_out_of_bounds). Overload resolution of pybind11 is trusted."
  },
  {
   "property": "C71",
   "status": "partial",
   "theorems": [
    "Kep3.C71_getters",
    "Kep3.C71_state",
    "Kep3.C71_elements",
    "Kep3.C71_value",
    "Kep3.C71_tle_date",
    "Kep3.C71_tle_rows",
    "Kep3.C71_tle_silent",
    "Kep3.C71_spice_epoch",
    "Kep3.C71_spice_rows",
    "Kep3.C71_spice_parameters",
    "Kep3.Kernels.C71_kernel_partial",
    "Kep3.Kernels.C71_kernel_lost",
    "Kep3.C71_no_state"
   ],
   "note": "Proved: conversion to Keplerian planets, dates and rows of TLE and SPICE ephemerides. Missing because false in the code: errors of sgp4 (C71_tle_silent), parameters of SPICE planets (C71_spice_parameters), kernels after copies (C71_kernel_lost; without copies C71_kernel_partial). The libraries sgp4 and SPICE are parameters: their array functions are assumed to agree with the scalar ones, and SPICE to count loads. C71_no_state: the Keplerian version of a planet without a state has no elements and no period."
  },
  {
   "property": "C72",
   "status": "partial",
   "theorems": [
    "Kep3.Plot.C72_flow",
    "Kep3.Plot.C72_reached",
    "Kep3.Plot.C72_function",
    "Kep3.Plot.C72_beyond"
   ],
   "note": "Proved for all angles reached by the motion (C72_flow, C72_reached). Missing because false in the code: angles beyond the asymptotes (C72_beyond). Exact real arithmetic."
  },
  {
   "property": "C73",
   "status": "partial",
   "theorems": [
    "Kep3.Plot.C73_direct",
    "Kep3.Plot.C73_revolutions",
    "Kep3.Plot.C73_clockwise",
    "Kep3.Plot.C73_errors",
    "Kep3.Plot.C73_solver"
   ],
   "note": "Proved for counterclockwise transfers and for all transfers with complete revolutions. Missing because false in the code: clockwise transfers (C73_clockwise). Exact real arithmetic; positions not aligned with the centre."
  },
  {
   "property": "C74",
   "status": "partial",
   "theorems": [
    "Kep3.Plot.C74_arc",
    "Kep3.Plot.C74_leg",
    "Kep3.Plot.C74_no_midpoints",
    "Kep3.Plot.C74_hf_forward",
    "Kep3.Plot.C74_hf_backward",
    "Kep3.Plot.C74_solar",
    "Kep3.Plot.C74_neptune"
   ],
   "note": "Proved for ballistic arcs, for legs drawn without mid-points and throttles or with both halves non-empty, for the forward arrows of high-fidelity legs, and for all bodies but Neptune. Missing because false in the code: cut 0 or 1 with mid-points or throttles (C74_no_midpoints), backward arrows of high-fidelity legs unless palindromic (C74_hf_backward), Neptune (C74_neptune). Exact real arithmetic; the state history of high-fidelity legs under the hypotheses of C50."
  },
  {
   "property": "C75",
   "status": "partial",
   "theorems": [
    "Kep3.C75_constants",
    "Kep3.C75_mean_anomaly",
    "Kep3.C75_default",
    "Kep3.C75_jpl",
    "Kep3.C75_keplerian_ellipse",
    "Kep3.C75_keplerian_hyperbola",
    "Kep3.C75_keplerian_partial",
    "Kep3.C75_refuted"
   ],
   "note": "Proved for planets without elements of their own and for the low-precision planets (off the apocentre); constancy of the five elements and linear growth of the mean anomaly proved for every non-degenerate two-body motion. Missing because false in the code: Keplerian planets ignore the epoch (C75_keplerian_ellipse, C75_keplerian_hyperbola: right exactly after whole periods, or at the reference epoch; C75_refuted). Exact real arithmetic."
  },
  {
   "property": "C76",
   "status": "partial",
   "theorems": [
    "Kep3.Plot.C76_range",
    "Kep3.Plot.C76_no_period",
    "Kep3.Plot.C76_keplerian",
    "Kep3.Plot.C76_jpl_inner",
    "Kep3.Plot.C76_jpl_outer"
   ],
   "note": "Proved for explicit ranges, for bound Keplerian planets and for six of the low-precision planets; missing because false in the code: Uranus and Neptune (C76_jpl_outer). For planets with an eph_v of their own see C70. Exact real arithmetic."
  },
  {
   "property": "C77",
   "status": "partial",
   "theorems": [
    "Kep3.Mga.C77_raises_iff",
    "Kep3.Mga.C77_bounds",
    "Kep3.Mga.C77_cassini",
    "Kep3.Mga.C77_description_refuted",
    "Kep3.Mga.C77_objective",
    "Kep3.Mga.C77_raises_within_bounds"
   ],
   "note": "False as stated: C77_raises_within_bounds (each of the three problems has a chromosome within its bounds with a polar first leg, whose Lambert problem raises) and C77_description_refuted (get_extra_info uses the unbound name _seq_cassini1). C77_cassini and C77_raises_iff: no other exception and no undefined behaviour, for all chromosomes within the bounds and for any sequence of low-precision planets; the times and dates part of the claim is proved in full. Exact real arithmetic; 'returns' includes the outcome NaN (a planet exactly at aphelion, or iterates of the Lambert solver that are no numbers). C77_objective: what the objective counts (launch above 3 km/s, four fly-bys, insertion at Saturn)."
  },
  {
   "property": "C78",
   "status": "partial",
   "theorems": [
    "Kep3.PyCall.C78_add",
    "Kep3.PyCall.C78_epoch_julian",
    "Kep3.PyCall.C78_epoch_partial",
    "Kep3.PyCall.C78_epoch_rejects",
    "Kep3.PyCall.C78_when",
    "Kep3.PyCall.C78_compare"
   ],
   "note": "Sums, differences, planets and the constructor with a kind of day number: proved for every number (C78_add, C78_when, C78_epoch_julian). The one-argument constructor: floats and integers of 32 bits (C78_epoch_partial); the code rejects other numbers (C78_epoch_rejects). Comparisons with non-epochs raise (C78_compare). The two-pass overload resolution of pybind11 is modelled after its documentation."
  },
  {
   "property": "C79",
   "status": "proved",
   "theorems": [
    "Kep3.PyArr.C79_sf_mc_grad",
    "Kep3.PyArr.C79_sf_tc_grad",
    "Kep3.PyArr.C79_hf_tc_grad",
    "Kep3.PyArr.C79_hf_th_grad",
    "Kep3.PyArr.C79_propagate",
    "Kep3.PyArr.C79_propagate_v",
    "Kep3.PyArr.C79_stark"
   ],
   "note": "Entries of the arrays are derivatives along every differentiable family of legs; shapes fit as long as 3*nseg < 2^32 (the unsigned shape computation). Exact real arithmetic."
  },
  {
   "property": "C80",
   "status": "proved",
   "theorems": [
    "Kep3.PyAttr.C80_sims_flanagan",
    "Kep3.PyAttr.C80_sims_flanagan_hf",
    "Kep3.PyAttr.C80_constructors",
    "Kep3.PyAttr.C80_defaults"
   ],
   "note": "Rejected `set` calls of high-fidelity legs do change members: see C49."
  },
  {
   "property": "C81",
   "status": "partial",
   "theorems": [
    "Kep3.SF.C81_numbers_partial",
    "Kep3.SF.C81_zero_throttle",
    "Kep3.SF.C81_default"
   ],
   "note": "False with a zero throttle (C81_zero_throttle, C81_default). C81_numbers_partial: without zero throttles the entries are numbers, those of C47. Only the mass row is modelled with NaN: the other rows go through the matrix products of the linear algebra library, whose treatment of NaN times zero is not specified."
  },
  {
   "property": "C82",
   "status": "proved",
   "theorems": [
    "Kep3.Epoch.C82_epochs",
    "Kep3.Epoch.C82_from_jd",
    "Kep3.Epoch.C82_to_jd",
    "Kep3.Epoch.C82_mjd2000",
    "Kep3.Epoch.C82_monotone",
    "Kep3.Epoch.C82_loses"
   ],
   "note": ""
  },
  {
   "property": "C83",
   "status": "partial",
   "theorems": [
    "Kep3.Lambert.C83_lambert_partial",
    "Kep3.Lambert.C83_lambert_label",
    "Kep3.C83_keplerian",
    "Kep3.C83_jpl"
   ],
   "note": "Holds for the planets (C83_keplerian, C83_jpl) and for the numbers printed for Lambert problems (C83_lambert_partial); the labels are wrong for every second solution (C83_lambert_label). Decimal digits and layout are not modelled."
  },
  {
   "property": "C84",
   "status": "partial",
   "theorems": [
    "Kep3.C84_con_partial",
    "Kep3.C84_same",
    "Kep3.C84_dv_partial",
    "Kep3.C84_parallel_nan",
    "Kep3.C84_reversal_free"
   ],
   "note": "False as stated: C84_parallel_nan (fb_con), C84_reversal_free (fb_dv). Proved: fb_con unless within 1e-7 rad of parallel or antiparallel (C84_con_partial), fb_dv unless within 1e-7 rad of antiparallel (C84_dv_partial; a NaN is possible only when the exact impulse is itself below the error bound), equal velocities (C84_same). Assumed: library functions accurate to 2^-50, acos(1) = 0, correctly rounded square root. Overflow, underflow and fused operations are not modelled."
  },
  {
   "property": "C85",
   "status": "partial",
   "theorems": [
    "Kep3.C85_inclination_node",
    "Kep3.C85_anomaly_partial",
    "Kep3.C85_perigee_nan",
    "Kep3.C85_periapsis_partial",
    "Kep3.C85_eccentricity",
    "Kep3.C85_sma",
    "Kep3.C85_inclination",
    "Kep3.C85_node",
    "Kep3.C85_anomaly_accurate_partial",
    "Kep3.C85_periapsis_accurate_partial"
   ],
   "note": "False as stated: C85_perigee_nan. Proved: inclination and node (C85_inclination_node), eccentricity (C85_eccentricity) for all states; argument of periapsis and true anomaly are numbers and accurate unless within 1.1e-7 rad of 0 or pi (C85_periapsis_partial, C85_anomaly_partial; angles are relative to the computed node line and eccentricity vector). Inclination and node are accurate: the cosines of the computed angles are compared with those of the true orbital plane (C85_inclination, C85_node). Argument of periapsis and true anomaly are also compared with the true node line and eccentricity vector: how near to 1 the cosine must be for a NaN, error of the cosine, half of the circle (C85_periapsis_accurate_partial, C85_anomaly_accurate_partial). The semi-major axis is accurate away from parabolas and radial orbits (C85_sma). Assumed: Arith.Double, Blas.Ok. Overflow, underflow and fused operations are not modelled."
  },
  {
   "property": "C86",
   "status": "partial",
   "theorems": [
    "Kep3.Lambert.C86_numbers_partial",
    "Kep3.Lambert.C86_accuracy",
    "Kep3.Lambert.C86_half_turn_nan",
    "Kep3.Lambert.C86_small_angle_nan"
   ],
   "note": "False as stated: C86_half_turn_nan, C86_small_angle_nan. Proved: C86_numbers_partial (lambda and velocities are numbers unless the triangle of focus and positions is degenerate to within 40 units of its perimeter), C86_accuracy (lambda squared and time of flight, all positions). The iterations are not modelled with rounding; the statements hold for whatever they return. Assumed: Arith.Double, Blas.Ok, and Blas.Norm2 for the negations. Overflow, underflow and fused operations are not modelled."
  },
  {
   "property": "C87",
   "status": "partial",
   "theorems": [
    "Kep3.Plot.C87_point2point_partial",
    "Kep3.Plot.C87_pl2pl_partial",
    "Kep3.Plot.C87_pl2pl_pretty",
    "Kep3.Plot.C87_mga",
    "Kep3.Plot.C87_mga_index",
    "Kep3.Plot.C87_mga_pretty",
    "Kep3.Plot.C87_dot_away",
    "Kep3.Plot.C87_planets_away",
    "Kep3.Plot.C87_example"
   ],
   "note": "False for direct transfers with units other than AU: C87_dot_away, C87_planets_away; C87_point2point_partial and C87_pl2pl_partial say exactly when dots and planets are at the ends of the leg. Proved in full: C87_mga (velocities assumed to be those of a transfer, which C63_solver gives; the orbits must be drawable), C87_mga_index, C87_mga_pretty, C87_pl2pl_pretty. Exact real arithmetic; the text around the numbers and the rendering are not modelled."
  },
  {
   "property": "C88",
   "status": "partial",
   "theorems": [
    "Kep3.C88_no_gravity",
    "Kep3.C88_stumpff_zero",
    "Kep3.C88_stumpff_c_partial",
    "Kep3.C88_stumpff_s_partial",
    "Kep3.C88_near_parabola"
   ],
   "note": "False: C88_stumpff_zero (all doubles up to 2^-54 in size), C88_no_gravity (all states whose argument is that small), C88_near_parabola (a concrete ellipse, whatever the root finder answers). C88_stumpff_c_partial and C88_stumpff_s_partial bound the error away from 0. Assumed of the library: four units in the last place, and the correctly rounded value for arguments up to 2^-27. Overflow, underflow and fused operations are not modelled."
  },
  {
   "property": "C89",
   "status": "partial",
   "theorems": [
    "Kep3.C89_granularity",
    "Kep3.C89_F_partial",
    "Kep3.C89_near_parabola"
   ],
   "note": "False: C89_granularity (all ellipses: what values F can take), C89_near_parabola (a concrete ellipse, whatever the root finder answers). C89_F_partial bounds the error of F for all ellipses and anomalies. Without rounding the model is the one of the other properties (propD_exact). Assumed of the library: as for C88, and that std::cos answers with a double between -1 and 1. Overflow, underflow and fused operations are not modelled."
  },
  {
   "property": "C90",
   "status": "proved",
   "theorems": [
    "Kep3.C90_ellipse",
    "Kep3.C90_hyperbola",
    "Kep3.C90_mean",
    "Kep3.C90_mean_hyperbolic",
    "Kep3.C90_f2h",
    "Kep3.C90_round_trip"
   ],
   "note": "C90_ellipse (e2f, f2e), C90_hyperbola (zeta2f, f2zeta, h2f), C90_mean (e2m, f2m), C90_mean_hyperbolic (h2n), C90_f2h, C90_round_trip. Without rounding the model is the one of the other properties (anomaliesD_exact, keplerD_exact). The eccentricity is any real number, not only a double. Assumed of the library: four units in the last place for sin, tan, atan, sinh, tanh, atanh; std::atan never beyond the double next to pi/2. Overflow, underflow and fused operations are not modelled."
  },
  {
   "property": "C91",
   "status": "partial",
   "theorems": [
    "Kep3.C91_numbers",
    "Kep3.C91_hk_accurate",
    "Kep3.C91_retrograde",
    "Kep3.C91_near_parabola",
    "Kep3.C91_p_partial",
    "Kep3.C91_eq2ic",
    "Kep3.C91_eq2ic_accurate",
    "Kep3.C91_fg_accurate",
    "Kep3.C91_p_accurate",
    "Kep3.C91_L_accurate"
   ],
   "note": "Proved for inclinations up to 90 degrees (from 90 degrees with the flag): f, g, h, k, L are numbers (C91_numbers), h and k are accurate (C91_hk_accurate), f and g are accurate (C91_fg_accurate); p is a number away from parabolas (C91_p_partial) and accurate there (C91_p_accurate); eq2ic gives numbers (C91_eq2ic) and is accurate (C91_eq2ic_accurate). False: C91_retrograde (a family of orbits), C91_near_parabola. Without rounding the model is the one of the other properties (ic2eqD_exact, eq2icD_exact). L gives the direction of the position (C91_L_accurate, assuming std::atan2 accurate to 4 units of roundoff). Assumed of the library and BLAS: as for C85 and C88. Overflow, underflow and fused operations are not modelled."
  },
  {
   "property": "C92",
   "status": "proved",
   "theorems": [
    "Kep3.C92_accurate",
    "Kep3.C92_ellipse",
    "Kep3.C92_numbers",
    "Kep3.C92_hyperbola"
   ],
   "note": "C92_accurate (ellipses and hyperbolae), C92_ellipse (the condition spelled out), C92_numbers (all ellipses of doubles), C92_hyperbola (both sides of the asymptote). Without rounding the model is the one of the other properties (par2icD_exact). Assumed of the library and BLAS: as for C85 and C88. Overflow, underflow and fused operations are not modelled."
  },
  {
   "property": "C93",
   "status": "proved",
   "theorems": [
    "Kep3.C93_m2e",
    "Kep3.JplLp.C93_eph"
   ],
   "note": "C93_m2e and C93_eph. The residual of Kepler's equation at the answer of the root finder, evaluated in doubles, is a hypothesis; it can be met with 40 units of roundoff for all inputs (kepED_attainable), an example of a root finder that does so is given. Without rounding the model is the one of C34 and C35 (ephD_exact). Assumed of the library and BLAS: as for C90 and C92, and an error of 4 units for atan2. Overflow, underflow and fused operations are not modelled."
  },
  {
   "property": "C94",
   "status": "proved",
   "theorems": [
    "Kep3.C94_vout",
    "Kep3.C94_speed",
    "Kep3.C94_nan",
    "Kep3.C94_speed_lost"
   ],
   "note": "C94_vout and C94_speed give the bounds, C94_nan and C94_speed_lost the failures next to the direction of the planet. Without rounding the model is the one of C26 (fbVoutD_exact). Assumed of the library: sin to 4 units, cos and asin as in C84. Overflow, underflow and fused operations are not modelled."
  },
  {
   "property": "C95",
   "status": "proved",
   "theorems": [
    "Kep3.Cache.Life.C95_values",
    "Kep3.Cache.Life.C95_no_moves",
    "Kep3.Cache.Life.C95_copy",
    "Kep3.Cache.Life.C95_archive",
    "Kep3.Cache.Life.C95_moved_from"
   ],
   "note": "C95_values is the refinement; C95_no_moves, C95_copy, C95_archive are consequences for programs; C95_moved_from is the trap. Each llvm_state owns its own compiled module (an assumption on heyoka); lack of memory and threads are left out (threads: C38)."
  },
  {
   "property": "C96",
   "status": "partial",
   "theorems": [
    "Kep3.Mga.C96_eta",
    "Kep3.Mga.C96_six_legs_partial",
    "Kep3.Mga.C96_seven_legs",
    "Kep3.Mga.C96_seven_legs_raise",
    "Kep3.Mga.C96_eta_roundtrip",
    "Kep3.Mga.C96_alpha"
   ],
   "note": "Alpha: C96_alpha (up to 80 legs; accuracy relative to each time). Eta: C96_eta bounds the errors by roundings of the total time and shows that no time is negative, C96_six_legs_partial that all are positive with up to six legs; with seven legs the claim is false: C96_seven_legs (the seventh time is exactly 0 for a whole box of chromosomes within the bounds and every total time), C96_seven_legs_raise (no such trajectory can be evaluated). C96_eta_roundtrip: genes come back to two roundings. Without rounding the model is the one of C52 (encodings_exact). numpy scalars are assumed, for which the builtin sum rounds every partial sum."
  },
  {
   "property": "C97",
   "status": "proved",
   "theorems": [
    "Kep3.C97_lagrangian",
    "Kep3.C97_keplerian"
   ],
   "note": "C97_lagrangian, C97_keplerian: with zeta = (tol + (480 + 128 N) 2^-53 a/R) / (1 - e), N the mean anomaly swept, R the initial distance and tol what the root finder leaves of Kepler's equation, the position is within 15 zeta a (1 + V sqrt(a/mu)) and the velocity within 23 zeta (a/r)^2 (sqrt(mu/a) + 4 V) of every solution of the two-body problem with this initial state, provided 2200 zeta <= 1 - e. The bracketing root finder of Boost is a parameter assumed to settle (SolverD.SettlesDE, attainable: pickDE_settles); that the code can return NaN or a wrong state outside of this regime is C89. Hyperbolas are not covered."
  },
  {
   "property": "C98",
   "status": "proved",
   "theorems": [
    "Kep3.Stark.C98_primaries",
    "Kep3.Stark.C98_inertial",
    "Kep3.Stark.C98_kepler",
    "Kep3.Stark.C98_mirror",
    "Kep3.Stark.C98_five"
   ],
   "note": "C98_inertial (equivalence with Newton's law in the inertial frame), C98_primaries (the two bodies satisfy Newton's law themselves), C98_kepler (mu = 0), C98_mirror (reversibility), C98_five (the equilibria). Conserving the Jacobi constant (C65) does not determine the sign of the Coriolis terms; this does. About the right-hand side; heyoka's integration is a parameter."
  },
  {
   "property": "C99",
   "status": "proved",
   "theorems": [
    "Kep3.SF.C99_mass",
    "Kep3.SF.C99_forward",
    "Kep3.SF.C99_throttle"
   ],
   "note": "C99_forward, C99_mass, C99_throttle. The exact update m exp(-K/m) is a contraction, so errors add up instead of being amplified; backwards m exp(K/m) is one where K <= m, whence the hypothesis on the backward impulses. The propagator is arbitrary (the masses do not depend on it). Exponents are unbounded (no overflow or underflow), no fused operations."
  },
  {
   "property": "C100",
   "status": "proved",
   "theorems": [
    "Kep3.C100_eq2par",
    "Kep3.C100_par2eq",
    "Kep3.C100_roundtrip"
   ],
   "note": "C100_eq2par, C100_par2eq, C100_roundtrip. The inclination is assumed to be a double, so that i / 2 is exact: next to pi the tangent magnifies any other error. Circular and equatorial elements divide 0 by 0, so they are excluded. Accuracy of std::atan2 is an assumption beside the other library functions. Exponents are unbounded (no overflow or underflow), no fused operations."
  },
  {
   "property": "C101",
   "status": "proved",
   "theorems": [
    "Kep3.C101_period",
    "Kep3.C101_keplerian"
   ],
   "note": "C101_period, C101_keplerian. Exponents are unbounded (no overflow or underflow), no fused operations. For energies that are almost zero the rounded sign may differ from the exact one, hence the bound on Q."
  },
  {
   "property": "C102",
   "status": "proved",
   "theorems": [
    "Kep3.HF.C102_history",
    "Kep3.HF.C102_segments",
    "Kep3.SF.C102_impulses"
   ],
   "note": "C102_segments (high-fidelity legs), C102_impulses (Sims-Flanagan legs), C102_history (time grid of the state history; the integrator is assumed to answer on strictly monotone grids only). The errors of the integrator, of the propagation and of the states are not part of the claim: only the times are rounded. Exponents are unbounded (no overflow or underflow)."
  }
 ]
}