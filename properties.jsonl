{"id": "C01", "title": "Julian date readings are mutually consistent and invert the Julian constructor", "statement": "Building an epoch from a Julian date of any of the three supported types and reading the date back in the same type gives the input back up to the one-microsecond truncation of the clock (exactly, when the input is a whole number of microseconds); reading the same epoch in two types always differs by the fixed offsets 51544 d (MJD-MJD2000) and 2451544.5 d (JD-MJD2000).", "quantifier": "for every real day number and every julian_type (and for every stored instant)", "why_tests_cant": "The set of day numbers is unbounded and truncation is toward zero on both sides of year 2000; a sample of dates cannot show that no date drifts by more than a microsecond or that the offsets never interact with the truncation.", "anchors": ["include/kep3/epoch.hpp: epoch::jd, epoch::mjd, epoch::mjd2000", "src/epoch.cpp: epoch::epoch(double, julian_type), epoch::tp_from_days"]}
{"id": "C02", "title": "Epoch comparison and arithmetic form a faithful time line", "statement": "Epoch comparisons are a total order that agrees with the difference of two epochs; adding a duration and then subtracting it (or subtracting the original epoch) returns exactly the original epoch (or the duration); additions of durations compose and commute. Overflow of the 64-bit clock is the only exception and it is reported as undefined behaviour.", "quantifier": "for all pairs of epochs and all durations whose results fit the 64-bit microsecond clock", "why_tests_cant": "Round-trip and order laws range over 2^128 operand pairs; a test samples a few of them.", "anchors": ["include/kep3/epoch.hpp: operator+, operator-, operator+=, operator-=", "src/epoch.cpp: operator<, operator>, operator<=, operator>=, operator==, operator!=, operator-(epoch, epoch)"]}
{"id": "C03", "title": "Calendar constructor counts days correctly in the proleptic Gregorian calendar", "statement": "For every existing civil date and time of day the constructed epoch is exactly the number of microseconds from 1970-01-01T00:00:00 obtained by counting the days of all the intervening years and months; hence later civil times give strictly later epochs, and the 64-bit clock never overflows for any int32 time-of-day arguments and any year in [-32767, 32767].", "quantifier": "for every civil date with year in [-32767,32767] and every int32 hour/minute/second/ms/us", "why_tests_cant": "Leap-year and century rules must hold over 65535 years times every day; unit tests check a handful of dates.", "anchors": ["src/epoch.cpp: epoch::make_tp, epoch::epoch(int, unsigned, unsigned, ...)"]}
{"id": "C04", "title": "Printing an epoch and parsing the string back is the identity", "statement": "as_utc_string() of an epoch in years 0..9999 is a 26-character ISO string which the string constructor accepts and converts back to exactly the same epoch; distinct epochs print differently.", "quantifier": "for every 64-bit epoch between 0000-01-01 and 9999-12-31T23:59:59.999999", "why_tests_cant": "There are 3*10^17 epochs in the range; the composition of calendar inversion, zero padding and digit parsing must be exact for each.", "anchors": ["src/epoch.cpp: epoch::as_utc_string, epoch::epoch(const std::string&, string_format), epoch::make_tp"]}
{"id": "C05", "title": "Cropped ISO strings denote the start of the cropped period and decimals are read as fractions", "statement": "For every well-formed ISO string cropped at month, day, hour, minute, second or 1-6 decimals, the constructed epoch equals the epoch of the same string with the missing fields completed by their first value (day 01, 00:00:00, trailing zeros of the fraction). Strings whose length is not one of the eleven allowed lengths are rejected with an error whatever their content.", "quantifier": "for every year/month/day/hour/minute/second/fraction digits and each of the 11 crops; for every string of another length", "why_tests_cant": "The number of strings is astronomically large, and the fraction scaling loop depends on the number of digits.", "anchors": ["src/epoch.cpp: epoch::epoch(const std::string&, string_format)"]}
{"id": "C06", "title": "Only real calendar dates are accepted by the epoch constructors", "statement": "The calendar constructor (and hence the string constructor) rejects every (year, month, day) triple that does not name an existing day of the proleptic Gregorian calendar, and accepts every existing one.", "quantifier": "for every int year and unsigned month and day", "why_tests_cant": "The error branch must hold for all non-existing dates; sampling misses end-of-month cases. (The code validates year, month and day separately and normalises the rest: 31 February is accepted as 3 March, see the negation witness.)", "anchors": ["src/epoch.cpp: epoch::make_tp"]}
{"id": "C07", "title": "Constructing an epoch from a duration refers to MJD2000", "statement": "As documented, epoch(duration) is the instant that lies `duration` after 0 MJD2000, so that epoch(duration zero) equals the default epoch.", "quantifier": "for every duration", "why_tests_cant": "A wrong reference point is a constant offset on every input; the existing test only constructs the object and never looks at it. (The code uses the Unix epoch: negation witness.)", "anchors": ["include/kep3/epoch.hpp: epoch(std::chrono::duration<Rep, Period>)"]}
{"id": "C08", "title": "Planet getters and computed quantities follow the documented fall-back order", "statement": "For every user-defined planet, each getter returns the user's value when the user provides the method and the documented default (-1, empty string, type name) otherwise; period and elements use the user's method when present, otherwise are computed from the ephemeris at the same epoch with the user's central-body parameter, and raise not_implemented_error exactly when neither is available. Calls with an epoch object and with its mjd2000 value agree.", "quantifier": "for every combination of provided methods and every user implementation", "why_tests_cant": "There are 2^10 combinations of optional methods and arbitrary user behaviour; tests instantiate a few.", "anchors": ["include/kep3/planet.hpp: planet_iface_impl", "src/planet.cpp: planet_iface::eph/elements/period", "pykep/python_udpla.cpp: python_udpla"]}
{"id": "C09", "title": "Vectorised ephemerides are the row-by-row scalar ephemerides", "statement": "For a planet without its own vectorised ephemeris, eph_v on n epochs returns exactly 6n numbers, and numbers 6i..6i+5 are the position and velocity returned by eph at the i-th epoch, in order; it fails exactly when one of the scalar calls fails, with the failure of the first failing epoch.", "quantifier": "for every list of epochs of any length and every user ephemeris", "why_tests_cant": "List length and user function are unbounded; indexing errors show only at particular positions.", "anchors": ["include/kep3/planet.hpp: default_eph_vectorization", "pykep/python_udpla.cpp: python_udpla::eph_v"]}
{"id": "C10", "title": "Default period is Kepler's third law", "statement": "The period computed from the ephemeris is 2*pi*sqrt(a^3/mu) with a the semi-major axis of the osculating orbit when the energy is negative, is NaN when the energy is positive, and is positive for every bound orbit.", "quantifier": "for every position r != 0, velocity and mu > 0", "why_tests_cant": "Identity of real functions over a 7-dimensional continuum.", "anchors": ["src/planet.cpp: period_from_energy", "src/udpla/keplerian.cpp: keplerian::period"]}
{"id": "C11", "title": "Default osculating elements with mean anomaly exist for every elliptic orbit", "statement": "For every bound non-degenerate orbit, asking the default elements with mean anomaly succeeds and returns the same a,e,i,Omega,omega as the true-anomaly elements with the anomaly converted; for every hyperbolic orbit it raises logic_error.", "quantifier": "for every position and velocity and mu > 0", "why_tests_cant": "Depends on unit system: an orbit with semi-major axis below one length unit behaves differently. Tests use one unit system. (The code tests a < 1 instead of a < 0: negation witness.)", "anchors": ["src/planet.cpp: elements_from_posvel"]}
{"id": "C12", "title": "True, eccentric and Gudermannian/hyperbolic anomaly conversions are mutually inverse", "statement": "e2f and f2e are inverse bijections of (-pi,pi) for 0<=ecc<1; h2f/f2h and zeta2f/f2zeta are mutually inverse for ecc>1 between the real line (resp. the admissible zeta interval) and the open interval of true anomalies inside the asymptotes; they agree with the classical identities cos f=(cos E-e)/(1-e cos E) and cos f=(e-cosh H)/(e cosh H-1).", "quantifier": "for every eccentricity in the domain and every anomaly in the open interval", "why_tests_cant": "Identity over a continuum; quadrant errors show only near specific angles.", "anchors": ["include/kep3/core_astro/convert_anomalies.hpp: e2f, f2e, h2f, f2h, zeta2f, f2zeta"]}
{"id": "C13", "title": "Eccentricity domain of the anomaly conversions", "statement": "For ecc >= 0 the elliptic conversions return NaN exactly when ecc >= 1 and hyperbolic ones return NaN exactly when ecc <= 1 or, for f2h/f2n, the true anomaly is on or beyond the asymptotes; no conversion returns a number computed with the formula of the wrong conic.", "quantifier": "for every eccentricity and anomaly", "why_tests_cant": "Boundary decision must be right for every double, in particular at 1.", "anchors": ["include/kep3/core_astro/convert_anomalies.hpp: m2e, e2m, e2f, f2e, m2f, f2m, n2h, h2n, h2f, f2h, n2f, f2n, zeta2f, f2zeta"]}
{"id": "C14", "title": "Mean-to-eccentric conversion solves Kepler's equation, uniquely, modulo full revolutions", "statement": "For 0<=ecc<1, e2m is a strictly increasing bijection of the real line, so m2e(M) is the unique solution in its search bracket of E - ecc sin E = M reduced to (-pi,pi]; the bracket handed to the root finder always contains that solution; e2m(m2e(M)) differs from M by a whole number of revolutions, and m2e(e2m(E)) = E for E in (-pi,pi]. Same with the hyperbolic equation ecc sinh H - H = N, where the fixed search bracket 1 +- 20 pi contains the solution exactly for the N it spans. The conversions raise an error only when the root finder runs out of iterations.", "quantifier": "for every ecc in the domain and every mean anomaly, assuming only that the external root finder returns a root of the function it is given within the bracket whenever one exists", "why_tests_cant": "Uniqueness and bracketing of a transcendental equation for all parameters.", "anchors": ["include/kep3/core_astro/convert_anomalies.hpp: m2e, e2m, m2f, f2m, n2h, h2n, n2f, f2n", "include/kep3/core_astro/kepler_equations.hpp: kepE, d_kepE, dd_kepE, kepH"]}
{"id": "C15", "title": "Derivatives given to the root finders are the derivatives of the equations", "statement": "Every d_kepX / dd_kepX (elliptic, hyperbolic, eccentric-difference, hyperbolic-difference, universal-variable) is the first / second derivative of the corresponding kepX.", "quantifier": "for every parameter value and evaluation point", "why_tests_cant": "A wrong derivative merely slows convergence for benign inputs and breaks it for others.", "anchors": ["include/kep3/core_astro/kepler_equations.hpp: kepE, kepH, kepDE, kepDH, kepDS and their d_, dd_ versions"]}
{"id": "C16", "title": "Cartesian state -> Keplerian elements -> Cartesian state is the identity", "statement": "For every non-degenerate state (non-zero angular momentum, not equatorial, not circular, not parabolic) converting to osculating Keplerian elements and back returns the same position and velocity, for ellipses and hyperbolas alike, and the conversion back never raises an error.", "quantifier": "for every such position, velocity and mu > 0", "why_tests_cant": "Round trip over a 6-dimensional continuum with quadrant case distinctions for Omega, omega and f.", "anchors": ["src/core_astro/ic2par2ic.cpp: ic2par, par2ic"]}
{"id": "C17", "title": "Keplerian elements -> Cartesian state has the advertised orbit", "statement": "The state built from elements (a,e,i,Omega,omega,f) has energy -mu/(2a), angular momentum of modulus sqrt(mu a(1-e^2)), inclination i, eccentricity vector of modulus e pointing to the pericentre direction, and radius a(1-e^2)/(1+e cos f); inconsistent a/e pairs and true anomalies beyond the asymptote of a hyperbola are rejected with domain_error, and only those (a parabola or a point exactly on the asymptote is not rejected and gives no number).", "quantifier": "for every element set", "why_tests_cant": "Continuum of inputs; the sign conventions of a for hyperbolas matter.", "anchors": ["src/core_astro/ic2par2ic.cpp: par2ic"]}
{"id": "C18", "title": "Keplerian <-> modified equinoctial conversion is a round trip", "statement": "For prograde (resp. retrograde) modified equinoctial elements, eq2par(par2eq(.)) returns the same orbit elements up to full turns of the angles, and par2eq(eq2par(.)) returns the same six equinoctial elements up to full turns of L.", "quantifier": "for every element set with e != 0, i not the singular inclination of the chosen set", "why_tests_cant": "Six-dimensional continuum with atan2 quadrants.", "anchors": ["src/core_astro/eq2par2eq.cpp: eq2par, par2eq"]}
{"id": "C19", "title": "Cartesian <-> modified equinoctial conversion is a round trip without the classical singularities", "statement": "eq2ic(ic2eq(r,v)) = (r,v) for every non-parabolic state with non-zero angular momentum whose inclination is not the singular one (i=pi prograde, i=0 retrograde), including circular and equatorial orbits.", "quantifier": "for every such state, mu > 0 and both retrograde settings", "why_tests_cant": "Continuum of inputs; circular/equatorial special cases are exactly where other element sets break.", "anchors": ["src/core_astro/ic2eq2ic.cpp: ic2eq, eq2ic"]}
{"id": "C20", "title": "Equinoctial and Keplerian element sets describe the same state", "statement": "Converting Keplerian elements to equinoctial ones and then to a Cartesian state gives the same state as converting the Keplerian elements directly, for prograde and retrograde sets.", "quantifier": "for every Keplerian element set of an ellipse, or of a hyperbola inside its asymptotes, with 0 < i < pi, and mu > 0", "why_tests_cant": "Compatibility of two independent formulas over a continuum.", "anchors": ["src/core_astro/eq2par2eq.cpp: par2eq", "src/core_astro/ic2eq2ic.cpp: eq2ic", "src/core_astro/ic2par2ic.cpp: par2ic"]}
{"id": "C21", "title": "Lagrangian propagation conserves energy, angular momentum and the orbital plane", "statement": "The state returned by propagate_lagrangian has exactly the same specific energy, angular momentum vector and eccentricity vector as the initial state, for elliptic and hyperbolic orbits and any (positive or negative) time of flight.", "quantifier": "for every state with r != 0 and non-zero energy, every tof and mu > 0", "why_tests_cant": "First integrals must be preserved for all initial conditions and times.", "anchors": ["src/core_astro/propagate_lagrangian.cpp: propagate_lagrangian"]}
{"id": "C22", "title": "Lagrangian propagation is the solution of the two-body problem", "statement": "As a function of the time of flight t, the returned position and velocity satisfy r(0)=r0, v(0)=v0, dr/dt=v and dv/dt=-mu r/|r|^3 for all t.", "quantifier": "for every elliptic or hyperbolic initial state with non-zero angular momentum (or no collision), every mu > 0 and every t", "why_tests_cant": "A differential equation on the whole time axis; numerical tests compare a few points against another integrator.", "anchors": ["src/core_astro/propagate_lagrangian.cpp: propagate_lagrangian", "include/kep3/core_astro/kepler_equations.hpp: kepDE, kepDH"]}
{"id": "C23", "title": "Propagation composes and is periodic", "statement": "Propagating by t1 and then by t2 equals propagating by t1+t2; propagating by t and then by -t is the identity; on an ellipse, propagating by one period is the identity.", "quantifier": "for every elliptic or hyperbolic state and all times", "why_tests_cant": "Group law over a continuum.", "anchors": ["src/core_astro/propagate_lagrangian.cpp: propagate_lagrangian"]}
{"id": "C24", "title": "All propagation entry points agree", "statement": "propagate_lagrangian_v over a list of times returns, in order, the individual propagations (with the same error); propagate_keplerian (via elements) and propagate_lagrangian_u (universal variable) return the same state as propagate_lagrangian wherever they are defined; the state returned does not depend on whether the state transition matrix was requested.", "quantifier": "for every state, list of times and mu", "why_tests_cant": "Independent algorithms must agree for every input.", "anchors": ["src/core_astro/propagate_lagrangian.cpp: propagate_lagrangian, propagate_lagrangian_v, propagate_lagrangian_u, propagate_keplerian"]}
{"id": "C25", "title": "State transition matrix is the derivative of the propagated state", "statement": "The matrix returned with the state is the Jacobian of the propagated state with respect to the initial state: it is the identity at zero time of flight, satisfies the linearised equations of motion, and composes by multiplication.", "quantifier": "for every elliptic or hyperbolic state and every time of flight", "why_tests_cant": "Thirty-six entries as functions of seven reals.", "anchors": ["src/core_astro/stm.cpp: stm_lagrangian, stm_reynolds", "src/core_astro/propagate_lagrangian.cpp: propagate_lagrangian"]}
{"id": "C26", "title": "Unpowered fly-by preserves the hyperbolic excess speed and turns it by the physical angle", "statement": "fb_vout returns a velocity whose speed relative to the planet equals the incoming relative speed, whose angle with the incoming relative velocity is 2 asin(1/(1+rp v^2/mu)), and every direction on that cone is reached by exactly one beta modulo full turns.", "quantifier": "for every incoming and planet velocity not parallel to each other (relative velocity non-zero), rp > 0, mu > 0, beta", "why_tests_cant": "Vector identity over a 9-dimensional continuum.", "anchors": ["src/core_astro/flyby.cpp: fb_vout"]}
{"id": "C27", "title": "Fly-by constraints are satisfied exactly by the feasible fly-bys", "statement": "fb_con applied to (v_rel_in, v_rel_out) returns an equality value that is zero iff the relative speeds agree and an inequality value that is <= 0 iff the turn angle is achievable above the safe radius; in particular the output of fb_vout with pericentre rp satisfies fb_con with safe_radius = rs exactly when rp >= rs.", "quantifier": "for every pair of non-zero relative velocities, mu > 0, safe_radius > 0", "why_tests_cant": "Equivalence (both directions) over a continuum, including the boundary rp = safe radius.", "anchors": ["src/core_astro/flyby.cpp: fb_con, fb_vout"]}
{"id": "C28", "title": "Fly-by delta-v is the smallest impulse that patches the fly-by", "statement": "fb_dv is non-negative, is zero iff both fly-by constraints hold, is at least the difference of the relative speeds and never more than |v_rel_out - v_rel_in|, and equals the minimum over all achievable outgoing directions of the distance to v_rel_out.", "quantifier": "for every pair of non-zero relative velocities, mu > 0, safe_radius > 0", "why_tests_cant": "A minimality claim quantifies over all alternatives.", "anchors": ["src/core_astro/flyby.cpp: fb_dv"]}
{"id": "C29", "title": "Fly-by functions on planets need a physical planet", "statement": "fb_con / fb_dv called with a planet use its gravity parameter and safe radius, and never silently produce a number for a planet that defines neither.", "quantifier": "for every planet", "why_tests_cant": "Default getter values (-1) flow into the formula for every planet that omits them. (The code accepts them and the two -1 cancel: negation witness.)", "anchors": ["src/core_astro/flyby.cpp: fb_con(..., const planet&), fb_dv(..., const planet&)", "include/kep3/planet.hpp: get_mu_self, get_safe_radius"]}
{"id": "C30", "title": "Lambert solver: input validation and shape of the solution lists", "statement": "The solver rejects non-positive time of flight and non-positive mu and transfer planes without a defined rotation sense with domain_error; otherwise it returns 2*Nmax+1 initial velocities, final velocities, x values and iteration counts (same length), with Nmax at most the requested number of revolutions and at most the number of revolutions fitting the time of flight, and every iteration count bounded.", "quantifier": "for every pair of positions, tof, mu, orientation flag and number of revolutions", "why_tests_cant": "List sizes and indices must be consistent for every Nmax; out-of-range writes only show for particular Nmax.", "anchors": ["src/lambert_problem.cpp: lambert_problem::lambert_problem, householder", "include/kep3/lambert_problem.hpp: getters"]}
{"id": "C31", "title": "Each Lambert velocity pair belongs to one Keplerian orbit through both points", "statement": "For every returned solution, (r0,v0) and (r1,v1) have the same specific energy and the same angular momentum vector and the same eccentricity vector, i.e. they are states of one and the same Kepler orbit in the transfer plane, turning in the requested direction.", "quantifier": "for every geometry, tof, mu and every solution index (in fact for every admissible value of the iteration variable)", "why_tests_cant": "Must hold for all geometries and all multi-revolution branches, whatever the iteration converged to.", "anchors": ["src/lambert_problem.cpp: lambert_problem::lambert_problem"]}
{"id": "C32", "title": "Lambert time-of-flight curve and its derivatives are consistent", "statement": "The three formulas used for the time of flight as a function of x agree where they overlap (Lagrange vs Lancaster), and the derivatives handed to the Householder iteration are the first three derivatives of that function.", "quantifier": "for every lambda in (-1,1), number of revolutions and admissible x", "why_tests_cant": "Identities of transcendental functions.", "anchors": ["src/lambert_problem.cpp: x2tof, x2tof2, dTdx"]}
{"id": "C33", "title": "Converged Lambert solutions fly from r0 to r1 in the requested time", "statement": "If the iteration variable satisfies the time-of-flight equation exactly, propagating (r0,v0) for tof reaches (r1,v1).", "quantifier": "for every geometry, tof, mu and solution index", "why_tests_cant": "End-to-end correctness of the formula chain for a continuum of inputs.", "anchors": ["src/lambert_problem.cpp: lambert_problem::lambert_problem", "src/core_astro/propagate_lagrangian.cpp: propagate_lagrangian"]}
{"id": "C34", "title": "Low-precision JPL planets: accepted names and dates", "statement": "The constructor accepts exactly the eight planet names (case-insensitively) and rejects every other string with an error; ephemerides and elements are returned exactly for epochs strictly between -73048 and 18263 mjd2000 and raise domain_error otherwise.", "quantifier": "for every string and every epoch", "why_tests_cant": "All strings and all doubles; the name table contains an entry without data.", "anchors": ["src/udpla/jpl_lp.cpp: jpl_lp::jpl_lp, _f_elements, eph, elements"]}
{"id": "C35", "title": "Low-precision JPL planets never leave the elliptic domain", "statement": "Over the whole validity interval the secular elements of all eight planets are elliptic (a > 0, 0 < e < 1), so the ephemeris conversion never raises and the anomaly conversion is always in its domain.", "quantifier": "for every planet and every epoch in the interval", "why_tests_cant": "Linear drift over 250 years for every real epoch in the interval.", "anchors": ["src/udpla/jpl_lp.cpp: mercury_el ... neptune_rate, _f_elements, eph"]}
{"id": "C36", "title": "Keplerian planet: element-type constructor validation and elements read-back", "statement": "A Keplerian planet built from elements of any type at a reference epoch returns, at that epoch, the same orbit in every element type; the constructor rejects exactly inconsistent inputs (a(1-e) <= 0, mean anomaly on a hyperbola), and period is NaN exactly on hyperbolas.", "quantifier": "for every element type and element values", "why_tests_cant": "Continuum of inputs and five element types. (The consistency check is applied to the first two numbers whatever their meaning, so valid equinoctial sets are rejected: negation witness.)", "anchors": ["src/udpla/keplerian.cpp: keplerian::keplerian, eph, elements, period"]}
{"id": "C37", "title": "Keplerian planet ephemeris is the propagated reference state", "statement": "eph at any epoch equals the two-body propagation of the reference state by the elapsed time; at the reference epoch it is the reference state; eph is periodic with the advertised period.", "quantifier": "for every reference state, reference epoch and query epoch", "why_tests_cant": "Continuum of inputs.", "anchors": ["src/udpla/keplerian.cpp: keplerian::eph, keplerian::period"]}
{"id": "C38", "title": "VSOP2013 planets: validation and cache coherence", "statement": "The constructor accepts exactly the known body names and finite non-negative thresholds; two planets with the same body and threshold evaluate the same compiled function and planets with different body or threshold never share one, in any order of construction and from any number of threads.", "quantifier": "for every sequence / interleaving of constructions", "why_tests_cant": "Cache keys and concurrent first access.", "anchors": ["src/udpla/vsop2013.cpp: vsop2013::vsop2013, get_vsop2013_c_func"]}
{"id": "C39", "title": "Integrator caches return the integrator of the requested tolerance", "statement": "Every request for a Stark/CR3BP integrator (with or without variational equations) returns one compiled for exactly the requested tolerance and problem; the cache size equals the number of distinct tolerances requested so far.", "quantifier": "for every finite history of requests and any interleaving of threads", "why_tests_cant": "Histories and interleavings are unbounded.", "anchors": ["src/ta/stark.cpp: get_ta_stark, get_ta_stark_var", "src/ta/cr3bp.cpp: get_ta_cr3bp, get_ta_cr3bp_var"]}
{"id": "C40", "title": "Integrator caches are free of data races", "statement": "No interleaving of the public cache functions lets one thread read a cache while another thread may be modifying it.", "quantifier": "for every number of threads and every interleaving", "why_tests_cant": "Races depend on schedules no unit test controls. (get_ta_stark_var_cache_dim and get_ta_cr3bp_var_cache_dim take the mutex of the other cache: negation witness.)", "anchors": ["src/ta/stark.cpp: get_ta_stark_var_cache_dim", "src/ta/cr3bp.cpp: get_ta_cr3bp_var_cache_dim"]}
{"id": "C41", "title": "Stark problem propagation is independent of the call history", "statement": "The result of propagate and propagate_var on a Stark problem depends only on the current mu, effective velocity, tolerance and the arguments, never on earlier propagations or earlier values of the parameters; zero mass is rejected; the state of propagate_var equals that of propagate and its sensitivities are laid out row-wise as 7x7 and 7x3.", "quantifier": "for every history of calls and parameter changes", "why_tests_cant": "Histories are unbounded; stale integrator state shows only after particular sequences.", "anchors": ["src/stark_problem.cpp: stark_problem::propagate, propagate_var, set_mu, set_veff"]}
{"id": "C42", "title": "Sims-Flanagan leg: accepted data are valid data, after any sequence of calls", "statement": "After any successful construction and any sequence of (successful or failing) setter calls, the stored leg satisfies the documented constraints (time of flight, thrust, isp, mu, cut in range, throttles a non-empty multiple of three) and its forward/backward segment numbers add up to the number of segments with nseg_fwd = floor(nseg*cut); a failing call leaves the leg unchanged.", "quantifier": "for every finite sequence of calls with arbitrary (finite or non-finite) arguments", "why_tests_cant": "Sequences are unbounded. (set() validates the old members, not its arguments, and NaN passes every check: negation witnesses.)", "anchors": ["src/leg/sims_flanagan.cpp: sims_flanagan ctors, set, set_throttles, set_*", "src/leg/sf_checks.cpp: _check_*, _sanity_checks"]}
{"id": "C43", "title": "Sims-Flanagan leg mismatch vanishes exactly on flyable legs", "statement": "With a reversible ballistic propagator, the seven mismatch constraints are all zero iff starting from the initial state and mass and applying the throttles one after the other (half a segment coast, impulse with rocket-equation mass drop, half a segment coast) arrives at the final state and mass.", "quantifier": "for every number of segments, throttles, cut, tof, thrust and isp", "why_tests_cant": "Induction over an arbitrary number of segments; the backward pass uses mirrored indices and sign-flipped updates. (Holds exactly only with matched mass conventions: the backward impulse divides by the mass after the impulse; see the theorem.)", "anchors": ["src/leg/sims_flanagan.cpp: compute_mismatch_constraints, propagate"]}
{"id": "C44", "title": "Sims-Flanagan leg uses each throttle exactly once and spends exactly the time of flight", "statement": "compute_mismatch_constraints uses every throttle triple exactly once, forward ones from the first and backward ones from the last, and the ballistic arcs flown forward and backward have durations that add up to the time of flight.", "quantifier": "for every number of segments and every cut in [0,1]", "why_tests_cant": "All segment numbers, including cut 0 and 1 where one side is empty.", "anchors": ["src/leg/sims_flanagan.cpp: compute_mismatch_constraints"]}
{"id": "C45", "title": "Throttle constraints and their gradient", "statement": "The i-th throttle constraint is <= 0 iff the i-th throttle has norm <= 1, and compute_tc_grad is exactly the Jacobian of the throttle constraints, in row-major nseg x 3nseg layout.", "quantifier": "for every number of segments and throttle values", "why_tests_cant": "All sizes and values.", "anchors": ["src/leg/sims_flanagan.cpp: compute_throttle_constraints, compute_tc_grad", "src/leg/sims_flanagan_hf.cpp: compute_throttle_constraints, compute_tc_grad"]}
{"id": "C46", "title": "Mass bookkeeping along a Sims-Flanagan leg is the rocket equation", "statement": "The forward mass after k segments is the initial mass times the product of exp(-|dv_i|/(isp g0)) and hence is positive and non-increasing; the backward mass is positive and non-decreasing; ballistic segments leave it unchanged.", "quantifier": "for every number of segments and throttles", "why_tests_cant": "Induction over segments.", "anchors": ["src/leg/sims_flanagan.cpp: propagate, compute_mismatch_constraints"]}
{"id": "C47", "title": "Mismatch gradient of the Sims-Flanagan leg is the derivative of the mismatch", "statement": "compute_mc_grad returns the Jacobians of the seven mismatch constraints with respect to the initial state and mass, the final state and mass, and the throttles followed by the time of flight (7 x (3nseg+1), row-major), including the sign conventions of the backward part; the array sizes are right for every cut, including 0 and 1.", "quantifier": "for every number of segments, cut and non-zero throttles", "why_tests_cant": "Chain rule over an arbitrary number of segments.", "anchors": ["src/leg/sims_flanagan.cpp: compute_mc_grad, gradients_fwd, gradients_bck, gradients_multiple_impulses"]}
{"id": "C48", "title": "High-fidelity leg: parameters seen by the integrator are the parameters of the leg", "statement": "After any sequence of setter calls, the mismatch computed by the high-fidelity leg is the one of a fresh leg constructed with the current parameters.", "quantifier": "for every finite sequence of setter calls", "why_tests_cant": "Staleness depends on histories. (set_isp, set_mu, set_max_thrust, set_tol do not reach the cached integrators/thrusts: negation witnesses; the setters that do are proved.)", "anchors": ["src/leg/sims_flanagan_hf.cpp: set_*, compute_mismatch_constraints, m_thrusts, m_tas"]}
{"id": "C49", "title": "High-fidelity leg: failing setters leave the leg unchanged", "statement": "A setter that raises an error leaves all the leg data as they were.", "quantifier": "for every state of the leg and arguments", "why_tests_cant": "All argument combinations. (The set overloads assign before checking: negation witness.)", "anchors": ["src/leg/sims_flanagan_hf.cpp: set, set_throttles, set_cut"]}
{"id": "C50", "title": "High-fidelity leg: state history grid covers every segment", "statement": "get_state_history(n) returns, for every segment, n states on an equally spaced grid covering the segment, reading only existing grid entries, for every number of segments and every n >= 2.", "quantifier": "for every nseg >= 1, cut and n >= 2", "why_tests_cant": "Index arithmetic on unsigned numbers for all sizes. (For nseg = 1 an entry beyond the end of the time grid is read: negation witness.)", "anchors": ["src/leg/sims_flanagan_hf.cpp: get_state_history"]}
{"id": "C51", "title": "High-fidelity leg: gradient assembly follows the chain rule", "statement": "The gradient assembly multiplies the per-segment sensitivities in the order of the chain rule, reads only existing segments for every split of the segments (including none forward or none backward) and returns arrays of the documented sizes.", "quantifier": "for every number of segments and every cut", "why_tests_cant": "Unsigned index arithmetic (nseg_fwd - 1 wraps at 0) and products of unbounded length.", "anchors": ["src/leg/sims_flanagan_hf.cpp: compute_mc_grad, get_relevant_gradients, compute_all_gradients"]}
{"id": "C52", "title": "MGA time-of-flight encodings are inverse of each other", "statement": "alpha2direct and direct2alpha, and eta2direct and direct2eta, are mutually inverse on their domains; alpha-decoded flight times are positive and add up to the encoded total, eta-decoded times are positive and add up to less than the maximum.", "quantifier": "for every number of legs and every chromosome within bounds", "why_tests_cant": "Arbitrary number of legs (the eta decoding is a recursion) and real values.", "anchors": ["pykep/trajopt/_mga.py: mga.alpha2direct, direct2alpha, eta2direct, direct2eta, _decode_tofs"]}
{"id": "C53", "title": "MGA constructor validation and bounds", "statement": "An mga problem is accepted exactly when the time-of-flight argument has the shape of the chosen encoding (alpha: two numbers; direct: one pair per leg; eta: one number), the planets share one central body and, with orbit insertion, target e and rp are given; the bounds vectors then have the dimension of the decision vector, with lower <= upper, and the number of objectives is two iff multi-objective.", "quantifier": "for every planet sequence and argument shape", "why_tests_cant": "All lengths and encodings.", "anchors": ["pykep/trajopt/_mga.py: mga.__init__, get_bounds, get_nobj"]}
{"id": "C54", "title": "MGA trajectory planet: leg selection", "statement": "The planet built from an MGA trajectory returns for each epoch in the mission interval the state on the leg whose time interval contains it, is continuous at the fly-bys in position, and rejects epochs outside the mission.", "quantifier": "for every number of legs, times of flight and epochs", "why_tests_cant": "All partitions and query epochs including the boundaries.", "anchors": ["pykep/trajopt/_mga.py: mga.to_planet, _mga_udpla.eph"]}
{"id": "C55", "title": "Direct point-to-point problem: dimensions, bounds, gradient and sparsity agree", "statement": "For every number of segments the fitness has 1 + 7 + nseg components, the bounds have 3 nseg + 2 components, the gradient has as many entries as the declared sparsity, the sparsity has distinct in-range entries and the k-th gradient entry is the derivative at the k-th sparsity index (constraints not depending on a variable are exactly those absent).", "quantifier": "for every number of segments", "why_tests_cant": "All segment numbers; positions in flat arrays.", "anchors": ["pykep/trajopt/_direct_point2point.py: fitness, gradient, gradient_sparsity, get_bounds, get_nec, get_nic"]}
{"id": "C56", "title": "Direct planet-to-planet problem: dimensions, bounds, gradient and sparsity agree", "statement": "Same for the planet-to-planet problem, whose decision vector also contains the departure epoch and the two relative velocities: fitness size, bounds size, gradient length, sparsity entries in range and distinct, gradient entries in sparsity order.", "quantifier": "for every number of segments", "why_tests_cant": "All segment numbers; positions in flat arrays.", "anchors": ["pykep/trajopt/_direct_pl2pl.py: fitness, gradient, gradient_sparsity, get_bounds, get_nec, get_nic"]}
{"id": "C57", "title": "Python module constants equal the library constants", "statement": "Each unit-conversion constant exported to Python has the value of the C++ constant of the same name; in particular degrees converted with DEG2RAD and back with RAD2DEG are unchanged.", "quantifier": "for every exported constant and every angle", "why_tests_cant": "A wrong constant silently rescales every input. (DEG2RAD is exported with the value of RAD2DEG: negation witness.)", "anchors": ["pykep/core.cpp: PYBIND11_MODULE attributes", "include/kep3/core_astro/constants.hpp"]}
{"id": "C58", "title": "Feasibility of a Sims-Flanagan leg does not depend on the cut", "statement": "Whether the seven mismatch constraints of a leg vanish does not depend on where the leg is cut: two legs that differ only in the cut are both feasible or both infeasible.", "quantifier": "for every leg and every pair of cuts", "why_tests_cant": "A statement about pairs of legs of any length. (False in the code: a forward impulse divides the thrust by the mass before the burn, a backward one by the mass after it: negation proved for every one-segment leg with a burn; holds for ballistic legs.)", "anchors": ["src/leg/sims_flanagan.cpp: compute_mismatch_constraints"]}
{"id": "C59", "title": "High-fidelity leg: serialization keeps the leg's behaviour", "statement": "A leg saved to an archive and loaded again gives the same mismatch constraints and the same gradients as the original.", "quantifier": "for every leg, every arithmetic and every integrator", "why_tests_cant": "Equality of behaviours of two objects. (False in the code for the gradients: the variational integrator is not archived, so a loaded leg computes gradients with mu = 1, veff = G0 and the default tolerance: negation proved.)", "anchors": ["include/kep3/leg/sims_flanagan_hf.hpp: sims_flanagan_hf::serialize", "src/leg/sims_flanagan_hf.cpp: compute_all_gradients"]}
{"id": "C60", "title": "High-fidelity leg: chromosome layout of set_and_compute_constraints", "statement": "set_and_compute_constraints reads the initial state, the throttles, the final state and the time of flight from their positions in the chromosome, leaves the other parameters alone and returns the constraints of that leg: 7 mismatches followed by one throttle constraint per segment; a chromosome of fewer than 15 + 3 nseg entries is always read out of bounds (undefined behaviour), before anything is changed.", "quantifier": "for every chromosome of every length", "why_tests_cant": "All lengths and all positions in a flat array.", "anchors": ["src/leg/sims_flanagan_hf.cpp: set_and_compute_constraints"]}
{"id": "C61", "title": "High-fidelity leg: compute_mc_grad is the derivative of the mismatch", "statement": "If the integrators return the exact flow and its sensitivities, the three blocks returned by compute_mc_grad are the derivatives of the mismatch constraints with respect to the initial state, to the final state, and to the throttles and the time of flight.", "quantifier": "for every leg, every split of its segments and every differentiable dynamics", "why_tests_cant": "Derivatives along every curve of legs, any number of segments. (False in the code for the throttle columns: they are derivatives with respect to the thrusts, the factor max_thrust is missing: negation proved; right when max_thrust = 1.)", "anchors": ["src/leg/sims_flanagan_hf.cpp: compute_mc_grad, compute_all_gradients, get_relevant_gradients"]}
{"id": "C62", "title": "High-fidelity leg: compute_tc_grad is the Jacobian of the throttle constraints", "statement": "compute_tc_grad returns the row-major nseg x 3 nseg Jacobian of the throttle constraints: 2 t_j in the three columns of the row's own segment, 0 elsewhere, and writes nowhere outside the vector.", "quantifier": "for every number of segments and all throttles", "why_tests_cant": "All positions in a flat array of any size.", "anchors": ["src/leg/sims_flanagan_hf.cpp: compute_tc_grad"]}
{"id": "C63", "title": "Lambert: the transfer without revolutions exists, is unique, and is the one the solver aims at", "statement": "For positions that are not aligned with the centre, each direction of motion and each positive time of flight, there is exactly one two-body motion from r0 to r1 in that time with less than one revolution; if the iterations of the solver have ended at a root of its time of flight equation, its first velocity pair is that motion, and its pairs 2i-1 and 2i are motions with exactly i complete revolutions.", "quantifier": "for every pair of positions, direction, time of flight and mu, and every solution index", "why_tests_cant": "Existence and uniqueness over a continuum of motions. (The code misses one case: for the time of flight of the parabola the initial guess is x = 1 exactly and all velocities are NaN: negation proved for every pair of positions.)", "anchors": ["src/lambert_problem.cpp: lambert_problem::lambert_problem, x2tof, householder"]}
{"id": "C64", "title": "Lambert: every number of revolutions reported has a transfer", "statement": "For every i up to the reported Nmax there are two two-body transfers from r0 to r1 in the requested time and direction with exactly i complete revolutions.", "quantifier": "for every pair of positions, direction, time of flight, mu and number of revolutions", "why_tests_cant": "Non-existence of a transfer cannot be seen by running the code. (False in the code: near lambda = -0.99 the Halley iteration for the minimum time of flight leaves its interval and becomes NaN, so that one revolution is reported although none is possible: negation proved.)", "anchors": ["src/lambert_problem.cpp: lambert_problem::lambert_problem (Halley iterations)"]}
{"id": "C65", "title": "Equations of motion of the integrators", "statement": "Motions of the CR3BP equations given to the integrator keep the Jacobi constant; along Stark motions the mass decreases linearly at thrust over effective velocity and the orbital energy changes at the power of the thrust acceleration; without thrust the Stark motion is the one of propagate_lagrangian; the state derivative used in the gradients of the high-fidelity leg is the vector field it integrates.", "quantifier": "for every solution of the coded equations, every parameter and thrust", "why_tests_cant": "A wrong sign in a Coriolis or a mass-flow term still integrates smoothly; tests compare a few trajectories with stored numbers.", "anchors": ["src/ta/cr3bp.cpp: cr3bp_dyn", "src/ta/stark.cpp: stark_dyn", "src/leg/sims_flanagan_hf.cpp: get_state_derivative"]}
{"id": "C66", "title": "MGA objectives: composition and independence of the encoding", "statement": "The first objective is the sum of the launch impulse beyond the launcher's, one fly-by impulse for each intermediate planet and the arrival impulse of a trajectory through the planets, each non-negative; the second is the time between the first and last encounter; both are the same for a chromosome in the alpha or eta encoding and its conversion to times; the insertion impulse is the difference of the pericentre speeds of the arrival hyperbola and of the target orbit.", "quantifier": "for every sequence of planets (any ephemerides), number of legs, chromosome and option", "why_tests_cant": "Tests check some missions with hardware-dependent tolerances; a wrong sign or a wrong leg changes the objective smoothly and an optimiser will exploit it.", "anchors": ["pykep/trajopt/_mga.py: mga.fitness, mga._compute_dvs"]}
{"id": "C67", "title": "Julian dates in double precision: how much a round trip can lose", "statement": "With all roundings of the double arithmetic: an epoch made from the mjd2000 or mjd of another one is within 1 microsecond of it while the date is less than 2^53 microseconds from day zero; from its jd within 48 microseconds for dates from 4713 BC to 4000; reading is monotone, and injective within 65536 days of day zero; whole and half days are exact in both directions; the date read off an epoch made from a double is within 3 microseconds of it.", "quantifier": "for every epoch and every double in the stated ranges", "why_tests_cant": "The loss depends on rounding at each of 10^16 epochs; tests use a few round dates, which are exact. (Exact round trips are refuted: 11 s after 2000-01-01 loses 1 microsecond, a jd loses 48, and from 2038 on two epochs share one mjd.)", "anchors": ["include/kep3/epoch.hpp: mjd2000, mjd, jd", "src/epoch.cpp: epoch::epoch(double, julian_type), tp_from_days"]}
{"id": "C68", "title": "Python epochs: sums with days and timedeltas, construction from datetimes", "statement": "Adding a float moves the epoch by that number of days up to a microsecond and the rounding of the product, and subtracting it again returns the same epoch; adding a timedelta moves the epoch by exactly that timedelta; a datetime becomes the epoch of its instant.", "quantifier": "for every epoch, float, timedelta and datetime in the ranges where nothing overflows", "why_tests_cant": "Losing a microsecond depends on the rounding of each timedelta; aware datetimes have every offset. (False in the code: timedelta(microseconds=249) adds 248, and the offset of an aware datetime is ignored: negations proved.)", "anchors": ["pykep/core.cpp: epoch.__add__, epoch.__sub__, epoch(datetime)"]}
{"id": "C69", "title": "Archives and pickles give back the object", "statement": "Saving an epoch, a Lambert problem, a Stark problem, a Sims-Flanagan leg (either fidelity) or a planet and loading it into any other object of the class gives the saved object; a state that is not a single bytes object is refused.", "quantifier": "for every object of these classes and every object it is loaded into", "why_tests_cant": "A member left out of the archive keeps the value of the object loaded into; tests load into a default object and compare a few members. (False in the code: the variational integrator of the high-fidelity leg is not archived, and planets made from Python objects cannot be saved: negations proved.)", "anchors": ["include/kep3/epoch.hpp: serialize", "include/kep3/lambert_problem.hpp: serialize", "include/kep3/stark_problem.hpp: serialize", "include/kep3/leg/sims_flanagan.hpp: serialize", "include/kep3/leg/sims_flanagan_hf.hpp: serialize", "include/kep3/udpla/keplerian.hpp: serialize", "pykep/common_utils.hpp: pickle_getstate_wrapper, pickle_setstate_wrapper"]}
{"id": "C70", "title": "Python planets: construction, extraction, copies, arrays of ephemerides", "statement": "A planet can be made from every instance with a callable eph and from nothing else, and a planet or a class is refused with a TypeError; extract(t) returns the object given exactly if t is its class, or object for a Python one; a deep copy is independent of the original; eph_v returns one row of six for every epoch, equal to eph.", "quantifier": "for every Python object, class, planet and list of epochs", "why_tests_cant": "Tests extract by a handful of classes and never mutate the object after a deep copy or return a short array. (False in the code: extract(object) returns None, derived classes of the exposed ones are confused with these, deep copies share the Python object, and a short array from the user's eph_v is read out of bounds: negations proved.)", "anchors": ["pykep/_patch_planet.py: _planet_extract, _planet_is", "pykep/python_udpla.cpp: python_udpla", "pykep/core.cpp: planet", "pykep/expose_udplas.hpp: expose_one_udpla", "pykep/common_utils.hpp: generic_deepcopy_wrapper"]}
{"id": "C71", "title": "Conversion to Keplerian planets, TLE and SPICE planets", "statement": "planet_to_keplerian gives a planet with the same state at the given epoch, the same radii and name and the given mu; the ephemerides of a TLE planet are those of the sgp4 library at the right Julian date, in SI units, one row per epoch, with an error for epochs it cannot compute; the parameters of a SPICE planet are those given; a kernel stays loaded while a de440s planet is alive.", "quantifier": "for every planet, epoch, list of epochs and sequence of constructions, copies and deletions", "why_tests_cant": "The state is compared at one epoch for one planet in tests; kernels are released by destructors in any order. (False in the code: sgp4 errors give NaN without an exception, the parameters of SPICE planets are ignored, and deleting a copy of a de440s planet unloads the kernel of the original: negations proved.)", "anchors": ["pykep/utils/_planet_to_keplerian.py: planet_to_keplerian", "pykep/udpla/_tle.py: tle", "pykep/udpla/_spice.py: spice, de440s"]}
{"id": "C72", "title": "Propagation by an angle", "statement": "propagate_lagrangian_theta_v returns the state of the two-body motion after the position has turned by the given angle, at a later time for positive and an earlier one for negative angles.", "quantifier": "for every initial state off the radial ones, every mu and every angle the motion reaches", "why_tests_cant": "The angle of a motion is an integral over its history; any number of turns. (False in the code beyond the asymptotes of a hyperbola, which no motion reaches: a state that is not on the motion is returned without an error: negation proved.)", "anchors": ["pykep/plot/__init__.py: propagate_lagrangian_theta_v"]}
{"id": "C73", "title": "Plots of Lambert arcs", "statement": "The points drawn by add_lambert for the solution without complete revolutions are positions of the transfer at increasing times, the first r0 and the last r1; for a solution with complete revolutions they cover its orbit once; solution numbers that do not exist are refused.", "quantifier": "for every solved problem, number of points and solution number", "why_tests_cant": "Every geometry and direction of motion. (False in the code for clockwise transfers: the angle drawn is the one missing to a turn, and the arc never ends at r1: negation proved for every clockwise transfer.)", "anchors": ["pykep/plot/_lambert.py: add_lambert"]}
{"id": "C74", "title": "Plots of arcs, legs and the solar system", "statement": "The points drawn by add_ballistic_arc are the positions of the motion at equally spaced times; the points, mid-points and throttle arrows drawn by add_sf_leg and add_sf_hf_leg are the states of the leg and its throttles at the segments they belong to, for every cut; add_solar_system draws each of the bodies asked for once.", "quantifier": "for every leg, number of segments, cut, throttles and list of bodies", "why_tests_cant": "Every number of segments and cut, including 0 and 1; tests do not look at plots. (False in the code: with mid-points or throttles a cut of 0 or 1 raises an IndexError, the backward arrows of high-fidelity legs are in the wrong order, and Neptune raises a NameError: negations proved.)", "anchors": ["pykep/plot/_ballistic.py: add_ballistic_arc", "pykep/plot/_sf_leg.py: add_sf_leg, add_sf_hf_leg", "pykep/plot/_planet.py: add_solar_system"]}
{"id": "C75", "title": "Elements at an epoch describe the state at that epoch", "statement": "The elements a planet returns for an epoch describe the state its ephemeris returns for that epoch. Along an undisturbed motion the first five elements do not change and the mean anomaly grows linearly at the rate sqrt(mu/a^3).", "quantifier": "for every planet, epoch and two-body motion off the degenerate orbits (circular, in the reference plane, parabolic)", "why_tests_cant": "Continuum of epochs and orbits; tests compare elements at the reference epoch. (False in the code for Keplerian planets: the epoch is ignored and the anomaly is always that of the reference epoch, so the elements are right exactly after whole numbers of periods: equivalence and negation proved.)", "anchors": ["include/kep3/planet.hpp: elements", "src/udpla/keplerian.cpp: keplerian::elements, keplerian::eph", "src/udpla/jpl_lp.cpp: jpl_lp::elements", "src/core_astro/ic2par2ic.cpp: ic2par", "pykep/docstrings.cpp: planet_elements_docstring"]}
{"id": "C76", "title": "Plots of the orbits of planets", "statement": "add_planet_orbit draws the positions of the planet at equally spaced epochs from the first to the last of the range; by default one revolution from epoch 0, closed and without repetition for bound Keplerian planets; without a period the error is passed on.", "quantifier": "for every planet, range, number of points >= 2 and units", "why_tests_cant": "Any planet and number of points; tests do not look at plots. (False in the code for the low-precision Uranus and Neptune: the default range leaves the dates they cover and a domain error is raised: negation proved; proved to be drawn for the other six.)", "anchors": ["pykep/plot/_planet.py: add_planet_orbit", "src/udpla/jpl_lp.cpp: jpl_lp::_f_elements"]}
{"id": "C77", "title": "Cassini gym problems can be evaluated everywhere in their bounds", "statement": "For the three Cassini problems of the gym (direct, alpha and eta encodings), every chromosome within the bounds the problem advertises gives five positive times of flight, encounters within the dates of validity of all the planets used, and an objective evaluated without an exception or undefined behaviour; and the description of the problem can be printed.", "quantifier": "for all real chromosomes within the bounds of the three encodings and, more generally, for all MGA problems among the low-precision planets, all departure dates and positive times of flight within the dates of validity", "why_tests_cant": "The box has six or seven real dimensions and the epochs are built up through three non-linear encodings; the raising set has measure zero, and a description is printed only when somebody asks for it.", "anchors": ["pykep/trajopt/gym/_cassini_mga.py:_cassini1_udp", "pykep/trajopt/gym/_cassini_mga.py:get_extra_info", "pykep/trajopt/_mga.py:_compute_dvs", "src/udpla/jpl_lp.cpp:_f_elements", "src/lambert_problem.cpp:lambert_problem"]}
{"id": "C78", "title": "Python numbers mean the same time everywhere", "statement": "Every Python number (float, int, bool, numpy scalar) given where a time is expected is the same day number: epoch(x), epoch + x, epoch - x and planet.eph(x) use x days whatever the type of x, timedeltas add their exact length, and comparisons of epochs follow Python's protocol (== with something else is False).", "quantifier": "for every Python value of the modelled kinds, every epoch and both behaviours of pybind11 on integers", "why_tests_cant": "Which overload is chosen depends on the dynamic type, the order of registration and the pass of the dispatcher; tests use floats. (False in the code: epoch(numpy.float32(x)) and epoch of an integer beyond 32 bits raise a TypeError, and == with a non-epoch raises: negations proved.)", "anchors": ["pykep/core.cpp: py::class_<kep3::epoch>", "pykep/core.cpp: planet.def(\"eph\")", "include/kep3/epoch.hpp: epoch, operator+, operator-"]}
{"id": "C79", "title": "Arrays handed to Python have the right shape and entries", "statement": "The numpy arrays returned by the gradient methods of the legs have a shape that fits their data, and the entry in row i, column j is the derivative of the i-th constraint in the j-th variable. propagate_lagrangian returns (r, v), or ([r, v], stm) when the matrix is asked for, and propagate_var of the Stark problem two arrays; their entries are the derivatives of the final state in the initial state and in the thrust. The vectorised propagator returns the same matrices flat.", "quantifier": "for every leg, number of segments, cut and throttles; every state, time and history of calls; every row and column", "why_tests_cant": "The shapes and strides depend on the number of segments, and a wrong row-major index shows only off the symmetric cases.", "anchors": ["pykep/core.cpp: compute_mc_grad, compute_tc_grad, propagate_lagrangian, propagate_lagrangian_v, stark_problem.propagate_var", "src/leg/sims_flanagan.cpp: compute_mc_grad, compute_tc_grad", "src/leg/sims_flanagan_hf.cpp: compute_mc_grad, compute_tc_grad"]}
{"id": "C80", "title": "Attributes of legs read back what was assigned", "statement": "Construction stores its arguments, and the arguments by default in Python give the leg the C++ library constructs by default; after an accepted assignment or call of set, each attribute of a leg is the value assigned last, and no other attribute has changed; computations change no attribute. (What rejected calls do: C42, C49.)", "quantifier": "for every leg, sequence of calls and value", "why_tests_cant": "Any order of assignments of all attributes, in particular of the parts of the combined attributes of high-fidelity legs (rvms from rvs and ms).", "anchors": ["pykep/core.cpp: def_property of _sims_flanagan and _sims_flanagan_hf", "src/leg/sims_flanagan.cpp: set_*, get_*", "src/leg/sims_flanagan_hf.cpp: set_*, get_*"]}
{"id": "C81", "title": "Mismatch gradients of Sims-Flanagan legs are numbers", "statement": "For every leg the class accepts, with positive masses and time of flight, the derivatives of the mass mismatch returned by compute_mc_grad are numbers wherever the mass mismatch is differentiable, in particular on coasting legs (zero throttles), of which the default constructed leg is one.", "quantifier": "for every number of segments, cut, throttles (zero or not), masses and time of flight, and every propagator", "why_tests_cant": "The failure is on a set of measure zero which is also the natural initial guess; tests differentiate at random throttles. (False in the code: one zero throttle makes the derivatives with respect to the mass, the time of flight and all throttles of that half of the leg NaN: negation proved; without zero throttles they are numbers.)", "anchors": ["src/leg/sims_flanagan.cpp: gradients_multiple_impulses, gradients_bck, compute_mc_grad", "include/kep3/leg/sims_flanagan.hpp: default members"]}
{"id": "C82", "title": "Julian day number conversions agree with epochs and lose at most 20 microseconds", "statement": "The six functions converting between jd, mjd and mjd2000 numbers convert between the three day numbers of one epoch. With doubles: from jd (1250000 to 4800000) the result is exact, converting back returns the same double, and the direct and the two-step conversion agree; to jd at most 2^-32 of a day is lost, also after converting back, and this bound is reached; mjd to mjd2000 and back is exact for mjd in [25772, 103088]; every conversion is monotone.", "quantifier": "for all epochs; for all doubles in the stated ranges; for all ordered pairs", "why_tests_cant": "A test checks a few dates; exactness for every double of a range is a statement about the floating point format.", "anchors": ["include/kep3/core_astro/convert_julian_dates.hpp: jd2mjd, jd2mjd2000, mjd2jd, mjd2mjd2000, mjd20002jd, mjd20002mjd"]}
{"id": "C83", "title": "Printed descriptions are about the object", "statement": "Printing a solved Lambert problem is defined for every number of revolutions, and shows for each solution in order its number of revolutions, iterations, iteration variable, velocities and the semi-major axis that belongs to the energy of its orbit, each under its own label. The elements printed for a Keplerian or a low-precision planet, read in astronomical units and degrees, are the elements of the state printed below them, and that state is the one of the planet at the epoch printed; a mean anomaly is printed for ellipses only and belongs to the true one.", "quantifier": "for every solved problem and solution index; for every Keplerian planet off the degenerate orbits and every low-precision planet", "why_tests_cant": "Tests only check that printing does not fail, or compare a text with itself; that the numbers describe the object is a statement about all objects.", "anchors": ["src/lambert_problem.cpp: operator<<", "src/udpla/keplerian.cpp: keplerian::get_extra_info", "src/udpla/jpl_lp.cpp: jpl_lp::get_extra_info"]}
{"id": "C84", "title": "Fly-by constraints and impulse survive rounding", "statement": "Computed with doubles, for all non-zero relative velocities and positive mu and safe radius: fb_con returns numbers, its equality within 2^-50 of the sum of the squared speeds and its inequality within 3e-7 rad of the exact ones; fb_dv returns a number within 3e-7 of the sum of the speeds of the exact minimum impulse; equal velocities cost exactly zero and are feasible.", "quantifier": "for all velocities, mu and safe radius; for every mathematical library accurate to 2^-50", "why_tests_cant": "The failures sit in a set of angles of size 1e-7 that random tests do not hit, but optimisers do: aligned and reversed velocities. (False in the code: the quotient handed to acos can round beyond 1; then the inequality is a NaN, and fb_dv takes the branch for feasible turns, so that a reversal costing 13 km/s is reported to cost 1e-4 m/s: negations proved; away from 1e-7 rad of those directions, and for exactly equal or opposite velocities, the bounds are proved.)", "anchors": ["src/core_astro/flyby.cpp: fb_con, fb_dv"]}
{"id": "C85", "title": "Keplerian elements of every state are numbers in double precision", "statement": "Computed with doubles, for every state with a non-zero position and positive mu: the eccentricity is a number within 32 units (of 2^-53) times 1 + r v^2/mu of the exact one; the semi-major axis is a number with a relative error of at most 100 units times the condition of the formula; the inclination is a number in [0, pi] and the longitude of the node in [0, 2 pi] whenever they are defined, and their cosines have errors of at most 26 and 40 units times r v / |r x v| and r v / |k x (r x v)|; the argument of periapsis and the true anomaly are numbers in [0, 2 pi] within 2e-7 rad of the angles between node line, eccentricity vector and position, whenever they are defined.", "quantifier": "for all states and mu; for every mathematical and linear algebra library meeting the stated accuracy", "why_tests_cant": "The failure is at apsides, where random tests never are but where users start (circularisation, departures from perigee), and depends on the last bit. (False in the code for the true anomaly: the cosine can round above 1 and acos then returns a NaN, shown for a perigee of a 205 km Earth orbit: negation proved; NaN is shown to be possible only within 1.1e-7 rad of an apsis, respectively of a node.)", "anchors": ["src/core_astro/ic2par2ic.cpp: ic2par"]}
{"id": "C86", "title": "Lambert problems between positions that are not aligned have velocities that are numbers", "statement": "With doubles, for all positions that are not aligned, positive time of flight and mu: the parameter lambda is a number of magnitude at most one whose square is accurate to 18 units (of 2^-53); the non-dimensional time of flight is accurate to 35 units; and the velocities are numbers for every value of the iteration variable.", "quantifier": "for all positions, times of flight, mu, directions of motion and iteration variables; for every linear algebra library meeting the stated accuracy", "why_tests_cant": "The failures are within 1e-7 rad of transfers by half a turn (Hohmann transfers) and along a ray, and depend on the last bit: random tests miss them, optimisers and textbook examples do not. (False in the code: 1 - c/s and 1 - rho*rho can round below zero and all velocities are then NaN, without an error: negations proved; away from degenerate triangles, to within 40 units of the perimeter, the claim is proved.)", "anchors": ["src/lambert_problem.cpp: lambert_problem::lambert_problem"]}
{"id": "C87", "title": "Plots and printed summaries of the trajectory problems show the trajectory", "statement": "For all problems, decision vectors and units: the plot of a gravity-assist trajectory shows every planet where it is at its encounter and every leg asked for as an arc of that leg's motion from one planet to the next; the total printed is the first objective and the sum of the impulses printed, each with the planet and the epoch of its encounter; in the plot of a direct transfer the dots and the planets are at the two ends of the leg; its printed summary gives the epochs, time of flight, relative velocities and mass of the leg that is optimised.", "quantifier": "for all sequences, planets, decision vectors, encodings, units, numbers of points and lists of legs; for all direct problems and all propagators", "why_tests_cant": "A plot is checked by eye, and with the default units; an error in the units of one coordinate, in the epoch of a planet or in which leg is drawn gives a plausible picture. (False in the code for direct transfers: the first coordinate of the dots, the planets and their orbits are always drawn in astronomical units, whatever the units asked for; proved exactly when they coincide.)", "anchors": ["pykep/trajopt/_mga.py: mga.plot, mga.pretty", "pykep/trajopt/_direct_pl2pl.py: direct_pl2pl.plot, direct_pl2pl.pretty", "pykep/trajopt/_direct_point2point.py: direct_point2point.plot", "pykep/plot/_planet.py: add_planet"]}
{"id": "C88", "title": "Propagation with universal variables is accurate near a parabola", "statement": "With doubles: stumpff_c and stumpff_s are accurate for every argument of at least -1, also next to 0, and propagate_lagrangian_u, whose purpose is that ellipses, parabolas and hyperbolas are treated alike, returns the position of the body for orbits next to a parabola.", "quantifier": "for all arguments of the Stumpff functions, all states, times and mu; for every root finder that answers inside its bracket and every mathematical library meeting the stated accuracy", "why_tests_cant": "The loss of accuracy is in a set of states that random tests do not hit (the energy within rounding of 0), and for the Stumpff functions grows with 1/|x| below any tolerance a test would use. (False in the code: for all doubles of magnitude at most 2^-54 other than 0 both functions return 0 instead of about 1/2 and 1/6, so that the propagation ignores gravity and moves the body on a straight line; proved: the error is at most a constant times 2^-53 / |x|.)", "anchors": ["include/kep3/core_astro/special_functions.hpp: stumpff_s, stumpff_c", "include/kep3/core_astro/kepler_equations.hpp: kepDS, d_kepDS", "src/core_astro/propagate_lagrangian.cpp: propagate_lagrangian_u"]}
{"id": "C89", "title": "The default propagator is accurate near a parabola", "statement": "With doubles: on an ellipse propagate_lagrangian, which every Keplerian planet, leg and problem uses, returns the position of the body up to an error that is small compared to the distance, also when the semi-major axis is much larger than the distance.", "quantifier": "for all semi-major axes, distances, mu and anomalies; for every root finder and every mathematical library meeting the stated accuracy", "why_tests_cant": "The error grows with the ratio of semi-major axis and distance; tests draw states with ratios of order 1 and cannot settle what happens at all ratios. (False in the code: 1 - cos(DE) is 0 or at least 2^-53, so the coefficient F is 1 or misses 1 by a / R0 / 2^53, with nothing in between; for an ellipse with a / R0 = 2^52 no answer of the root finder gives a position closer than 7, at a distance of about 350, to the right one; proved: the error of F is at most 12 * 2^-53 * (1 + a / R0).)", "anchors": ["include/kep3/core_astro/kepler_equations.hpp: kepDE, d_kepDE, kepDH, d_kepDH", "src/core_astro/propagate_lagrangian.cpp: propagate_lagrangian"]}
{"id": "C90", "title": "The anomaly conversions are accurate in double precision", "statement": "With doubles: converting between eccentric, true, Gudermannian and hyperbolic anomaly gives a number for every anomaly, also next to half a turn, where the tangent is huge; the relative error is at most 15 * 2^-53, for every eccentricity, and the angles returned lie strictly between -pi and pi. From the true to the hyperbolic anomaly and for the mean anomalies the error is that of the condition of the problem. Eccentric to true anomaly and back reproduces the eccentric anomaly up to 48 * 2^-53 * (1 + sqrt((1 + e) / (1 - e))).", "quantifier": "for all doubles as anomalies and all eccentricities of the right kind; for every mathematical library meeting the stated accuracy", "why_tests_cant": "The tangent is unbounded next to half a turn and the factor under the root unbounded next to a parabola: accuracy uniform in both is a statement about all of them, and rests on no double being an odd multiple of pi.", "anchors": ["include/kep3/core_astro/convert_anomalies.hpp: e2f, f2e, e2m, f2m, zeta2f, f2zeta, h2f, f2h, h2n"]}
{"id": "C91", "title": "Equinoctial elements are numbers and accurate in double precision", "statement": "With doubles: ic2eq gives numbers for every state, as the comment 'never be singular' and the choice of equinoctial elements promise, except at the singularity of the elements itself (180 degrees of inclination, 0 degrees with the flag retrograde), and they are accurate; eq2ic gives accurate numbers for all elements of an ellipse.", "quantifier": "for all positions, velocities, gravity parameters and both values of the flag; for every mathematical library and BLAS meeting the stated accuracy", "why_tests_cant": "The determinants used for the longitude and the quotients for h, k and p can vanish only for some states, which no sample of states finds; that one of three determinants is always large is an algebraic fact about all frames. (False in the code in two ways: for retrograde orbits within 2^-28 rad of the singularity h is infinite or wrong by 80 percent and more, and next to a parabola p, which is well defined there, is computed as a * (1 - e^2) and is not a number.)", "anchors": ["src/core_astro/ic2eq2ic.cpp: ic2eq, eq2ic"]}
{"id": "C92", "title": "The state computed from orbital elements is accurate in double precision", "statement": "With doubles, par2ic returns, for every ellipse and for every hyperbola before its asymptote, a position and a velocity whose relative errors are at most 125 units of roundoff times the condition of the formula, (1 + e) / |1 - e| and (1 + e) / (1 + e cos f); every ellipse given by doubles gives numbers; a hyperbola gives numbers before the asymptote and an exception beyond, outside 4 e units of roundoff of it.", "quantifier": "for all elements, gravity parameters and anomalies; for every mathematical library and BLAS meeting the stated accuracy", "why_tests_cant": "The tests compare a sample of states with a tolerance; the error of a chain of rotations, divisions and square roots has to be bounded over all elements, including eccentricities next to 1 that no sample reaches.", "anchors": ["src/core_astro/ic2par2ic.cpp: par2ic"]}
{"id": "C93", "title": "The low-precision planet ephemerides are accurate in double precision at all dates", "statement": "With doubles, for each of the eight planets and at every date of the interval, jpl_lp::eph returns numbers, and they are the position and velocity on the ellipse of the secular elements of the tables up to a relative error of 300000 units of roundoff (3.4e-11) plus five times what the root finder leaves of Kepler's equation; the eccentric anomaly of m2e is that of the exact Kepler equation up to full turns and up to (what is left + 64 units of roundoff) / (1 - e).", "quantifier": "for all eight planets, all dates of the interval, all eccentricities and mean anomalies of ellipses; for every mathematical library and BLAS meeting the stated accuracy and every root finder with a bounded residual", "why_tests_cant": "The tests compare a handful of dates with reference values; the mean longitude grows to hundreds of thousands of degrees, so the error of its reduction, of Kepler's equation and of the chain to Cartesian states has to be bounded over the whole interval, apocentre passages included.", "anchors": ["src/udpla/jpl_lp.cpp: jpl_lp::_f_elements, jpl_lp::eph", "include/kep3/core_astro/convert_anomalies.hpp: m2e, m2f, e2f", "src/core_astro/ic2par2ic.cpp: par2ic"]}
{"id": "C94", "title": "The outgoing velocity of a fly-by is accurate, and keeps the relative speed, in double precision", "statement": "With doubles, fb_vout answers with numbers whenever the sine of the angle between the incoming relative velocity and the velocity of the planet is at least 1.2e-12; they are the exact outgoing velocity up to roundings amplified by the inverse of that sine and, for turns of almost 180 degrees, by the conditioning of the turn angle; the relative speed is kept up to roundings whatever the turn angle. Closer to that direction this fails: on an axis or for a planet at rest the result is not a number, and there are parallel velocities for which the result is made of numbers and more than half of the relative speed is lost.", "quantifier": "for all velocities, pericentre radii, plane angles and gravitational parameters; for every mathematical library meeting the stated accuracy", "why_tests_cant": "The tests compare random draws with a tolerance; the loss of accuracy near the direction of the planet, and the wrong speed instead of NaN on it, need a bound over all inputs and a particular rounding pattern.", "anchors": ["src/core_astro/flyby.cpp: fb_vout", "src/linalg.cpp: _cross, _normalize"]}
{"id": "C95", "title": "VSOP2013 planets are values", "statement": "A program that constructs, copies, moves, assigns, destroys, saves, loads and evaluates VSOP2013 planets in any order sees exactly what it would see if every variable were a plain value: an ephemeris never calls into compiled code that is gone, nor into that of another object; copies and archives keep their ephemerides whatever happens to the original. Programs without moves have no undefined behaviour. A variable that was moved from is a trap: using or copying it is undefined, and an archive of it, written and read without complaint, makes a trap of the variable into which it is read.", "quantifier": "for all finite sequences of operations on any number of variables and files; for all planets and thresholds", "why_tests_cant": "A dangling pointer into compiled code may well go on working in a test; the claim is about all orders of copies, assignments and destructions.", "anchors": ["src/udpla/vsop2013.cpp: vsop2013::impl, vsop2013::vsop2013, vsop2013::operator=, vsop2013::save, vsop2013::load, vsop2013::eph", "include/kep3/udpla/vsop2013.hpp: vsop2013"]}
{"id": "C96", "title": "Times of flight decoded in double precision are positive and accurate", "statement": "For every chromosome within the bounds of an MGA problem, with doubles, the alpha and eta encodings decode positive times of flight, close to the exact ones, so that the Lambert problems of the legs can be solved; encoding the decoded times gives the genes back.", "quantifier": "for all chromosomes within the bounds, all total times, all numbers of legs; for every logarithm meeting the stated accuracy", "why_tests_cant": "Random chromosomes almost never have many genes close to their upper bound, where what is left of the total time drowns in roundings; an optimiser that pushes genes to their bounds gets there.", "anchors": ["pykep/trajopt/_mga.py: mga._decode_tofs, mga.eta2direct, mga.direct2eta, mga.alpha2direct, mga.get_bounds, mga._compute_dvs"]}
{"id": "C97", "title": "Propagation along an ellipse is accurate in double precision, for any number of revolutions", "statement": "On every elliptic orbit, and for every time of flight, positive or negative, propagate_lagrangian returns a state whose distance from the exact two-body motion is bounded by an explicit multiple of the unit roundoff, growing linearly with the mean anomaly swept; the same holds for Keplerian planets at every epoch.", "quantifier": "for all elliptic states with mu > 0, all times of flight (resp. epochs); for every mathematical library meeting the stated accuracy and every root finder that settles", "why_tests_cant": "Tests compare with a second propagator at a few random states and tolerances near 1e-12; they neither bound the growth with the number of revolutions nor with the eccentricity, and cannot cover all orbits.", "anchors": ["src/core_astro/propagate_lagrangian.cpp: propagate_lagrangian", "include/kep3/core_astro/kepler_equations.hpp: kepDE", "src/udpla/keplerian.cpp: keplerian::eph"]}
{"id": "C98", "title": "The CR3BP equations are Newton's law seen from the rotating frame", "statement": "A curve solves the differential equations that the CR3BP integrator is built from if and only if, transformed to the inertial frame, it obeys Newton's law of gravitation under the attraction of the two primaries, which themselves move on circles by their mutual attraction; the equations are mirror-reversible and for 0 < mu < 1 they have exactly five equilibria.", "quantifier": "for all mu (equilibria: all 0 < mu < 1), all intervals of time and all curves", "why_tests_cant": "The unit test checks a single trajectory against a stored value; conservation of the Jacobi constant does not fix the sign of the Coriolis term, and no finite set of trajectories shows that the equations are those of the three-body problem.", "anchors": ["src/ta/cr3bp.cpp: cr3bp_dyn, get_ta_cr3bp"]}
{"id": "C99", "title": "The mass mismatch and the throttle constraints of a Sims-Flanagan leg are accurate in double precision", "statement": "With every operation rounded, the mass after any number of forward impulses differs from the exact one by at most 12 units of roundoff per segment of the initial mass, and stays positive; the mass component of the mismatch is within 25 units of roundoff per segment, provided that no backward impulse exceeds half of the effective velocity at the final mass; throttles reported as feasible have a squared norm of at most 1 + 9 * 2^-53.", "quantifier": "for all legs with positive masses and specific impulse and up to 10^9 segments, all throttles, every propagator, and every exponential accurate to two units in the last place", "why_tests_cant": "Tests check the mismatch of a few legs against thresholds near 1e-8; they do not bound how the errors accumulate over the segments, or for which thrusts.", "anchors": ["src/leg/sims_flanagan.cpp: sims_flanagan::compute_mismatch_constraints, sims_flanagan::compute_throttle_constraints"]}
{"id": "C100", "title": "Classical and modified equinoctial elements are converted into each other accurately in double precision", "statement": "With every operation rounded, eq2par of a non-circular, non-equatorial set of elements never divides by zero and gives the eccentricity up to a relative error of 4 units of roundoff, the inclination up to 42, the node up to 79, the longitude of the periapsis up to 111 (angles modulo whole turns), and a semi-major axis whose relative error is proportional to (1+e)/|1-e|; par2eq has errors proportional to the size of the angles handed over; the round trip from classical elements through equinoctial ones returns the same orbit within the sum of these errors, for both values of the retrograde factor.", "quantifier": "for all elements with eccentricity greater than 0 and different from 1 (up to 2^-40), all inclinations strictly between 0 and pi, all angles, and every library of elementary functions accurate to a few units in the last place", "why_tests_cant": "Tests sample random elements against a fixed tolerance; they cannot show which elements lose accuracy (near the parabola, large angles) and that none loses more.", "anchors": ["src/core_astro/eq2par2eq.cpp: eq2par, par2eq"]}
{"id": "C101", "title": "The default period of a planet is accurate in double precision, and is not a number exactly on hyperbolas", "statement": "With every operation rounded, the period computed from a state of negative energy is a number, equal to 2 pi sqrt(a^3 / mu) up to a relative error of 34 Q units of roundoff, where Q = (v^2/2 + mu/r) / |v^2/2 - mu/r|; for positive energy it is not a number. The period of a Keplerian planet built from elements is accurate to 10 units of roundoff whatever its eccentricity.", "quantifier": "for all states off the origin, all mu > 0, whenever Q <= 2^40 (the orbit is not within 2^-40 of a parabola)", "why_tests_cant": "Tests compare the period of a few planets; the loss of accuracy towards the parabola and the sign decision on a rounded energy concern all states.", "anchors": ["src/planet.cpp: period_from_energy", "include/kep3/planet.hpp: planet_inner::period", "src/udpla/keplerian.cpp: keplerian::keplerian"]}
{"id": "C102", "title": "The two halves of a low-thrust leg meet in time in double precision", "statement": "With the arithmetic of times rounded: the mismatch of a high-fidelity leg is that of a leg whose segments, each flown once with its own thrust, have positive durations, equal to tof / nseg up to 7 units of roundoff (2^-53) of tof and adding up to tof up to 6 units; a Sims-Flanagan leg fires every throttle once, in mission order, within one unit of tof of the middle of its segment, and its two passes stop within one unit of tof of each other; the state history of a high-fidelity leg of at least two segments succeeds and is taken at times that increase strictly and lie within 1.1 k + 3 units of tof of the k-th equally spaced time.", "quantifier": "for all times of flight that are doubles (positive; not negative for Sims-Flanagan legs), all numbers of segments the code can represent, all splits into forward and backward segments, and every integrator whose result depends only on the duration", "why_tests_cant": "A segment of zero or negative duration, or a gap between the halves that grows with the number of segments, would appear for particular times of flight and numbers of segments only.", "anchors": ["src/leg/sims_flanagan_hf.cpp: compute_mismatch_constraints", "src/leg/sims_flanagan.cpp: compute_mismatch_constraints", "src/leg/sims_flanagan_hf.cpp: get_state_history"]}
