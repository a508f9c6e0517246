# A machine-checked model of esa/kep3

Everything in `/verif/lean` is a Lean 4 model of the code in `/repo` (kep3, C++20, plus the
pure-Python part of pykep) and theorems about that model. The properties are listed in
`properties.jsonl`; which theorem settles which property is listed in `MANIFEST.json`.

## 1. Trusted base

* The Lean 4.33.0 kernel and the axioms `propext`, `Classical.choice`, `Quot.sound`
  (nothing else; no own axioms, no `sorry`, no `native_decide`, no `bv_decide`).
* Mathlib 4.33.0, used only through its checked theorems.
* The reading of the C++/Python source: each definition cites the file and lines it models.
  The code was never run; the tie between code and model is that reading.
* The assumptions on external code listed in section 3.

## 2. How the code is represented

* **Integers.** `epoch` stores an `int64` count of microseconds. Counts are `Int` with explicit
  range predicate; signed overflow is a distinct outcome (`none` / `Res.ub`), never wrapped.
  `unsigned` segment counts wrap modulo 2^32 where the code relies on it.
* **Doubles in decisions** (validation, dispatch): `Verif.Dbl`, an inductive type with NaN, the two
  infinities and a finite rational. Comparisons follow IEEE 754 (NaN compares false). Every finite
  double is a rational, so comparison is exact.
* **Doubles in formulas**: real numbers. Rounding, overflow and underflow are not modelled (except rounding in
  `Epoch/Double`, `Epoch/Convert`, `Flyby/Double`, `Elements/Double`, `Lambert/Double`, `Lagr/UDouble`, `Lagr/Double`, `Kepler/Double`, `Elements/EqDouble`, `Elements/ParDouble`, `Planet/JplDouble` and `Flyby/VoutDouble`); this is the main simplification and it is repeated at each definition concerned. Where a C++ expression
  would be NaN or infinite because of a division by zero or a domain error, the theorem carries the
  hypothesis that excludes it (or the model returns an explicit error), so that no theorem holds
  because Lean totalises `x/0 = 0`.
* **Exceptions** are `Except`/inductive outcomes carrying the C++ exception class (messages are dropped).
* **Undefined behaviour** is a separate outcome.
* **Loops** are folds or structural recursions over lists of arbitrary length.
* **Shared caches and mutexes**: small-step interleaving model, any number of threads.

## 3. External code, taken as parameters

| external | where used | assumption in theorems |
|---|---|---|
| Boost.Math root finders (`newton_raphson_iterate`, `halley_iterate`) | anomalies, propagation | returns some root of the given function inside the given bracket if one exists (iteration limit not reached) |
| heyoka Taylor integrators | Stark, CR3BP, hf leg | a deterministic function of its tolerance, parameters, initial state and final time |
| VSOP2013 series, SPICE, SGP4 | vsop2013, `_spice`, `_tle` | opaque deterministic functions |
| `std::chrono` calendar conversion | epoch | modelled (days-from-civil algorithm), not assumed |
| `fmt` `%F`/`%T` | epoch printing | modelled (zero padded decimal fields) |
| xtensor `dot`, `linalg` | STM, gradients | ordinary matrix algebra |

## 4. Plan per property

| id | model | proof | 
|---|---|---|
| C01 | `epoch` as Int µs, `tp_from_days` as truncation of a real number of µs | arithmetic of truncation |
| C02 | operators on the count with int64 range check | `omega` |
| C03 | `make_tp` with the `year_month_day::operator sys_days` algorithm | induction over years/months against a day-counting specification |
| C04 | `fmt` printer on civil-from-days, parser on characters | inverse of days-from-civil, digit lemma |
| C05 | parser with length table, substrings and `stoi` | digit lemma per crop |
| C06 | validation of `make_tp` | negation witness (31 Feb), partial: what is accepted, and acceptance of all existing dates |
| C07 | duration constructor | negation for every duration; partial: offset is exactly y2k |
| C08, C09 | record of optional user methods | case analysis, list induction |
| C10 | `period_from_energy` over ℝ with NaN as `none` | real algebra |
| C11 | `elements_from_posvel` decision | negation witness, partial for a ≥ 1 |
| C12–C15 | anomaly functions over ℝ, NaN as `none` | Mathlib trigonometry/derivatives, monotonicity, intermediate value theorem |
| C16–C20 | element conversions over ℝ, `atan2` as `Complex.arg`-like function | vector algebra |
| C21–C24 | `propagate_lagrangian` with the root finder as parameter | polynomial identities; derivative of the inverse of Kepler's equation |
| C25 | `stm_reynolds`, `stm_lagrangian` | matrix identities, derivatives |
| C26–C29 | `fb_con`, `fb_dv`, `fb_vout` | inner-product geometry |
| C30–C33 | `lambert_problem` | list lengths; algebra of the reconstruction formulas; derivative identities |
| C34, C35 | name table, date check, rational tables | `decide`, interval arithmetic for affine functions |
| C36, C37 | keplerian constructor cases | case analysis + C14/C16/C22 |
| C38–C40 | keyed cache with lock, interleaving semantics | invariant by induction; counter-schedule |
| C41 | integrator as mutable record reset before use | refinement to a pure function |
| C42–C46, C47 | leg as record; operations with outcome; passes as folds | invariant by induction over operations; fold induction |
| C48–C51 | hf leg as record with copies of parameters in the integrator | counterexample histories; refinement for the good setters; index arithmetic |
| C52–C54 | encodings over lists of reals | list induction |
| C55, C56 | index lists generated by the loops | list induction |
| C57 | table of exported constants | evaluation |
| C58 | mismatch of legs that differ in the cut only | counterexample; reversibility for ballistic legs |
| C59–C62 | hf leg: archive, chromosome, gradients, throttle constraints | refinement, chain rule over segment sensitivities |
| C63, C64 | time-of-flight curve of Lambert's problem | monotonicity, limits, convexity, intermediate value theorem |
| C65 | Stark and CR3BP right-hand sides | derivative of the invariants along solutions |
| C66 | MGA objectives | list induction |
| C67, C68 | rounding to 53 bits, `timedelta`/`datetime` conversions | error bounds, `omega` |
| C69 | archives as lists of fields written and read in order | round trip by record extensionality |
| C70, C71 | Python planets, TLE, SPICE, conversion | decision logic, reference counting invariant |
| C72–C74 | plotting helpers | refinement to the two-body flow, list lemmas |
| C75 | elements along the motion | constants of the motion, uniqueness of the angles, return times |
| C76 | `add_planet_orbit` | C09, C37, numeric bounds on the periods of the tables |
| C77 | Cassini problems of the gym | bounds of the encodings (C52), planets (C35), Lambert's checks (C30); a polar leg by the intermediate value theorem |
| C78–C80 | Python overloads, arrays, attributes | decision logic, index arithmetic, case analysis over the setters |
| C81 | mass row of the mismatch gradient with NaN | induction over the segments |
| C82 | Julian day number conversions | Sterbenz' lemma |
| C83 | numbers printed for Lambert problems and planets | induction over the solutions; C31, C35–C37 |
| C84 | fly-by functions with every operation rounded | error calculus (`Verif/FloatErr.lean`), Hölder continuity of arccos, evaluation of the roundings of a witness |
| C85 | Keplerian elements with every operation rounded | the same |
| C86 | geometry and velocities of Lambert problems with every operation rounded | the same; Heron's formula for the distance from collinearity |
| C87 | plots and summaries of the trajectory problems | decomposition into the models of C54, C55, C56, C73 and C76 |
| C88 | Stumpff functions and `propagate_lagrangian_u` with every operation rounded | rounding error analysis; evaluation at tiny arguments; bounds on the exact motion |
| C89 | `propagate_lagrangian` with every operation rounded | doubles next to 1; rounding error analysis; bounds on the exact motion |
| C90 | anomaly conversions with every operation rounded | relative error analysis; `arctan` contracts relative errors; irrationality of π |
| C91 | `ic2eq`, `eq2ic` with every operation rounded | rounding error analysis; the determinants are a unit vector |
| C92 | `par2ic` with every operation rounded | rounding error analysis through the rotation matrices |
| C93 | `m2e` and `jpl_lp::eph` with every operation rounded | stability of Kepler's equation, perturbation of the elements, rounding error analysis |
| C94 | `fb_vout` with every operation rounded | rounding error analysis of the frame and of the turn angle; failures evaluated in doubles |
| C95 | memory of compiled modules, with owners | refinement of plain values by an ownership invariant, by induction on the operations |
| C96 | time-of-flight decoding with every operation rounded | rounding error analysis by induction on the legs; failure for a box of chromosomes |
| C97 | Kepler propagation along ellipses with every operation rounded, against the exact flow | forward error analysis: orbit, mean anomaly, residual, stability of Kepler's equation, Lagrange coefficients, state |
| C98 | the CR3BP right-hand side against Newton's law in an inertial frame; its equilibria | change of frame, derivative by derivative; monotonicity of the axial force on three intervals |
| C99 | masses and throttle constraints of Sims-Flanagan legs with every operation rounded | local error of an impulse; the exact update is 1-Lipschitz (convexity of exp); induction over the loops |
| C100 | `eq2par` and `par2eq` with every operation rounded, and their composition | relative errors; angle of a perturbed vector from the chord; wrapping adds whole turns |
| C101 | period from the energy with every operation rounded | relative errors; the condition number of the energy decides |
| C102 | the loops of the leg models with rounded times | loop invariants with the rounded stops; telescoping sums |

## 5. What is modelled

Every definition carries the lines it models. Modules are under `lean/Verif/`; the file that holds the definitions is
named first, the theorems are in the `Props*` files beside it.

| module | source | content |
|---|---|---|
| `Basic`, `Mut`, `Loop`, `Dbl`, `RealOps`, `V3` | `exceptions.hpp`, `linalg.cpp` | outcomes, mutating members, loops, doubles in decisions, partial real functions, 3-vectors |
| `Float`, `FloatErr` | IEEE 754 | rounding to nearest even with 53 bits; no overflow, no subnormals; error bounds |
| `Constants`, `PyConst` | `core_astro/constants.hpp`, `pykep/core.cpp` | constants and their export |
| `Epoch/Model`, `Epoch/Spec` | `epoch.hpp`, `epoch.cpp` | constructors, arithmetic, printing, parsing; calendar by counting days as specification |
| `Epoch/Double` | `epoch.hpp`, `pykep/core.cpp` | the same with rounding; Python `timedelta` and `datetime` |
| `Print/Lambert`, `Print/Planet` | `operator<<` of `lambert_problem.cpp`, `get_extra_info` of `keplerian.cpp` and `jpl_lp.cpp` | the labelled numbers printed, without digits and layout |
| `Flyby/Double` | `flyby.cpp`: `fb_con`, `fb_dv` | with rounding; `acos`, `asin`, `cos` of the C library as parameters accurate to 2^-50 |
| `Elements/Double` | `ic2par2ic.cpp`: `ic2par` | with rounding; each element a number or NaN; `acos`, `dot` and `norm` as parameters |
| `Lambert/Double` | `lambert_problem.cpp`: constructor without the iterations | with rounding; NaN as an outcome |
| `Lagr/UDouble` | `special_functions.hpp`, `kepDS`, `d_kepDS`, `propagate_lagrangian_u` | with rounding; mathematical library and root finder as parameters |
| `Lagr/Double` | `kepDE`, `kepDH`, their derivatives, `propagate_lagrangian` without the state transition matrix | with rounding; mathematical library and root finder as parameters |
| `Kepler/Double` | `convert_anomalies.hpp`, `kepE`, `kepH` and their derivatives | with rounding; mathematical library and root finder as parameters |
| `Elements/EqDouble` | `ic2eq2ic.cpp` | with rounding; mathematical library and BLAS as parameters |
| `Elements/ParDouble` | `par2ic` of `ic2par2ic.cpp` | with rounding; mathematical library and BLAS as parameters |
| `Planet/JplDouble` | `_f_elements` and `eph` of `jpl_lp.cpp` | with rounding, tables and constants included; mathematical library, BLAS and root finder as parameters |
| `Flyby/VoutDouble` | `fb_vout` of `flyby.cpp`, `_cross` and `_normalize` of `linalg.cpp` | with rounding; mathematical library as parameter |
| `Cache/VsopLife` | special members, `save`, `load`, `eph`, `get_name` of `vsop2013` | compiled modules as owned memory; heyoka and Boost archives as parameters |
| `Mga/EncodingDouble` | `_decode_tofs`, `alpha2direct`, `eta2direct`, `direct2eta` of `_mga.py` | with rounding; `numpy.log` as parameter; numpy scalars |
| `Lagr/Props97c` (`Keplerian.ephD`) | `keplerian::eph` | with rounding, on the model of `Lagr/Double` |
| `Stark/Rotating` | none (statements about `cr3bp_dyn`, modelled in `Stark/Dyn`) | Newton's law in the inertial frame |
| `Stark/Rocket` | none (statements about `stark_dyn`, modelled in `Stark/Dyn`) | momentum, torque, rocket equation |
| `SF/Double` | `compute_mismatch_constraints`, `compute_throttle_constraints` of `sims_flanagan` | every operation rounded; the propagator and the exponential are parameters |
| `Elements/EqParDouble` | `eq2par`, `par2eq` | every operation rounded; library functions are parameters |
| `Planet/PeriodDouble` | `period_from_energy`, `m_period` of `keplerian` | every operation rounded |
| `HF/TimeDouble`, `SF/TimeDouble`, `HF/HistoryDouble` | the models of `compute_mismatch_constraints` in `HF/Model` and `SF/Flight`, of `get_state_history` in `HF/History` | run with rounded arithmetic of times |
| `Epoch/Convert` | `convert_julian_dates.hpp` | day number conversions, exact and with rounding |
| `Python/Dispatch`, `Python/Arrays`, `Python/Propagators`, `Python/Attrs` | `pykep/core.cpp` | which overload a Python value selects (epochs, planets); shapes and entries of the arrays returned by legs and propagators; attributes of legs |
| `Kepler/Anomalies`, `Kepler/Equations` | `convert_anomalies.hpp`, `kepler_equations.hpp`, `special_functions.hpp` | anomaly conversions, Kepler's equations, Stumpff functions |
| `Elements/Model` | `ic2par2ic.cpp`, `ic2eq2ic.cpp`, `eq2par2eq.cpp` | conversions between states and elements |
| `Lagr/Model`, `Lagr/Stm`, `Lagr/Reynolds` | `propagate_lagrangian.cpp`, `stm.cpp` | the four propagators and the two state transition matrices |
| `Flyby/Model` | `flyby.cpp` | `fb_con`, `fb_dv`, `fb_vout` |
| `Planet/Model`, `Planet/Keplerian`, `Planet/JplLp` | `planet.hpp`, `planet.cpp`, `keplerian.cpp`, `jpl_lp.cpp` | type erasure, defaults, the two analytic planets |
| `Planet/Python`, `Planet/Convert` | `python_udpla.cpp`, `expose_udplas.*`, `_patch_planet.py`, `_tle.py`, `_spice.py`, `_planet_to_keplerian.py` | planets made in Python |
| `Cache/Machine`, `Cache/Vsop`, `Cache/Ta` | `vsop2013.cpp`, `ta/stark.cpp`, `ta/cr3bp.cpp` | caches under locks, any number of threads |
| `Stark/Model`, `Stark/Dyn` | `stark_problem.cpp`, `ta/stark.cpp`, `ta/cr3bp.cpp` | integrator as mutable record; the right-hand sides |
| `Lambert/Model` | `lambert_problem.cpp` | the whole solver |
| `SF/Model`, `SF/Flight`, `SF/GradModel`, `SF/GradNan` | `sims_flanagan.cpp`, `sf_checks.cpp` | members and setters, mismatch and throttle constraints, gradients |
| `HF/Model`, `HF/History`, `HF/Grad`, `HF/GradAsm`, `HF/TcGrad` | `sims_flanagan_hf.cpp` | the same for the high-fidelity leg, and the state history |
| `Archive/Model` | all `serialize`/`save`/`load` members, `common_utils.hpp` | archives and pickling |
| `Mga/Encoding`, `Mga/Problem`, `Mga/Trajectory`, `Mga/Gym` | `trajopt/_mga.py`, `trajopt/gym/_cassini_mga.py` | encodings, construction, bounds, objectives, the planet made of a trajectory; the Cassini problems |
| `Direct/Leg`, `Direct/P2P`, `Direct/Pl2Pl` | `trajopt/_direct_point2point.py`, `trajopt/_direct_pl2pl.py` | construction, bounds, fitness, gradient, sparsity |
| `Plot/Theta`, `Plot/Lambert`, `Plot/Leg`, `Plot/Orbit` | `plot/__init__.py`, `_lambert.py`, `_ballistic.py`, `_sf_leg.py`, `_planet.py` | the points and arrows that are drawn |
| `Plot/Problems` | `plot` and `pretty` in `trajopt/_direct_point2point.py`, `_direct_pl2pl.py`, `_mga.py`; `add_planet` | the points drawn, in their units; the numbers printed |

`Lagr/*`, `Lambert/*` and `Epoch/Calendar` otherwise hold the mathematics behind the theorems (flow of the two-body problem,
its uniqueness and differentiability, the time-of-flight curve, the calendar); `SF/Kepler` and `Direct/Kepler` put the code's
own propagator and Keplerian planets in the place of the propagator and the planets that the leg and direct-problem theorems
have as parameters.

**Not modelled:** rounding outside of `Epoch/Double`, `Epoch/Convert`, `Flyby/Double`, `Elements/Double`, `Lambert/Double`, `Lagr/UDouble`, `Lagr/Double`, `Kepler/Double`, `Elements/EqDouble`, `Elements/ParDouble`, `Planet/JplDouble`, `Flyby/VoutDouble` and `Mga/EncodingDouble`; overflow to infinity and subnormal doubles; exception messages; text
representations other than those of epochs; the coefficients of the VSOP2013 series and how the series is summed; the numerics of
heyoka's Taylor integrator, of Boost's root finders, of SGP4 and of SPICE; the table of NAIF names (`_spice_utils.py`);
colours, labels and axes of plots; pybind11's conversions, except where
section 6 says so; the build system, tests and documentation.

### Assumptions that appear as hypotheses

Nothing below is an axiom: each is a hypothesis of the theorems that need it, or a parameter of the model.

* `Solver.Sound`: a root finder that returns without using up its iterations returns a zero in its bracket, if there is one.
  `Solver.Quick`: it does not use them up. `idealSolver_sound`, `idealSolver_quick` show that both can be met.
* heyoka: rejects a NaN tolerance; the result of `propagate_until` depends on the state, parameters, tolerance and final time only; C102 takes the results of `propagate_until` and `propagate_grid` to depend on the time elapsed only, and uses `propagate_grid` on strictly monotone grids only;
  for theorems on values, it follows the exact flow and its sensitivities (`Exact`, `ExactGrid`).
* `Reversible`, `FlowDeriv`, `LocalFlow`, `Moves`: hypotheses on a propagator or planet. They are proved, not assumed, for
  `propagate_lagrangian` and for Keplerian planets in `SF/Kepler` and `Direct/Kepler`.
* `HypRange`, `InRange`: the state is neither radial nor parabolic, and on a hyperbola the solution is in the interval searched.
* `Arith.Double`: `acos`, `asin` and `cos` of the C library are accurate to 2^-50, 2^-50 and 2^-52, `acos(1)` is 0, `acos` is between 0
  and the double nearest to pi, and `asin` keeps the sign (`Arith.rounded_double` shows that this can be met); square roots are correctly rounded.
* `Libm.Double`, `LibmT.Double`: `sin`, `sinh`, `cosh`, `pow`, `tan`, `atan`, `tanh`, `atanh` have relative errors of at most 2^-51; the
  first three and `cos` are correctly rounded below 2^-27; `cos` answers with a double in [-1, 1] and `atan` with one not beyond the
  double nearest to pi/2 (`Libm.rounded_double`, `LibmT.rounded_double`: can be met).
* `Blas.Ok`: `dot` and `norm` of xtensor-blas are accurate to 4 and 5 units, exact on vectors along the first axis, and a norm is not
  smaller than a component (`Blas.naive_ok`: met by sums from left to right).
  `Blas.Norm2`: a norm is correctly rounded where the sum of the squares is exact (`naive_norm2`).
* `ExpLib.Double`: `std::exp` has a relative error of at most 2^-51 (`ExpLib.rounded_double`: can be met).
* `Num.Double`: `numpy.log` is accurate to 4 units (`Num.rounded_double`: can be met); the genes are numpy scalars, so that the builtin `sum`
  rounds every partial sum.
* Boost serialization and heyoka's own archive return single values as they were written (`Codec` laws).
* SGP4 and SPICE: array functions agree with the scalar ones; SPICE counts how often a kernel is loaded.
* pybind11: a `timedelta` is converted through a double number of seconds; overloads are tried in the order of registration,
  first all of them without implicit conversions and then all of them with; an integer is accepted for a `double` in the first
  pass or not, depending on the version (`intf`, the theorems hold for both); an `object` parameter accepts everything.

### Axioms

`#print axioms` on the theorems listed in `MANIFEST.json` gives `propext`, `Classical.choice`, `Quot.sound` and no others.

## 6. Findings

Where the code does not have a property, the negation is proved with a witness, and what does hold is proved beside it.

| where | what | theorem |
|---|---|---|
| `epoch.cpp` | dates that do not exist, and month 257, are accepted | `C06_accepts_nonexistent_date`, `C06_accepts_month_257` |
| `epoch.hpp` | an epoch made of a duration does not count from mjd2000 | `C07_duration_not_from_mjd2000` |
| `planet.cpp` | elements of ellipses with semi-major axis below 1 are refused | `C11_small_ellipse_refused` |
| `kepler_equations.hpp` | the second derivative of `kepDS` is wrong | `C15_dd_kepDS_wrong` |
| `propagate_lagrangian.cpp` | the bracket of the universal-variable propagator misses the root (low Earth orbit, SI units) | `C24_universal_misses_si` |
| `propagate_lagrangian.cpp` | no number from `propagate_keplerian` on equatorial orbits | `C24_keplerian_equatorial` |
| `flyby.cpp` | planets without radius or parameter silently give numbers | `C29_silent`, `C29_no_radius` |
| `lambert_problem.cpp` | aligned positions give NaN; huge times of flight are undefined behaviour | `C30_collinear`, `C30_overflow` |
| `lambert_problem.cpp` | NaN at the parabola; formulas differ with revolutions on the hyperbolic side; spurious revolutions | `C32_parabola`, `C32_jump`, `C64_spurious` |
| `flyby.cpp` | the cosine handed to `acos` can round beyond ±1; `fb_con` then returns a NaN, and `fb_dv` reports a reversal of the velocity as (almost) free | `C84_parallel_nan`, `C84_reversal_free` |
| `flyby.cpp` | `fb_vout` next to the direction of the planet's velocity: NaN, or numbers with less than half of the relative speed | `C94_nan`, `C94_speed_lost` |
| `ic2par2ic.cpp` | the cosine of the true anomaly can round above 1: NaN at perigee | `C85_perigee_nan` |
| `lambert_problem.cpp` | `1 - c/s` and `1 - rho*rho` can round below zero: NaN velocities, without an error, for transfers by almost half a turn or almost along a ray | `C86_half_turn_nan`, `C86_small_angle_nan` |
| `_direct_point2point.py`, `_direct_pl2pl.py`: `plot` | the first coordinate of the dots, the planets and the orbits are divided by AU instead of `units` | `C87_dot_away`, `C87_planets_away` |
| `special_functions.hpp` | `1 - cos(sqrt(x))` and `sqrt(x) - sin(sqrt(x))` cancel: 0 instead of 1/2 and 1/6 for tiny `x`, so that `propagate_lagrangian_u` ignores gravity next to a parabola | `C88_stumpff_zero`, `C88_no_gravity`, `C88_near_parabola` |
| `propagate_lagrangian.cpp` | `1 - cos(DE)` cancels: the error of `F` is that of 1 times `a / R0`, so that next to a parabola no state near the right one can be returned | `C89_granularity`, `C89_near_parabola` |
| `ic2eq2ic.cpp` | `p` is computed as `sma * (1 - ecc * ecc)`: not a number for some ellipses next to a parabola; `1 + w(2)` cancels next to retrograde orbits | `C91_near_parabola`, `C91_retrograde` |
| `lambert_problem.cpp` | the iteration variable of every second solution is printed with the label of the semi-major axis | `C83_lambert_label` |
| `jpl_lp.cpp` | a NaN date is not refused | `C34_dates_double` |
| `keplerian.cpp` | equinoctial elements tested as if they were Keplerian ones; circular orbits accepted without a state; negative eccentricity accepted | `C36_meq_hyperbola_refused`, `C36_meq_degenerate`, `C36_negative_eccentricity` |
| `ta/stark.cpp`, `ta/cr3bp.cpp` | the variational size functions lock the wrong mutex: a data race | `C40_race` |
| `sims_flanagan.cpp` | `set` checks the old members; NaN and out-of-range cuts accepted | `C42_set_accepts_anything`, `C42_nan_accepted`, `C42_constructor_cut_unchecked` |
| `sims_flanagan.cpp` | a zero throttle (as in the default leg) makes the gradient of the mass mismatch NaN | `C81_zero_throttle`, `C81_default` |
| `sims_flanagan_hf.cpp` | setters do not reach the integrators | `C48_set_mu_stale` and others |
| `sims_flanagan_hf.cpp` | a failed `set` keeps its arguments, and can lead to undefined behaviour | `C49_failed_set_then_ub` |
| `sims_flanagan_hf.cpp` | state history of one segment reads out of bounds | `C50_one_segment_ub` |
| `sims_flanagan_hf.cpp` | the throttle columns of the gradient lack the factor max_thrust | `C61_missing_factor` |
| `sims_flanagan_hf.hpp` | archives lose the variational integrator | `C59_roundtrip_changes_gradients`, `C69_hf_loses` |
| `_mga.py` | the alpha encoding is not injective; construction checks are incomplete; the caller's list is overwritten | `C52_alpha_not_injective`, `C53_*`, `C53_caller_list` |
| `_mga.py` | eta encoding with seven legs or more: what is left of the time of flight drowns in roundings, and times within the bounds decode to exactly 0 | `C96_seven_legs`, `C96_seven_legs_raise` |
| `pykep/core.cpp` | `DEG2RAD` has the value of `RAD2DEG` | `C57_deg2rad` |
| `sims_flanagan.cpp` | the cut changes the mismatch of a leg with burns | `C58_cut_matters` |
| `pykep/core.cpp` | `timedelta`s lose microseconds; aware datetimes lose their zone | `C68_loses`, `C68_aware` |
| `pykep/core.cpp` | `epoch(x)` refuses numpy scalars other than `float64` and integers beyond 32 bits; `==` and `!=` with a non-epoch raise | `C78_epoch_rejects`, `C78_compare` |
| `python_udpla.cpp`, `_patch_planet.py` | Python planets cannot be pickled; deep copies share; `extract(object)`; `eph_v` may read out of bounds | `C69_python_planet`, `C70_deepcopy`, `C70_object`, `C70_eph_v_out_of_bounds` |
| `_tle.py`, `_spice.py` | errors of SGP4 are silent; parameters of SPICE planets are ignored; copies unload the kernel | `C71_tle_silent`, `C71_spice_parameters`, `C71_kernel_lost` |
| `keplerian.cpp` | elements do not depend on the epoch: the anomaly is that of the reference epoch | `C75_keplerian_ellipse`, `C75_refuted` |
| `gym/_cassini_mga.py` | the description of the problems raises `NameError`; some chromosomes within the bounds raise | `C77_description_refuted`, `C77_raises_within_bounds` |
| `plot/_planet.py`, `jpl_lp.cpp` | the default range leaves the dates of Uranus and Neptune | `C76_jpl_outer` |
| `plot/*` | angles beyond the asymptotes; clockwise transfers; cut 0 or 1; backward arrows; Neptune | `C72_beyond`, `C73_clockwise`, `C74_no_midpoints`, `C74_hf_backward`, `C74_neptune` |

## 7. Tests of the theorems

`seeded/LOG.jsonl` lists wrong programs: an edit of one definition of the model in a scratch copy, the claim it breaks, and the
theorems that stopped proving. Where none did, the theorem that was tightened or added is named.
