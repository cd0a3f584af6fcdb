{"id": "C01", "title": "Result histories stay aligned", "statement": "Whenever QLaw.solve() returns normally, with any exit code, times, states, masses and battery all have the same length n+1 and controls, etas, etas_bounds, Qs and dQdts all have length n, where n is the number of completed steps; entry 0 holds the initial time, state, mass and battery.", "quantifier": "every problem, every control law / integrator / perturbation behaviour, every number of iterations, any number arithmetic (including IEEE doubles and NaN)", "why_tests_cant": "A test checks the lengths at the end of one run; a break or exception between two appends only shows up for particular inputs.", "anchors": ["pyqlaw/_qlaw.py: QLaw.solve"]}
{"id": "C02", "title": "Exit code and converge flag are consistent on a fresh object", "statement": "When solve() returns normally on an object that has not been solved before, exitcode is one of 1, 2, -1, -2, -3 and converge is True exactly when exitcode is 1 or 2.", "quantifier": "every problem and every terminating run from a fresh object", "why_tests_cant": "Exit codes are assigned at five places in a loop; tests reach only two of them.", "anchors": ["pyqlaw/_qlaw.py: QLaw.solve", "pyqlaw/_qlaw.py: QLaw.__init__"]}
{"id": "C03", "title": "Exit code 1 means the final state meets tolerance, and it is the first one", "statement": "On a fresh object, exitcode 1 is returned only if the last recorded state passes the convergence check at tol_oe, and no earlier step's resulting state passed it. Conversely, if a step's resulting state passes the check the run stops there with exit code 1.", "quantifier": "every problem, every run length", "why_tests_cant": "Needs an invariant over all earlier steps.", "anchors": ["pyqlaw/_qlaw.py: QLaw.solve", "pyqlaw/_convergence.py: check_convergence_keplerian, check_convergence_mee"]}
{"id": "C04", "title": "Exit code 2 means the relaxed tolerance was met exit_at_relaxed times", "statement": "On a fresh object, exitcode 2 is returned only if the last state is inside the relaxed tolerance (and not inside tol_oe) and the number of steps whose resulting state was inside the relaxed tolerance is exactly max(1, exit_at_relaxed).", "quantifier": "every problem, every run length, every exit_at_relaxed", "why_tests_cant": "Counting property over an unbounded history.", "anchors": ["pyqlaw/_qlaw.py: QLaw.solve"]}
{"id": "C05", "title": "Exit code -1 means the mass threshold was crossed, for the first time", "statement": "On a fresh object, exitcode -1 is returned only if the last recorded mass is <= mass_min, and no mass recorded after an earlier step is <= mass_min; convergence takes precedence over depletion on the same step.", "quantifier": "every problem, every run length", "why_tests_cant": "Needs an invariant over all earlier steps and the precedence of the checks.", "anchors": ["pyqlaw/_qlaw.py: QLaw.solve"]}
{"id": "C06", "title": "Exit code -2 means time ran out and nothing else", "statement": "exitcode -2 is returned only if abs(times[-1]) < abs(tf_max) is false, no recorded step converged, and no recorded step fell to mass_min.", "quantifier": "every problem, every run length", "why_tests_cant": "Needs an invariant over all earlier steps.", "anchors": ["pyqlaw/_qlaw.py: QLaw.solve"]}
{"id": "C07", "title": "Exit code -3 means more NaN thrust angles than allowed", "statement": "On a fresh object, exitcode -3 is returned only after the control law produced NaN angles nan_angles_threshold+1 times while the duty was on; the aborted step is not recorded, and every recorded NaN step has throttle 0 and angles (0,0).", "quantifier": "every problem, every NaN pattern", "why_tests_cant": "NaNs are hard to provoke; the corresponding test in the repo is commented out.", "anchors": ["pyqlaw/_qlaw.py: QLaw.solve"]}
{"id": "C08", "title": "Each solve() call reports its own outcome", "statement": "After any solve() call, exitcode and converge describe that call. (Violated: solve() does not reset them; a run that times out after an earlier success still reports exitcode 1 / converge True, and a depleted run after a success reports exitcode -1 with converge True.)", "quantifier": "every sequence of set_problem/solve calls on one object", "why_tests_cant": "Depends on the call history of the object, tests use each object once.", "anchors": ["pyqlaw/_qlaw.py: QLaw.solve"]}
{"id": "C09", "title": "Time moves forward strictly and steps never exceed t_step", "statement": "For a forward problem (t_step > 0, no Sundman transformation) recorded times are strictly increasing and each increment is at most t_step; an increment is shorter than t_step only when the battery would otherwise hit its floor, in which case it is exactly (battery - floor)/discharge_rate.", "quantifier": "every problem with t_step > 0 and discharge rate >= 0, every control law, exact arithmetic", "why_tests_cant": "Universal over histories; includes the battery shortening branch.", "anchors": ["pyqlaw/_qlaw.py: QLaw.solve"]}
{"id": "C10", "title": "tf_max is respected up to the last step", "statement": "Every recorded time except the last satisfies |t| < |tf_max|; for t_step > 0 without Sundman transformation and with a discharge rate of at least 0 the last is below |tf_max| + t_step.", "quantifier": "every problem, every run length", "why_tests_cant": "Universal over histories.", "anchors": ["pyqlaw/_qlaw.py: QLaw.solve"]}
{"id": "C11", "title": "solve() terminates", "statement": "For t_step > 0 without Sundman transformation, solve() stops after at most an explicitly bounded number of iterations. With t_step = 0 it never stops unless it converges, depletes, or hits the NaN limit.", "quantifier": "every problem, every control law, exact arithmetic", "why_tests_cant": "Termination cannot be tested.", "anchors": ["pyqlaw/_qlaw.py: QLaw.solve"]}
{"id": "C12", "title": "Backward propagation", "statement": "For t_step < 0 (no Sundman) and discharge rate >= 0, recorded times strictly decrease by exactly |t_step| and the run still stops.", "quantifier": "every problem with t_step < 0", "why_tests_cant": "Universal over histories.", "anchors": ["pyqlaw/_qlaw.py: QLaw.solve"]}
{"id": "C13", "title": "Propellant bookkeeping", "statement": "On each step mass changes by -mdot*(times[k+1]-times[k]) when controls[k] has throttle 1 and not at all otherwise; hence final mass = mass0 - mdot * (total thrusting time).", "quantifier": "every problem, every run length, both integrators", "why_tests_cant": "Sum over an unbounded history.", "anchors": ["pyqlaw/_qlaw.py: QLaw.solve"]}
{"id": "C14", "title": "Mass never increases in forward runs and stays above mass_min until the last step", "statement": "For mdot >= 0 and forward time, masses is non-increasing; every mass recorded after a step other than the last one is > mass_min (never <= mass_min).", "quantifier": "every problem, every run length", "why_tests_cant": "Universal over histories.", "anchors": ["pyqlaw/_qlaw.py: QLaw.solve"]}
{"id": "C15", "title": "Battery level stays within capacity", "statement": "If battery_capacity is an ordered pair, every battery level recorded after a step lies in [capacity[0], capacity[1]] or is NaN; with finite inputs it is never NaN.", "quantifier": "every problem, every run length, both integrators, any arithmetic with IEEE comparison laws", "why_tests_cant": "Universal over histories.", "anchors": ["pyqlaw/_qlaw.py: QLaw.solve"]}
{"id": "C16", "title": "No thrust on a depleted battery", "statement": "If controls[k] has throttle 1 then battery[k] <= capacity[0] + 1e-12 does not hold.", "quantifier": "every problem, every run length, any arithmetic", "why_tests_cant": "Universal over histories.", "anchors": ["pyqlaw/_qlaw.py: QLaw.solve"]}
{"id": "C17", "title": "Full-recharge lockout", "statement": "With require_full_recharge=True, after a step at which the battery was found at its floor, no step has throttle 1 until a recorded battery level equals capacity[1].", "quantifier": "every problem, every run length; any arithmetic for a level not below capacity[1], exact arithmetic with finite data for equality", "why_tests_cant": "Temporal property over histories.", "anchors": ["pyqlaw/_qlaw.py: QLaw.solve"]}
{"id": "C18", "title": "A thrusting step is paid for by the battery", "statement": "With the rk4 integrator, on every thrusting step (throttle 1) the battery drops by exactly discharge_rate*(times[k+1]-times[k]), i.e. it is never clipped at the floor while thrusting. (Holds when require_full_recharge=True; violated when it is False: while still recharging the step is not shortened and energy below the floor is used for free.)", "quantifier": "every forward problem with battery_initial inside the capacity, every run length", "why_tests_cant": "Universal over histories; the violating history needs a depletion followed by a partial recharge.", "anchors": ["pyqlaw/_qlaw.py: QLaw.solve"]}
{"id": "C19", "title": "Duty cycle limits continuous thrusting", "statement": "In forward runs with non-negative duty_cycle, if steps j..k all have throttle 1 then times[k]-times[j] <= duty_cycle[0]; and, when the battery plays no role, once switched off by the duty cycle thrust does not resume before more than duty_cycle[1] has elapsed. (Violated for backward runs: time differences are negative and the cycle never switches off.)", "quantifier": "every forward problem, every pair j<=k", "why_tests_cant": "Temporal property over histories.", "anchors": ["pyqlaw/_qlaw.py: QLaw.solve"]}
{"id": "C20", "title": "Default duty cycle and battery never inhibit thrust", "statement": "With the default duty_cycle, battery_initial, battery_capacity and rates, in runs with |tf_max| <= 1e16 the duty is on at every step and battery stays at its initial value.", "quantifier": "every problem using the defaults, every run length", "why_tests_cant": "Universal over histories.", "anchors": ["pyqlaw/_qlaw.py: QLaw.solve", "pyqlaw/_qlaw.py: QLaw.set_problem"]}
{"id": "C21", "title": "Starting at the battery floor", "statement": "solve() handles a problem whose initial battery is at its floor by coasting. (Violated: the first step coasts before any thrust angle has been computed and recording the controls raises UnboundLocalError.)", "quantifier": "every problem with battery_initial <= capacity[0]+1e-12 and tf_max != 0", "why_tests_cant": "A whole class of inputs, plus the proof that this is the only way to reach the unbound variable.", "anchors": ["pyqlaw/_qlaw.py: QLaw.solve"]}
{"id": "C22", "title": "Thrust / coast decision", "statement": "On a recorded duty-on step with valid angles the throttle is 0 exactly when a threshold is positive and the measured absolute or relative effectivity is below its threshold; otherwise it is 1. With both thresholds non-positive it is always 1.", "quantifier": "every step of every run, constant or callable thresholds, any arithmetic", "why_tests_cant": "All branches for all threshold callables.", "anchors": ["pyqlaw/_qlaw.py: QLaw.solve"]}
{"id": "C23", "title": "Effectivities are normalised in forward runs", "statement": "With tmax > 0 and forward time the recorded absolute and relative effectivities lie in [0,1] and are 1 where the current rate is the best over the sampled orbit. (Violated for backward runs: the rates are negative, so the absolute effectivity is always >= 1 and the relative one is inverted.)", "quantifier": "every orbit, every grid size >= 1, every control law whose rate is 2*pi periodic in the anomaly", "why_tests_cant": "Universal over real-valued orbits.", "anchors": ["pyqlaw/_qlaw.py: QLaw.solve, QLaw.evaluate_osculating_qdot"]}
{"id": "C24", "title": "Threshold argument types are checked", "statement": "solve() rejects an eta_a which is neither float nor callable, before touching any result. eta_r is treated the same way. (Violated for eta_r: a non-float such as the integer 1 is silently ignored and acts like no threshold.)", "quantifier": "every argument kind and every problem", "why_tests_cant": "Equality of complete runs for all problems.", "anchors": ["pyqlaw/_qlaw.py: QLaw.solve"]}
{"id": "C25", "title": "Throttle 1 means full thrust, throttle 0 means none", "statement": "On each step the acceleration used for propagation is zero when the throttle is 0, and otherwise has magnitude |tmax/mass| with the recorded angles giving its direction in the RTN frame.", "quantifier": "every step of every run", "why_tests_cant": "Universal over histories and real-valued angles.", "anchors": ["pyqlaw/_qlaw.py: QLaw.solve"]}
{"id": "C26", "title": "solve() does not modify its inputs", "statement": "solve() leaves the oe0 array supplied by the caller unchanged and the first recorded state equals it. (Holds for mee_with_a; violated for keplerian: clamping is done in place, so both the caller's array and states[0] are overwritten when oe0 is out of bounds.)", "quantifier": "every problem, every run length", "why_tests_cant": "Aliasing over whole runs.", "anchors": ["pyqlaw/_qlaw.py: QLaw.solve", "pyqlaw/_convergence.py: elements_safety"]}
{"id": "C27", "title": "Recorded Keplerian states respect the element bounds", "statement": "With elements_type keplerian and oe_min <= oe_max, in every recorded state except the last the first five elements lie in [oe_min, oe_max], even if the integrator produced NaN. (For mee_with_a oe_min/oe_max are never applied.)", "quantifier": "every problem, every run length, any arithmetic with IEEE comparison laws", "why_tests_cant": "Universal over histories, including NaN.", "anchors": ["pyqlaw/_qlaw.py: QLaw.solve", "pyqlaw/_convergence.py: elements_safety"]}
{"id": "C28", "title": "Object protocol: validation and readiness", "statement": "On every sequence of API calls: mu stays positive, integrator and elements_type stay legal, solve() raises before touching anything until a set_problem() has succeeded, set_problem() either raises and changes nothing or installs the whole problem, and exitcode stays 0 and converge False until a solve() runs. The constructor raises AssertionError exactly for an illegal relaxed_tol_factor, mu, elements_type, integrator or length of tol_oe, and otherwise stores its arguments.", "quantifier": "every finite sequence of setter, set_problem and solve calls, starting from any successful construction", "why_tests_cant": "Quantifies over all call sequences.", "anchors": ["pyqlaw/_qlaw.py: QLaw.__init__, QLaw.mu, QLaw.elements_type, QLaw.integrator, QLaw.set_problem, QLaw.solve"]}
{"id": "C29", "title": "Element type and dynamics agree", "statement": "The equations of motion, control law and convergence check in use always match elements_type. (Holds after construction; violated after assigning prob.elements_type, which leaves them at the old type.)", "quantifier": "every sequence of API calls", "why_tests_cant": "Quantifies over all call sequences.", "anchors": ["pyqlaw/_qlaw.py: QLaw.elements_type, QLaw.__init__"]}
{"id": "C30", "title": "A six-component target behaves as its first five components", "statement": "set_problem() with a 6-component oeT followed by solve() yields the same run as with oeT[0:5]; a target with any other wrong length is accepted by set_problem() and makes solve() raise in its first iteration.", "quantifier": "every target, every run", "why_tests_cant": "Equality of whole runs.", "anchors": ["pyqlaw/_qlaw.py: QLaw.set_problem, QLaw.solve"]}
{"id": "C31", "title": "Sundman step", "statement": "With use_sundman and 0 <= e < 1, a > 0, t_step > 0 the time step is positive and equals the Keplerian time of flight sqrt(a^3/mu)*(dE - e sin(E0+dE) + e sin E0) for an eccentric anomaly increment dE = t_step. (Violated for t_step < 0: the step is a positive time, so backward propagation runs forward.)", "quantifier": "every completed run and recorded step on an ellipse, every true anomaly other than odd multiples of pi (pole of the tangent), every t_step > 0", "why_tests_cant": "Real-analytic, universal over orbits.", "anchors": ["pyqlaw/_qlaw.py: QLaw.solve", "pyqlaw/_elements.py: ta2ea, mee2ea"]}
{"id": "C32", "title": "rkf45 step-size control in solve()", "statement": "With integrator rkf45 the step is adapted to the local error estimate and battery bookkeeping uses the elapsed time. (Violated: the adapted step never influences times, and battery is charged with the clamped suggested step instead of the elapsed one.)", "quantifier": "every problem, every run", "why_tests_cant": "Comparison of whole runs for all inputs.", "anchors": ["pyqlaw/_qlaw.py: QLaw.solve", "pyqlaw/_integrate.py: rkf45"]}
{"id": "C33", "title": "Relaxed tolerance contains the strict tolerance", "statement": "With non-negative tol_oe and relaxed_tol_factor >= 1 (enforced), whatever passes the strict check passes the relaxed one.", "quantifier": "every state, target, weights and tolerances", "why_tests_cant": "Universal over real inputs.", "anchors": ["pyqlaw/_qlaw.py: QLaw.__init__", "pyqlaw/_convergence.py"]}
{"id": "C34", "title": "MEE convergence check is the weighted box test", "statement": "check_convergence_mee returns True exactly when each of the five elements either has weight zero or differs from its target by at most its tolerance.", "quantifier": "all real vectors; NaN elements with non-zero weight are never converged", "why_tests_cant": "Universal over real inputs.", "anchors": ["pyqlaw/_convergence.py: check_convergence_mee"]}
{"id": "C35", "title": "Keplerian convergence check measures angles modulo a full turn", "statement": "check_convergence_keplerian returns True exactly when each element with non-zero weight is within tolerance, where a, e, i are compared directly and RAAN and argument of periapsis by the shortest angular distance; it is unchanged by adding full turns to those two angles.", "quantifier": "all real vectors, all integer numbers of turns", "why_tests_cant": "Universal over real inputs.", "anchors": ["pyqlaw/_convergence.py: check_convergence_keplerian"]}
{"id": "C36", "title": "elements_safety clamps", "statement": "elements_safety returns, in place, elements whose first five components lie in the bounds, leaves in-bounds elements and the anomaly unchanged, and is idempotent.", "quantifier": "all vectors and ordered bounds, any arithmetic with IEEE comparison laws", "why_tests_cant": "Universal, including NaN.", "anchors": ["pyqlaw/_convergence.py: elements_safety"]}
{"id": "C37", "title": "Thrust angles point against the gradient", "statement": "For any u with non-zero in-plane part, the angles from _u_to_thrust_angles reproduce the unit vector -u/|u| as (cos b sin a, cos b cos a, sin b), with a in (-pi,pi] and b in (-pi/2,pi/2); u=0 yields NaN angles; a purely out-of-plane u raises ZeroDivisionError in compiled mode.", "quantifier": "all real 3-vectors", "why_tests_cant": "Real-analytic.", "anchors": ["pyqlaw/_lyapunov.py: _u_to_thrust_angles"]}
{"id": "C38", "title": "The commanded direction is the steepest descent of Q", "statement": "Among all RTN thrust directions of the same magnitude, the direction given by the returned angles minimises dQ/dt, with value minus the reported dqdt; the reported dqdt is non-negative for positive thrust and vanishes only where the gradient of Q along all thrust directions vanishes.", "quantifier": "every gradient, Gauss matrix and thrust magnitude", "why_tests_cant": "Optimality over a continuum.", "anchors": ["pyqlaw/_lyapunov.py: lyapunov_control_angles", "pyqlaw/_symbolic.py"]}
{"id": "C39", "title": "The two ways of computing dQ/dt agree", "statement": "The rate returned with the control angles equals the rate function used for sampling the orbit, at every state where control angles are returned (the gradient along the thrust directions has an in-plane part).", "quantifier": "all states and parameters, both element types", "why_tests_cant": "Universal over real inputs.", "anchors": ["pyqlaw/_lyapunov.py: lyapunov_control_angles", "pyqlaw/_symbolic.py: symbolic_qlaw_keplerian, symbolic_qlaw_mee_with_a"]}
{"id": "C40", "title": "Q is a valid Lyapunov candidate", "statement": "For non-negative weights Q >= 0; Q = 0 exactly when every element with positive weight is at its target (angles modulo full turns for Keplerian); Q is independent of the anomaly and scales as 1/accel^2.", "quantifier": "all elliptic states, targets and parameters, both element types", "why_tests_cant": "Universal over real inputs.", "anchors": ["pyqlaw/_symbolic.py: symbolic_qlaw_keplerian, symbolic_qlaw_mee_with_a"]}
{"id": "C41", "title": "Q decreases along the controlled motion", "statement": "Along any solution of the package's equations of motion driven by the commanded thrust (no perturbation), dQ/dt = -|accel|*|gradient in thrust directions| <= 0 wherever Q is differentiable, and Q is differentiable on an explicit region.", "quantifier": "all such solutions", "why_tests_cant": "Concerns continuous-time flow.", "anchors": ["pyqlaw/_symbolic.py", "pyqlaw/_lyapunov.py", "pyqlaw/_eom.py"]}
{"id": "C42", "title": "Keplerian maximum element rates are maxima", "statement": "The rates used to normalise Q bound |da/dt|, |de/dt|, |di/dt| and |dRAAN/dt| over all true anomalies and unit thrust directions, and each bound is attained.", "quantifier": "all ellipses, anomalies and directions", "why_tests_cant": "Optimality over a continuum.", "anchors": ["pyqlaw/_symbolic.py: symbolic_qlaw_keplerian"]}
{"id": "C43", "title": "MEE maximum element rates are maxima", "statement": "The rates used to normalise Q in MEE bound |da/dt|, |df/dt|, |dg/dt|, |dh/dt|, |dk/dt| over anomaly and direction. (Holds for a. The f bound is the maximum exactly when g = 0, the g bound exactly when f = 0, the h bound exactly when f <= 0, the k bound exactly when g <= 0.)", "quantifier": "all ellipses, longitudes and directions", "why_tests_cant": "Optimality over a continuum.", "anchors": ["pyqlaw/_symbolic.py: symbolic_qlaw_mee_with_a"]}
{"id": "C44", "title": "MEE Gauss coefficients for the semi-major axis are right in every quadrant", "statement": "The coefficients multiplying thrust in da/dt for MEE elements equal 2a^2/h*(f sin L - g cos L) and 2a^2/h*(1 + f cos L + g sin L). (Holds for f > 0; violated for f < 0 where the single-argument arctangent puts the true anomaly half a turn off.)", "quantifier": "all MEE states", "why_tests_cant": "Half of the input space is wrong and the tests sit in the other half.", "anchors": ["pyqlaw/_symbolic.py: symbolic_qlaw_mee_with_a", "pyqlaw/_eom.py: eom_mee_with_a_gauss"]}
{"id": "C45", "title": "Keplerian -> MEE -> Keplerian round trip", "statement": "mee2kep(kep2mee(k)) = k for 0 < e < 1, 0 < i < pi and angles RAAN, omega in (-pi,pi]; for arbitrary angles, equal modulo full turns.", "quantifier": "all such orbits", "why_tests_cant": "Universal over real inputs.", "anchors": ["pyqlaw/_elements.py: kep2mee, mee2kep"]}
{"id": "C46", "title": "MEE -> Keplerian -> MEE round trip", "statement": "kep2mee(mee2kep(m)) = m for every elliptic m with (h,k) != (0,0). (Violated at h=k=0 with e>0: the direction of periapsis is lost.)", "quantifier": "all such MEE vectors", "why_tests_cant": "Universal over real inputs; the failing set has measure zero but contains every equatorial orbit.", "anchors": ["pyqlaw/_elements.py: kep2mee, mee2kep"]}
{"id": "C47", "title": "Conversions through semi-major-axis MEE agree", "statement": "mee2mee_with_a and mee_with_a2mee are mutually inverse for f^2+g^2 != 1; kep2mee_with_a = mee2mee_with_a o kep2mee; mee_with_a2kep o kep2mee_with_a is the identity on canonical Keplerian elements.", "quantifier": "all such vectors", "why_tests_cant": "Universal over real inputs.", "anchors": ["pyqlaw/_elements.py: mee2mee_with_a, mee_with_a2mee, kep2mee_with_a, mee_with_a2kep"]}
{"id": "C48", "title": "kep2sv produces the orbit with the given elements", "statement": "For a(1-e^2) > 0, mu > 0 and 1+e cos(ta) > 0: |r| = a(1-e^2)/(1+e cos ta), v^2 = mu(2/|r| - 1/a), r.v = |r| * sqrt(mu/p) e sin ta, and r x v = sqrt(mu p) * (sin i sin RAAN, -sin i cos RAAN, cos i). Skipping a rotation for a zero angle changes nothing.", "quantifier": "all such element vectors", "why_tests_cant": "Universal over real inputs.", "anchors": ["pyqlaw/_elements.py: kep2sv", "pyqlaw/_transformations.py"]}
{"id": "C49", "title": "Cartesian round trip", "statement": "sv2kep(kep2sv(k, mu), mu) = k for a > 0, 0 < e < 1, 0 < i < pi, RAAN in (-pi,pi], omega in [0,2 pi), ta in (-pi,pi], provided the orbit is not within the code's 1e-12 singularity guard.", "quantifier": "all such orbits and mu > 0", "why_tests_cant": "Universal over real inputs.", "anchors": ["pyqlaw/_elements.py: sv2kep, kep2sv, get_semiMajorAxis, get_eccentricity, get_inclination, get_raan, get_omega, get_trueanom"]}
{"id": "C50", "title": "MEE to Cartesian agrees with Keplerian to Cartesian", "statement": "mee_with_a2sv(kep2mee_with_a(k), mu) = kep2sv(k, mu) for all elliptic k with 0 < i < pi. (Violated for i = 0 and e > 0.)", "quantifier": "all such orbits, arbitrary angles", "why_tests_cant": "Universal over real inputs.", "anchors": ["pyqlaw/_elements.py: mee_with_a2sv, kep2mee_with_a, kep2sv"]}
{"id": "C51", "title": "Orbital period", "statement": "get_period of a state on an ellipse of semi-major axis a is 2 pi sqrt(a^3/mu), and is -1 exactly for negative semi-major axis.", "quantifier": "all states with non-zero angular momentum and energy, mu > 0 (parabolic and rectilinear states raise ZeroDivisionError)", "why_tests_cant": "Universal over real inputs.", "anchors": ["pyqlaw/_elements.py: get_period, get_semiMajorAxis"]}
{"id": "C52", "title": "True to eccentric anomaly", "statement": "For 0 <= e < 1, ta2ea returns E in (-pi,pi) with r = a(1 - e cos E), cos E = (e+cos ta)/(1+e cos ta), sin E = sqrt(1-e^2) sin ta/(1+e cos ta); it is the identity for e = 0 on (-pi,pi), odd, and strictly increasing on (-pi,pi).", "quantifier": "all e in [0,1), all ta not an odd multiple of pi", "why_tests_cant": "Universal over real inputs.", "anchors": ["pyqlaw/_elements.py: ta2ea"]}
{"id": "C53", "title": "Eccentric anomaly from MEE agrees", "statement": "mee2ea(kep2mee(k)) equals ta2ea(ta, e) for every k with e > 0.", "quantifier": "all such orbits, arbitrary angles", "why_tests_cant": "Universal over real inputs.", "anchors": ["pyqlaw/_elements.py: mee2ea, ta2ea, kep2mee"]}
{"id": "C54", "title": "Orbit sampling closes", "statement": "get_orbit_coordinates returns `steps` Cartesian states, all on the orbit (same energy and angular momentum), and for steps >= 2 the first and last coincide.", "quantifier": "all elliptic elements, all steps", "why_tests_cant": "Universal over sizes.", "anchors": ["pyqlaw/_elements.py: get_orbit_coordinates"]}
{"id": "C55", "title": "Rotation matrices are rotations", "statement": "rotmat1, rotmat2 and rotmat3 are orthogonal with determinant 1, form one-parameter groups and invert under negation of the angle.", "quantifier": "all angles", "why_tests_cant": "Universal over real inputs.", "anchors": ["pyqlaw/_transformations.py: rotmat1, rotmat2, rotmat3"]}
{"id": "C56", "title": "wrap returns an equivalent angle in [-pi, pi)", "statement": "wrap(alpha) lies in [-pi, pi) and differs from alpha by a multiple of 2 pi. (The range holds; the equivalence is violated because of operator precedence.)", "quantifier": "all angles", "why_tests_cant": "Universal over real inputs.", "anchors": ["pyqlaw/_transformations.py: wrap", "pyqlaw/_plot_methods.py: plot_controls"]}
{"id": "C57", "title": "Coasting keeps the orbit", "statement": "With zero thrust and perturbation eom_kep_gauss and eom_mee_with_a_gauss leave the five slow elements constant and advance the anomaly at h/r^2 > 0; one solve() coast step with either integrator leaves the five slow elements exactly unchanged.", "quantifier": "all elliptic states", "why_tests_cant": "Universal over real inputs.", "anchors": ["pyqlaw/_eom.py: eom_kep_gauss, eom_mee_with_a_gauss", "pyqlaw/_integrate.py: rk4, rkf45"]}
{"id": "C58", "title": "Keplerian Gauss equations are Newton's law", "statement": "If elements evolve by eom_kep_gauss with the package's Gauss matrix, then their Cartesian image under kep2sv satisfies r' = v and v' = -mu r/|r|^3 + (acceleration given in RTN).", "quantifier": "all curves, all a>0, 0<e<1, sin i != 0, all accelerations", "why_tests_cant": "Differential identity over a continuum.", "anchors": ["pyqlaw/_eom.py: eom_kep_gauss", "pyqlaw/_symbolic.py: symbolic_qlaw_keplerian", "pyqlaw/_elements.py: kep2sv"]}
{"id": "C59", "title": "MEE Gauss equations are consistent with the Keplerian ones", "statement": "If Keplerian elements evolve by eom_kep_gauss then their MEE image under kep2mee_with_a evolves by eom_mee_with_a_gauss under the same RTN acceleration (for f > 0; see the quadrant property).", "quantifier": "all such curves and accelerations", "why_tests_cant": "Differential identity over a continuum.", "anchors": ["pyqlaw/_eom.py: eom_mee_with_a_gauss, eom_kep_gauss", "pyqlaw/_symbolic.py"]}
{"id": "C60", "title": "Thrust and perturbation superpose", "statement": "The element rates are affine in the total acceleration: only the sum of thrust and perturbation matters.", "quantifier": "all states and accelerations", "why_tests_cant": "Universal over real inputs.", "anchors": ["pyqlaw/_eom.py"]}
{"id": "C61", "title": "rk4 is the classical fourth-order method", "statement": "A step of rk4 is the step of the classical four-stage method for every right-hand side; it is exact for right-hand sides polynomial of degree <= 3 in time, reproduces the degree-4 Taylor polynomial of exp on linear systems, is the identity for h = 0, preserves equilibria and commutes with affine changes of variables.", "quantifier": "all right-hand sides, all dimensions", "why_tests_cant": "Universal over functions.", "anchors": ["pyqlaw/_integrate.py: rk4"]}
{"id": "C62", "title": "rkf45 is a consistent fourth-order method", "statement": "rkf45 performs the step of Fehlberg's 4(5) method, so that it advances y' = c exactly. (Violated: a mistyped weight 2197/4101 makes even a constant right-hand side wrong by a factor 1+2197/5610168, and stages are scaled by h twice; also a zero error estimate raises ZeroDivisionError. Apart from these the step, the error estimate and the proposed next step are Fehlberg's for every right-hand side.)", "quantifier": "all right-hand sides, steps, dimensions", "why_tests_cant": "The defect is below the tolerance of the repo's test.", "anchors": ["pyqlaw/_integrate.py: rkf45"]}
{"id": "C63", "title": "Third-body formula equals the direct formula", "statement": "perturbation_third_body_battin(r,s,mu3) = -mu3*((r-s)/|r-s|^3 + s/|s|^3).", "quantifier": "all r, s with s != 0 and r != s", "why_tests_cant": "Universal over real inputs.", "anchors": ["pyqlaw/_perturbations.py: perturbation_third_body_battin"]}
{"id": "C64", "title": "J2 acceleration is the gradient of the J2 potential", "statement": "perturbation_J2 returns the oblateness acceleration. (Violated: the 5 z^2 terms are not divided by r^2, so it is only right when |r| = 1 or z = 0.)", "quantifier": "all positions and rotations", "why_tests_cant": "Universal over real inputs.", "anchors": ["pyqlaw/_perturbations.py: perturbation_J2"]}
{"id": "C65", "title": "Solar radiation pressure is a radial inverse-square push", "statement": "perturbation_SRP points away from the Sun with magnitude k*(AU/d)^2.", "quantifier": "all non-zero positions, k >= 0", "why_tests_cant": "Universal over real inputs.", "anchors": ["pyqlaw/_perturbations.py: perturbation_SRP"]}
{"id": "C66", "title": "RTN matrix is a right-handed rotation aligned with the orbit", "statement": "pxformECI2RTN(r,v) is orthogonal with determinant 1, maps r to (|r|,0,0), v to (vr, vt>0, 0) and r x v to (0,0,|r x v|).", "quantifier": "all r, v with r x v != 0", "why_tests_cant": "Universal over real inputs.", "anchors": ["pyqlaw/_perturbations.py: pxformECI2RTN"]}
{"id": "C67", "title": "Perturbations in RTN", "statement": "get_perturbations_RTN returns the rotation into RTN of the sum of the enabled accelerations, with the same magnitude; disabled terms contribute nothing. third_bodies_names=None is accepted as `no third bodies`. (The last part is violated: zip(None, None) raises TypeError.)", "quantifier": "all ephemerides, flags, states", "why_tests_cant": "Quantifies over ephemeris behaviour.", "anchors": ["pyqlaw/_perturbations.py: SpicePerturbations.get_perturbations_RTN"]}
{"id": "C68", "title": "save_to_dict exports one unit thrust direction and throttle per time", "statement": "The exported controls have one row per recorded time, the last being a coasting row; without save_control_angles each row's direction has norm 1 and its throttle is the recorded one; the object is not modified.", "quantifier": "every completed run", "why_tests_cant": "Universal over histories.", "anchors": ["pyqlaw/_qlaw.py: QLaw.save_to_dict"]}
{"id": "C69", "title": "save_to_dict exports MEE states", "statement": "The exported states are the MEE of the recorded states with mass appended. (Holds for mee_with_a; violated for keplerian, where the MEE-with-a conversion is applied to Keplerian elements.)", "quantifier": "every completed run", "why_tests_cant": "Universal over histories.", "anchors": ["pyqlaw/_qlaw.py: QLaw.save_to_dict"]}
{"id": "C70", "title": "Cartesian history matches the recorded states", "statement": "get_cartesian_history(interpolate=False) has one column per recorded time, column k being the Cartesian image of state k.", "quantifier": "every completed run", "why_tests_cant": "Universal over histories.", "anchors": ["pyqlaw/_qlaw.py: QLaw.get_cartesian_history"]}
{"id": "C71", "title": "Plot geometry helpers", "statement": "Sphere and ellipsoid coordinates lie on the requested surface; set_equal_axis gives the same half-range on every axis and, for scale >= 1, contains all data limits.", "quantifier": "all radii, centres, limits and scales >= 1", "why_tests_cant": "Universal over real inputs.", "anchors": ["pyqlaw/_plot_helper.py: get_sphere_coordinates, get_ellipsoid_coordinates, set_equal_axis"]}
{"id": "C72", "title": "Histories after an exception", "statement": "If an exception leaves solve() (from the dynamics, the perturbation, a threshold callable or the settings), the histories still record a whole number of steps, as in C01. (Violated for the UnboundLocalError raised when the first step is a forced coast: times, states and masses are one longer than the other lists allow.)", "quantifier": "every problem and every point at which an exception can be raised", "why_tests_cant": "The break needs an exception between two appends.", "anchors": ["pyqlaw/_qlaw.py: QLaw.solve"]}
{"id": "C73", "title": "Result plots show the recorded data", "statement": "After a completed run the plot functions do not raise and draw the recorded data against the times of the records: plot_controls the angles in degrees and the throttle in percent at the beginning of each step (and the wrapped anomaly of each state), plot_battery_history the battery level at each time and lines at the capacity limits, plot_Q the value and rate of Q of each step, plot_efficiency the effectivities and thresholds of each step. plot_efficiency raises IndexError when the run has no step.", "quantifier": "every completed run, every scale of time and energy", "why_tests_cant": "Universal over histories; the empty run is a corner case.", "anchors": ["pyqlaw/_plot_methods.py: plot_controls, plot_battery_history, plot_Q, plot_efficiency"]}
{"id": "C74", "title": "Interpolated Cartesian history", "statement": "get_cartesian_history(interpolate=True) has the requested number of columns (at most 8000 by default), evaluated from time 0 to the final time; its first and last columns are the Cartesian images of the first and last recorded states whenever the interpolation is exact at its nodes.", "quantifier": "every completed forward run, every interpolation kind exact at its nodes", "why_tests_cant": "Universal over histories and interpolation schemes.", "anchors": ["pyqlaw/_qlaw.py: QLaw.get_cartesian_history, QLaw.interpolate_states"]}
{"id": "C75", "title": "Solving again repeats the run", "statement": "Calling solve() a second time with the same arguments (same object, same problem, deterministic callables) gives the same histories, exit code, flag and exception as the first call, although the first call moved the stored initial state to the element bounds; and what an object did before does not influence the histories of a later run. The exit code and flag of a previous run do persist after a time-out (C08).", "quantifier": "every problem, object history and settings with bounds that clip exactly", "why_tests_cant": "Universal over runs; the aliasing of oe0 with states[0] only shows when the initial state is out of bounds.", "anchors": ["pyqlaw/_qlaw.py: QLaw.solve", "pyqlaw/_convergence.py: elements_safety"]}
{"id": "C76", "title": "Raising the time limit only extends the run", "statement": "With a larger |tf_max| and everything else equal, the histories of the shorter run are a prefix of those of the longer one (its last state may still be moved to the element bounds); on a fresh object, if the shorter run did not time out, the two runs are equal in histories, exit code, flag and exception.", "quantifier": "every problem, every pair of time limits ordered by absolute value", "why_tests_cant": "Universal over runs of any length.", "anchors": ["pyqlaw/_qlaw.py: QLaw.solve"]}
{"id": "C77", "title": "Targets with zero weight are ignored", "statement": "Changing target components whose weight is 0 changes neither the histories nor the exit code, flag or exception: neither the control law nor the convergence check depends on them. (Holds for the law with the gradient of Q; violated by the generated Keplerian gradient when RAAN equals a RAAN target of weight zero: zero times NaN.)", "quantifier": "every problem, both element sets, every integrator, threshold and perturbation", "why_tests_cant": "Universal over targets; a leak through the scaling of another element or the convergence check would need unlucky values.", "anchors": ["pyqlaw/_symbolic.py: symbolic_qlaw_keplerian, symbolic_qlaw_mee_with_a", "pyqlaw/_convergence.py", "pyqlaw/_qlaw.py: QLaw.solve"]}
{"id": "C78", "title": "Only the ratios of the weights matter", "statement": "Multiplying all weights by the same positive number leaves times, states, masses, battery levels, controls, effectivities, thresholds, exit code, flag and exception unchanged and multiplies the recorded Q and dQ/dt by that number.", "quantifier": "every problem, both element sets, every positive factor", "why_tests_cant": "Universal over problems and factors.", "anchors": ["pyqlaw/_symbolic.py", "pyqlaw/_lyapunov.py", "pyqlaw/_qlaw.py: QLaw.solve, QLaw.evaluate_osculating_qdot"]}
{"id": "C79", "title": "The unit of mass does not matter", "statement": "Multiplying mass0, tmax, mdot and mass_min by the same positive number multiplies the recorded masses by that number and changes nothing else (for thresholds that do not depend on the unit of mass).", "quantifier": "every problem, any dynamics, control law and perturbation, every positive factor", "why_tests_cant": "Universal over problems and factors.", "anchors": ["pyqlaw/_qlaw.py: QLaw.solve"]}
{"id": "C80", "title": "Recorded Q, rate and direction are those of the control law", "statement": "At every recorded step q[k] is the Lyapunov candidate Q at the recorded state, target and mass; with forward time and positive thrust dqdt[k] is positive, no unit thrust direction decreases Q faster than dqdt[k], and on a step with throttle 1 the recorded angles give a unit direction that decreases Q at exactly that rate. q[k] is not negative on a non-singular elliptic state and 0 only on target.", "quantifier": "every completed run with the package's own dynamics, every recorded step", "why_tests_cant": "Universal over runs and over all thrust directions at each step.", "anchors": ["pyqlaw/_qlaw.py: QLaw.solve", "pyqlaw/_lyapunov.py: lyapunov_control_angles", "pyqlaw/_symbolic.py"]}
{"id": "C81", "title": "The Gauss matrix is frozen within a step", "statement": "Each recorded step moves each of the five slow elements by the step length times its Gauss rate at the beginning of the step (thrust of the recorded throttle and angles plus the perturbation, both at the beginning of the step) with rk4, and by that amount times the constant 1 + 2197/5610168 with rkf45, whose weights do not sum to one; with Keplerian elements the result is then moved to the element bounds. The elements vary nonlinearly within a step only through the anomaly.", "quantifier": "every completed run with the package's own dynamics, every recorded step, both integrators", "why_tests_cant": "Universal over runs; compares every recorded pair of states with an independent formula.", "anchors": ["pyqlaw/_qlaw.py: QLaw.solve", "pyqlaw/_integrate.py", "pyqlaw/_eom.py"]}
{"id": "C82", "title": "Coplanar transfers stay in their plane", "statement": "If no weight is put on elements that need out-of-plane thrust and no perturbation acts out of plane, every thrusting step has out-of-plane angle 0 and the orbit plane never changes: with Keplerian elements and weights only on a and e, inclination and RAAN keep their initial values; with modified equinoctial elements starting at h = k = 0 and weights only on a, f and g, h and k stay 0.", "quantifier": "every completed run, initial plane inside the element bounds", "why_tests_cant": "Universal over runs of any length.", "anchors": ["pyqlaw/_symbolic.py", "pyqlaw/_lyapunov.py: lyapunov_control_angles", "pyqlaw/_qlaw.py: QLaw.solve"]}
{"id": "C83", "title": "The direction from which RAAN is measured does not matter", "statement": "With Keplerian elements, increasing the initial RAAN, the target RAAN and the RAAN bounds by the same angle increases every recorded RAAN by that angle and changes nothing else: times, other elements, masses, battery levels, controls, effectivities, thresholds, Q, dQ/dt, exit code, flag and exception are the same (for a perturbation and thresholds that turn along).", "quantifier": "every problem, every angle, both integrators", "why_tests_cant": "A symmetry over all runs and angles.", "anchors": ["pyqlaw/_symbolic.py: symbolic_qlaw_keplerian", "pyqlaw/_eom.py: eom_kep_gauss", "pyqlaw/_convergence.py", "pyqlaw/_qlaw.py: QLaw.solve"]}
{"id": "C84", "title": "The units of time, length and mass do not matter", "statement": "Restating mu, rpmin, the bounds and tolerances of a, the initial state, target, masses, thrust, mass flow, times, duty cycle and battery rates in other units of time, length and mass gives the same run in those units: recorded times, semi-major axes and masses are converted, Q (a time squared) and dQ/dt (a time) likewise, and everything else, including the exit code, is equal.", "quantifier": "every problem, both element sets, every positive triple of unit ratios, the fixed-step integrator, perturbation and thresholds that are the same physical functions", "why_tests_cant": "A symmetry over all runs and unit systems; finds any dimensionally wrong formula.", "anchors": ["pyqlaw/_symbolic.py", "pyqlaw/_eom.py", "pyqlaw/_lyapunov.py", "pyqlaw/_convergence.py", "pyqlaw/_qlaw.py: QLaw.solve"]}
{"id": "C85", "title": "Target angles matter only up to whole turns", "statement": "With Keplerian elements, adding whole turns to the target RAAN or to the target argument of periapsis changes neither the histories nor the exit code, flag or exception.", "quantifier": "every problem, every pair of integers", "why_tests_cant": "Universal over problems and numbers of turns.", "anchors": ["pyqlaw/_symbolic.py: symbolic_qlaw_keplerian", "pyqlaw/_convergence.py: check_convergence_keplerian", "pyqlaw/_qlaw.py: QLaw.solve"]}
{"id": "C86", "title": "Printed errors are within the tolerance after convergence", "statement": "After a completed run pretty_results prints the exit code, the flag, the last state, its difference from the target, the last time and the last mass; after exit code 1 (or 2) the error printed for every weighted element is at most tol_oe (or tol_oe_relaxed). (Violated for RAAN and argument of periapsis of Keplerian objects: the check measures them modulo whole turns, the report does not, so a converged run can print an error of 2 pi or more.)", "quantifier": "every completed run on a fresh object", "why_tests_cant": "The deviation needs an angle beyond a whole turn.", "anchors": ["pyqlaw/_qlaw.py: QLaw.pretty_results", "pyqlaw/_convergence.py"]}
{"id": "C87", "title": "Element plots show the recorded elements", "statement": "After a completed run plot_elements_history draws in panel i the band of half width tol_oe[i] around the target and the recorded element i against time, and in the last panel the mass or the anomaly in degrees; with to_keplerian and modified equinoctial elements it draws the converted target and elements, angles in degrees. After exit code 1 the last point of the curve of every weighted element lies inside its band (RAAN and argument of periapsis of Keplerian objects excepted, see C86).", "quantifier": "every completed run, elliptic states for the conversion, every option", "why_tests_cant": "Universal over histories.", "anchors": ["pyqlaw/_plot_methods.py: plot_elements_history", "pyqlaw/_elements.py: mee_with_a2kep"]}
{"id": "C88", "title": "The periapsis overlay is the periapsis radius", "statement": "plot_elements_history(plot_periapsis=True) overlays the smallest distance of the osculating orbit at each recorded time. (Violated for modified equinoctial elements without to_keplerian: it draws a(1-f), which is the periapsis radius exactly when g = 0 and f >= 0.)", "quantifier": "every completed run with elliptic states", "why_tests_cant": "Needs an independent definition of the periapsis radius.", "anchors": ["pyqlaw/_plot_methods.py: plot_elements_history"]}
{"id": "C89", "title": "Trajectory plots show the initial orbit, the target orbit and the transfer", "statement": "After a completed run plot_trajectory_2d and plot_trajectory_3d without interpolation draw 200 points of the initial orbit, 200 points of the target orbit and one point per record, in order, each on the osculating orbit of the recorded state; the first marker lies on the initial orbit drawn, the second one on the orbit of the last record.", "quantifier": "every completed run with elliptic states and target, both element sets", "why_tests_cant": "Universal over histories.", "anchors": ["pyqlaw/_plot_methods.py: plot_trajectory_2d, plot_trajectory_3d", "pyqlaw/_elements.py: get_orbit_coordinates", "pyqlaw/_qlaw.py: QLaw.get_cartesian_history"]}
{"id": "C90", "title": "A Cartesian state survives conversion to elements and back", "statement": "Converting a Cartesian state to Keplerian elements with sv2kep and back with kep2sv gives the state again. (Violated on circular orbits, which all get argument of periapsis and true anomaly 0, and on eccentric equatorial orbits flown clockwise; it holds for every ellipse and hyperbola outside the guard against small node times eccentricity, and on eccentric equatorial orbits flown anticlockwise.)", "quantifier": "every state with positive mu, non-zero energy and non-zero angular momentum", "why_tests_cant": "Universal over states, with several branches of the code to cover.", "anchors": ["pyqlaw/_elements.py: sv2kep, kep2sv, get_inclination, get_raan, get_omega, get_eccentricity, get_trueanom"]}
{"id": "C91", "title": "The MEE equations with the semi-latus rectum describe the same motion", "statement": "If Keplerian elements move by eom_kep_gauss under an acceleration, the modified equinoctial elements kep2mee makes of them move by eom_mee_gauss under the same acceleration, whatever the position of periapsis.", "quantifier": "every elliptic, non-equatorial motion and every acceleration", "why_tests_cant": "An identity between two sets of differential equations at all states.", "anchors": ["pyqlaw/_eom.py: eom_mee_gauss, eom_kep_gauss", "pyqlaw/_elements.py: kep2mee"]}
{"id": "C92", "title": "Perturbations do not depend on the units of length and time", "statement": "Constructing SpicePerturbations with other values of LU and TU and calling get_perturbations_RTN with the same physical epoch and orbit returns the same physical acceleration, or raises the same exception. (Violated with J2 when the unit of length changes, see C64; it holds for third bodies and radiation pressure in all units, and for all three terms when only the unit of time changes.)", "quantifier": "every positive pair of unit ratios, every orbit, epoch, list of third bodies and ephemeris", "why_tests_cant": "A symmetry over all calls and unit systems.", "anchors": ["pyqlaw/_perturbations.py: SpicePerturbations"]}
{"id": "C93", "title": "The maximum rate of the argument of periapsis is a weighted mean of two exact maxima", "statement": "For an elliptic non-equatorial orbit the value the Q-law uses for the maximum rate of the argument of periapsis is (I + b O)/(1 + b), where I is the greatest rate any in-plane thrust of the given magnitude can give at any true anomaly, O the greatest rate any thrust along the normal can give, and b the parameter of the law; with b = 0 it is I.", "quantifier": "every elliptic orbit with positive eccentricity and sin i != 0, every positive acceleration and b >= 0", "why_tests_cant": "A maximum over all anomalies and directions, found in the code by solving a cubic.", "anchors": ["pyqlaw/_symbolic.py: symbolic_qlaw_keplerian"]}
{"id": "C94", "title": "Runs reflected in the reference plane are the same run", "statement": "A run whose initial orbit, target, bounds of the angles and perturbations are reflected in the reference plane (Keplerian: RAAN and argument of periapsis plus pi; MEE: h and k negated) ends in the same way and records the same times, masses, battery levels, efficiencies, Q and dQ/dt, the reflected states and the same controls with the out-of-plane angle negated.", "quantifier": "every run, both element sets, both integrators, any perturbation with a reflected counterpart", "why_tests_cant": "A symmetry over all runs; every formula of the law, the equations of motion and the convergence check takes part.", "anchors": ["pyqlaw/_symbolic.py", "pyqlaw/_eom.py: eom_kep_gauss, eom_mee_with_a_gauss", "pyqlaw/_convergence.py", "pyqlaw/_qlaw.py: QLaw.solve"]}
{"id": "C95", "title": "Short thrusting steps decrease Q", "statement": "For every state strictly inside the bounds at which Q is differentiable and from which the law thrusts, there is a step length such that every thrusting step of solve from that state that is shorter ends in a state with a smaller Q, also when Q is evaluated with the reduced mass, so the next recorded Q is smaller than the recorded one.", "quantifier": "every unperturbed object of either element set, either integrator, every state with positive mass where Q is differentiable and non-negative, every later run passing through it", "why_tests_cant": "A statement about all sufficiently small steps; a test can only try some.", "anchors": ["pyqlaw/_qlaw.py: QLaw.solve", "pyqlaw/_lyapunov.py: lyapunov_control_angles", "pyqlaw/_symbolic.py", "pyqlaw/_integrate.py: rk4, rkf45"]}
{"id": "C96", "title": "Whole turns in the initial angles do not matter", "statement": "Adding whole turns to the RAAN, argument of periapsis or true anomaly of the initial Keplerian state, or to the initial true longitude, adds them to every recorded state and changes nothing else. (Violated for RAAN and argument of periapsis: oe_min and oe_max, by default 1e-4 and infinity, clip them, so that a negative RAAN is flown from another orbit; it holds for them when the bounds move along, and unconditionally for the anomaly and the true longitude.)", "quantifier": "every run, both element sets, both integrators, thresholds and perturbations that are functions of the orbit, the package's own perturbations in particular", "why_tests_cant": "A symmetry over all runs.", "anchors": ["pyqlaw/_qlaw.py: QLaw.solve, QLaw.__init__", "pyqlaw/_convergence.py: elements_safety", "pyqlaw/_symbolic.py", "pyqlaw/_eom.py", "pyqlaw/_perturbations.py: SpicePerturbations.get_perturbations_RTN"]}
{"id": "C97", "title": "Q is the proximity quotient of the orbit", "statement": "Q equals (1 + wp exp(k (1 - rp/rpmin))) times the sum over the elements of weight times scaling times (distance from target / greatest rate)^2, where rp is the smallest distance of the osculating orbit, angles are compared along the shorter way, and the rates are the greatest ones thrust can give (Keplerian; argument of periapsis as in C93) or the published ones (MEE); the semi-major axis alone is scaled, by (1 + |(a - aT)/(m aT)|^n)^(1/r). The recorded q[k] is this number at the recorded state and mass.", "quantifier": "every elliptic non-singular state, target and parameters, both element types, every recorded step of every completed run", "why_tests_cant": "An identity at all states against an independent definition of each ingredient.", "anchors": ["pyqlaw/_symbolic.py: symbolic_qlaw_keplerian, symbolic_qlaw_mee_with_a", "pyqlaw/_qlaw.py: QLaw.solve"]}
{"id": "C98", "title": "Away from the target short thrusting steps decrease Q at a uniform rate", "statement": "For every compact set of states on which Q is smooth and positive and thrust can change it, and every lower bound on the mass, there are a step length and a rate such that every thrusting step of solve that is shorter and starts in the set (up to whole turns of the anomaly) lowers Q at least at that rate, also as recorded for the next step. Over a stretch of such steps the recorded Q falls at least at that rate, and the stretch is shorter than a time depending only on the set, the object, the target, the thruster and the range of the mass.", "quantifier": "every unperturbed object of either element set, either integrator, every such compact set, every run and every stretch of it, of any length", "why_tests_cant": "Uniformity over an uncountable set of states and over runs of any length; a test can only try some.", "anchors": ["pyqlaw/_qlaw.py: QLaw.solve", "pyqlaw/_lyapunov.py: lyapunov_control_angles", "pyqlaw/_symbolic.py", "pyqlaw/_integrate.py: rk4, rkf45", "pyqlaw/_convergence.py: elements_safety"]}
{"id": "C99", "title": "Thrusting runs that stay away from singularities converge", "statement": "For every compact set of states on which Q is smooth and positive and thrust can change it, there are a step length and a time such that every run of solve that thrusts in every step, in steps shorter than that length and from states in the set (up to whole turns of the anomaly), converges with exit code 1 or 2 and lasts no longer than that time, provided tf_max is larger and the propellant lasts for it.", "quantifier": "every unperturbed object of either element set, either integrator, every such compact set, every run from a fresh object", "why_tests_cant": "A statement about the outcome of all runs of any length.", "anchors": ["pyqlaw/_qlaw.py: QLaw.solve", "pyqlaw/_lyapunov.py: lyapunov_control_angles", "pyqlaw/_symbolic.py", "pyqlaw/_integrate.py: rk4, rkf45"]}
{"id": "C100", "title": "The saved file holds the exported data", "statement": "save_to_dict(filepath, canonical_units, save_control_angles) returns the same dictionary with and without a file, leaves the file system alone without filepath, and otherwise writes a json file that reads back as that dictionary: keys t0, tf, times, canonical_units, states, controls, numbers in nested lists, tuples and arrays as lists, numpy numbers as numbers. It raises exactly if the object has not been solved or if a file is asked for and canonical_units contains an object json does not know; before a run it raises without touching the file.", "quantifier": "every completed run, every nested value of canonical_units, arrays of every shape, both control formats", "why_tests_cant": "canonical_units is an arbitrary nested value; tests save a dictionary or None.", "anchors": ["pyqlaw/_qlaw.py: QLaw.save_to_dict, NumpyEncoder.default"]}
{"id": "C101", "title": "pretty prints the problem that was set", "statement": "pretty() prints, for each of the five targeted elements, the name of the element for the element type given at construction and the initial value, target and weight (1 by default) given in the last successful set_problem call, whatever setters and runs came in between; before that it raises AttributeError. pretty_settings() prints the current element type and integrator and the constructed names, tolerances, relaxed tolerances and exit_at_relaxed. (Violated after runs with Keplerian elements: the printed initial values are those of the first recorded state, which elements_safety may have clipped in place.)", "quantifier": "every constructed object and every sequence of calls", "why_tests_cant": "Quantifies over call sequences; printed output is not tested.", "anchors": ["pyqlaw/_qlaw.py: QLaw.pretty, QLaw.pretty_settings, QLaw.set_problem, QLaw.solve"]}
{"id": "C102", "title": "Coast arcs follow the Kepler motion", "statement": "For every elliptic orbit there is a constant C such that, in every completed unperturbed run, every stretch of steps with recorded throttle 0 on that orbit, of any number of steps each at most d <= 1 long, leaves the recorded slow elements unchanged, and the recorded anomaly at its end differs from the exact two-body motion through its first record by at most C d^4 times the time covered. The exact motion is the solution of theta' = h/r^2, whose Cartesian image satisfies r'' = -mu r/|r|^3. (Violated with rkf45: every short coast step misses the motion by at least a fixed fraction of its length, so shorter steps do not help.)", "quantifier": "every elliptic non-circular orbit (mee_with_a: f not zero), both element types, both integrators, every run, every stretch", "why_tests_cant": "A convergence order is a statement about all step lengths and numbers of steps; a test sees a few of them.", "anchors": ["pyqlaw/_qlaw.py: QLaw.solve", "pyqlaw/_integrate.py: rk4, rkf45", "pyqlaw/_eom.py: eom_kep_gauss, eom_mee_with_a_gauss"]}
{"id": "C103", "title": "The velocity change is that of the rocket equation", "statement": "For every stretch of consecutive records of a completed run with non-decreasing times, positive mass flow and positive final mass, the sum over the thrusting steps of (tmax / recorded mass) times step length is at most (tmax/mdot) ln(m_start/m_end), and falls short of it by at most tmax d (1/m_end - 1/m_start) if no step is longer than d. Coasting steps cost nothing.", "quantifier": "every completed run of any object, every stretch of any length", "why_tests_cant": "A bound over runs of any length; a test compares a few transfers within a tolerance.", "anchors": ["pyqlaw/_qlaw.py: QLaw.solve"]}
{"id": "C104", "title": "No step moves an element faster than thrust can", "statement": "In every completed unperturbed run, a step changes each of the five slow elements by at most its length times the greatest rate the acceleration tmax/m can give that element on the osculating orbit of the recorded state (for Keplerian elements the closed forms for a, e, i, RAAN), times 1 + 2197/5610168 with rkf45; a coasting step does not change it, and clipping by elements_safety never adds to the change. Hence a stretch of Keplerian states with semi-major axis at most amax changes the eccentricity by at most 2 sqrt(amax/mu) (tmax/mdot) ln(m_start/m_end) (same factor).", "quantifier": "every completed unperturbed run, either element set, either integrator, every step and stretch", "why_tests_cant": "A bound over all states, controls and runs.", "anchors": ["pyqlaw/_qlaw.py: QLaw.solve", "pyqlaw/_eom.py: eom_kep_gauss, eom_mee_with_a_gauss", "pyqlaw/_symbolic.py", "pyqlaw/_convergence.py: elements_safety"]}
{"id": "C105", "title": "The books survive rounding", "statement": "With floating-point arithmetic (exact operations followed by any monotone, odd, idempotent rounding that keeps 0 and 1 and may overflow, e.g. IEEE doubles), the recorded times of a forward run never decrease and, for mdot >= 0, the recorded masses never increase. If rounding has relative error u and the battery does not discharge, the k-th time is k t_step up to k u (|tf_max| + t_step), the mass after N thrusting steps is mass0 - N mdot t_step up to N u (mass0 + (2 + u) mdot t_step), and solve() returns within 2 |tf_max|/t_step + 1 iterations provided u (|tf_max| + t_step) <= t_step/2. If instead t_step is lost when added to some time below |tf_max|, no run ends by the time limit, and with doubles there is a run that never returns.", "quantifier": "every object and problem with t_step > 0 without Sundman transformation, every rounding rule, every control law, every run", "why_tests_cant": "Rounding errors of runs of 10^15 steps are not testable, nor is non-termination.", "anchors": ["pyqlaw/_qlaw.py: QLaw.solve"]}
{"id": "C106", "title": "Out of the box", "statement": "QLaw() constructs an object for semi-major-axis MEE with rk4, tolerance 1e-3 and relaxed tolerance 1e-2 on every element; set_problem(oe0, oeT, mass0, tmax, mdot) accepts any six initial elements; solve() then returns within 10^6 + 1 iterations. On a normal return the recorded times are 0, 0.1, 0.2, ..., the battery stays at 1, and every step thrusts except at most ten, recorded as [0, 0, 0], where the control law returned NaN; so the propellant used after n steps is mdot (n - c)/10 with c <= 10 such steps. It ends with exit code 2 only when exactly 100 recorded states are within the relaxed tolerances. With rounding of relative error u <= 1e-7 (single or double precision) it returns within 2000002 iterations and the k-th time is k/10 up to 100001 k u.", "quantifier": "every initial state, target, mass, thrust, mass flow and run with default settings", "why_tests_cant": "Universal over problems and over runs of up to 10^6 steps.", "anchors": ["pyqlaw/_qlaw.py: QLaw.__init__", "pyqlaw/_qlaw.py: QLaw.set_problem", "pyqlaw/_qlaw.py: QLaw.solve"]}
{"id": "C107", "title": "Short steps follow the continuous closed loop", "statement": "Let gamma solve, on [0, T], the closed loop x'(t) = equations of motion at x(t) with the thrust the control law commands there and the acceleration tmax/(mass0 - mdot t), along states at which Q is smooth (and, for Keplerian elements, strictly between oe_min and oe_max). Then there are a step length and a constant K such that in every completed run from gamma(0), of any number of steps, after any stretch of thrusting steps each of length at most h, every recorded element differs from gamma at the recorded time by at most K h. With rkf45 the limit is the motion at 1 + 2197/5610168 times the true speed. Such a gamma exists on a time interval from every state where Q is smooth and thrust can change it.", "quantifier": "every unperturbed object of either element set, either integrator, every target, weights and thruster, every run and every number of steps", "why_tests_cant": "A limit over all step lengths and runs of unbounded length.", "anchors": ["pyqlaw/_qlaw.py: QLaw.solve", "pyqlaw/_lyapunov.py: lyapunov_control_angles", "pyqlaw/_symbolic.py", "pyqlaw/_integrate.py: rk4, rkf45", "pyqlaw/_eom.py: eom_kep_gauss, eom_mee_with_a_gauss"]}
{"id": "C108", "title": "Where the continuous closed loop arrives, the run arrives", "statement": "Let gamma be a motion under the control law as in C107 on [0, T]. There are a step length and a constant K such that for every shorter t_step h, every fresh object of either integrator without perturbations and Sundman steps starting from gamma(0), with eta_a, eta_r <= 0, a discharge rate of zero if the integrator is rkf45, a time limit with tf_max + h <= T, and a duty cycle, battery and minimum mass that do not interfere before T, solve() returns without exception within tf_max/h + 2 evaluations of the loop guard. The recorded times are 0, h, 2h, ..., every step thrusts, every recorded state is within K h of gamma, and either converge is set with exit code 1 or 2, or the run has reached tf_max with exit code -2. If moreover gamma is strictly inside the tolerances of the target at a time tc < T with tc <= tf_max, every run with short enough steps converges (exit code 1 or 2) and its last recorded time is at most tc + h.", "quantifier": "every such object of either element set, every target, weights, thruster and motion, every step below the bound, every number of steps", "why_tests_cant": "Convergence of every run with short enough steps, and absence of exceptions in it, cannot be sampled.", "anchors": ["pyqlaw/_qlaw.py: QLaw.solve", "pyqlaw/_lyapunov.py: lyapunov_control_angles", "pyqlaw/_symbolic.py", "pyqlaw/_integrate.py: rk4, rkf45", "pyqlaw/_eom.py: eom_kep_gauss, eom_mee_with_a_gauss", "pyqlaw/_convergence.py: check_convergence_keplerian, check_convergence_mee"]}
{"id": "C109", "title": "The generated gradient is the gradient of Q", "statement": "symbolic_qlaw_keplerian and symbolic_qlaw_mee_with_a differentiate the expression for Q by the rules of differentiation and generate numpy code. At every regular state (elliptic, 0 < i < pi, i not pi/2, no element at its target or at a kink of an absolute value, argument of periapsis no multiple of pi/2; for MEE the corresponding conditions) the generated dqdoe[j] is the partial derivative of the generated q with respect to element j, for each of the five slow elements, and the generated control direction and dqdt are those of the steepest-descent law built from these partial derivatives.", "quantifier": "all real arguments of the generated functions at regular states, both element sets, every weight, penalty and exponent", "why_tests_cant": "Finite differences at sample points only approximate a derivative.", "anchors": ["pyqlaw/_symbolic.py: symbolic_qlaw_keplerian, symbolic_qlaw_mee_with_a"]}
{"id": "C110", "title": "An orbit with f = 0 cannot be flown", "statement": "The compiled MEE equations of motion divide g by f. Hence no completed run of a mee_with_a object ever steps from a state with f equal to zero: every recorded state but the last has f != 0. A run that starts with f = 0 (for instance from a circular orbit) records nothing: it raises, or ends with exit code -3. Without perturbations and Sundman steps, with five targets, thresholds that do not raise, a non-empty anomaly grid and a NaN threshold of at least one, it raises exactly ZeroDivisionError, leaving the initial histories, the exit code and the flag.", "quantifier": "every mee_with_a object and problem, every control law, threshold and integrator, any arithmetic (rounded or not)", "why_tests_cant": "Exact floating-point zeros are met by hand-written inputs (circular orbits) but not by random ones; universal over runs.", "anchors": ["pyqlaw/_eom.py: eom_mee_with_a_gauss", "pyqlaw/_qlaw.py: QLaw.solve"]}
{"id": "C111", "title": "At its singular states the Keplerian law coasts, and never leaves", "statement": "If the RAAN equals its target, or the argument of periapsis equals its target or is zero, a component of the generated Keplerian gradient is NaN whatever the weights, so the thrust angles are NaN and the recorded throttle of every step taken from such a state is 0. An unperturbed run that starts at such a state inside oe_min and oe_max, with finite recorded times, therefore stays there: every recorded state has the initial five slow elements, every throttle is 0, the mass does not change, and the run converges (strictly or relaxed) only if the initial elements already meet the tolerances.", "quantifier": "every keplerian object with the generated law, every target, weights and thresholds, both integrators, every number of steps", "why_tests_cant": "The singular set has measure zero, so random tests never hit it, while hand-written problems do (equal angles, zero argument of periapsis); the frozen run is a statement about all later steps.", "anchors": ["pyqlaw/_symbolic.py: symbolic_qlaw_keplerian", "pyqlaw/_lyapunov.py: lyapunov_control_angles", "pyqlaw/_qlaw.py: QLaw.solve", "pyqlaw/_eom.py: eom_kep_gauss", "pyqlaw/_integrate.py: rk4, rkf45"]}
{"id": "C112", "title": "The recorded Cartesian trajectory obeys Newton's law with thrust", "statement": "Let gamma be a motion under the control law as in C107 on [0, T], with f > 0 and off the reference plane if the elements are MEE. Its Cartesian image flies by Newton's law under the attraction of the body and a thrust acceleration of magnitude exactly tmax/(mass0 - mdot t) along the direction given by the control law in the radial-transverse-normal frame. For every short enough t_step h, get_cartesian_history() of every completed run from gamma(0) is within K h of that trajectory at each recorded time up to T as long as the steps thrust and are at most h long. Under the hypotheses of C108 such runs do complete, get_cartesian_history() does not raise, and all of its columns are within K h of the trajectory at times 0, h, 2h, .... (With rkf45 the trajectory is traversed at 1 + 2197/5610168 times the true speed, C62.)", "quantifier": "every unperturbed object of either element set, either integrator, every target, weights and thruster, every run and every number of steps", "why_tests_cant": "A limit over all step lengths and runs of unbounded length, against a differential equation no test can solve exactly.", "anchors": ["pyqlaw/_qlaw.py: QLaw.solve, QLaw.get_cartesian_history", "pyqlaw/_elements.py: kep2sv, mee_with_a2sv", "pyqlaw/_eom.py: eom_kep_gauss, eom_mee_with_a_gauss", "pyqlaw/_symbolic.py", "pyqlaw/_lyapunov.py: lyapunov_control_angles"]}
{"id": "C113", "title": "The MEE equations of motion are Newton's law", "statement": "If modified equinoctial elements evolve by eom_mee_with_a_gauss with the package's Gauss matrix, at an elliptic state with f > 0 and (h, k) != (0, 0), then their Cartesian image under mee_with_a2sv satisfies r' = v and v' = -mu r/|r|^3 + (acceleration given in RTN).", "quantifier": "every such motion, every acceleration", "why_tests_cant": "An identity of derivatives over all states and accelerations.", "anchors": ["pyqlaw/_eom.py: eom_mee_with_a_gauss", "pyqlaw/_symbolic.py: symbolic_qlaw_mee_with_a", "pyqlaw/_elements.py: mee_with_a2sv"]}
{"id": "C114", "title": "With its generated gradient the package flies the law of steepest descent", "statement": "Take a run of an object with the functions generated by symbolic_qlaw_keplerian or symbolic_qlaw_mee_with_a. If every recorded state is regular in the sense of C109 and no chosen step is zero, the run is identical, record for record and exception for exception, to the run in which the control law is defined with the exact partial derivatives of Q. Consequently, where the motion under the generated law starting from the initial state is regular on [0, T], for every short enough t_step: solve returns without exception, thrusts at every step, stays within K h of the motion and converges or reaches tf_max; it converges at the latest one step after the motion is strictly inside the tolerances; and get_cartesian_history() is within K h of a trajectory obeying Newton's law with the full thrust (for MEE with f > 0 and off the reference plane).", "quantifier": "every object of either element set with the generated functions, every problem, thresholds and number of steps; for the convergence statements every unperturbed object without Sundman steps whose duty cycle and battery allow thrust", "why_tests_cant": "Equality of two unbounded executions, one of which (exact derivatives) no test can run.", "anchors": ["pyqlaw/_qlaw.py: QLaw.solve, QLaw.get_cartesian_history", "pyqlaw/_symbolic.py: symbolic_qlaw_keplerian, symbolic_qlaw_mee_with_a", "pyqlaw/_lyapunov.py: lyapunov_control_angles"]}
{"id": "C115", "title": "Perturbed runs and backward runs follow the motion too", "statement": "Let sigma = 1 (forward) or -1 (t_step, tf_max negative), and let gamma(s), 0 <= s <= T, be a motion of the elements at time sigma s under the equations of motion with the acceleration returned by the object's perturbations at that time and state, and with thrust along the direction of the control law (against it, and with the clock running backwards, for sigma = -1) of acceleration tmax/(mass0 - mdot sigma s), along states where Q and the perturbations are smooth and inside oe_min, oe_max. There are a step length and a constant K such that in every completed run from gamma(0), after any stretch of thrusting steps in direction sigma each at most h long, every recorded element is within K h of gamma. In inertial space the motion satisfies Newton's law with the thrust and the perturbing acceleration (for MEE with f > 0 and off the reference plane), and get_cartesian_history() is within K h of it; read forward in time, a backward run therefore follows a flight that arrives at oe0 with mass mass0. With SpicePerturbations of the same gravitational parameter the perturbing acceleration is smooth wherever ephemerides and orientation are and no body is met, and equals the sum of the third-body attractions, the oblateness term as coded and the radiation pressure in the inertial frame. Such motions exist from every smooth state where thrust can change Q.", "quantifier": "every object of either element set, either integrator, every perturbation that is smooth along the motion, either direction of time, every target, weights, thruster and number of steps", "why_tests_cant": "A limit over all step lengths and runs of unbounded length, for every force model.", "anchors": ["pyqlaw/_qlaw.py: QLaw.solve, QLaw.get_cartesian_history", "pyqlaw/_perturbations.py: SpicePerturbations.get_perturbations_RTN", "pyqlaw/_eom.py: eom_kep_gauss, eom_mee_with_a_gauss", "pyqlaw/_integrate.py: rk4, rkf45", "pyqlaw/_lyapunov.py: lyapunov_control_angles"]}
{"id": "C116", "title": "Perturbed runs and backward runs complete, and reach the target when the motion does", "statement": "Take a motion gamma on [0, T] as in C115 (either direction sigma of time, with the object's perturbations), for an object without Sundman steps; with rkf45 let moreover some slow element change at every time, which is automatic without perturbations. Let the duty cycle be on for T, the battery level under continuous thrust (drained forward, filled backward in time; not discharged at all with rkf45) stay above its minimum and at most at its capacity, and the mass stay above mass_min. Then there are a step length and a constant K such that solve from gamma(0) with every shorter step t_step = sigma h, thresholds not positive and |tf_max| + h <= T returns without exception: the recorded times are 0, sigma h, 2 sigma h, ... up to the limit or convergence, every throttle is 1, every recorded state is within K h of gamma, the exit code is 1 or 2 with converge set, or -2 with converge unset and the limit reached. If gamma is strictly inside the tolerances at time tc < T and |tf_max| >= tc, the run converges at the latest one step after tc. get_cartesian_history() of these runs does not raise, has one column per recorded time, and is within K h of a trajectory obeying Newton's law with thrust and perturbations (MEE: f > 0, off the reference plane).", "quantifier": "every object of either element set, either integrator, every perturbation smooth along the motion, either direction of time, every target, weights, thruster and number of steps", "why_tests_cant": "A limit over all step lengths and runs of unbounded length, for every force model; absence of exceptions at every step.", "anchors": ["pyqlaw/_qlaw.py: QLaw.solve, QLaw.get_cartesian_history", "pyqlaw/_integrate.py: rk4, rkf45", "pyqlaw/_perturbations.py: SpicePerturbations.get_perturbations_RTN", "pyqlaw/_convergence.py: check_convergence_keplerian, check_convergence_mee", "pyqlaw/_lyapunov.py: lyapunov_control_angles"]}
{"id": "C117", "title": "Runs that thrust and coast follow the switched motion", "statement": "Let a schedule theta say at every time of [0, T] whether the thruster is on, and let gamma and mu be state and mass of a motion in direction sigma of time with the thrust switched by theta: while theta is on, the acceleration is the thrust along the law's direction plus the object's perturbations and the mass falls at the flow rate; while it is off, only the perturbations act and the mass is constant. Let Q and the perturbations be smooth along gamma and the elements strictly inside their bounds. Then for every N there are a step length and a constant K such that every solve that returns without exception and starts at gamma(0), mu(0), as long as its steps go in direction sigma, are no longer than h, and all but at most N of them have the throttle that theta prescribes during the whole step, records states and masses within K h of gamma and mu at the recorded time. From every smooth state such motions exist: there is one T > 0 for which every schedule with finitely many switches has one.", "quantifier": "every object of either element set, either integrator, every perturbation smooth along the motion, either direction of time, every schedule, target, weights, thruster and number of steps", "why_tests_cant": "A limit over all step lengths and runs of unbounded length, for every switching schedule.", "anchors": ["pyqlaw/_qlaw.py: QLaw.solve", "pyqlaw/_eom.py: eom_kep_gauss, eom_mee_with_a_gauss", "pyqlaw/_integrate.py: rk4, rkf45", "pyqlaw/_lyapunov.py: lyapunov_control_angles"]}
{"id": "C118", "title": "Runs with a duty cycle complete, follow the cycle, and reach the target when the switched motion does", "statement": "Take a switched motion as in C117 forward in time whose schedule is on for duty_on and off for duty_off in turn, with mass above mass_min, for an object with rk4 and without Sundman steps, and a battery which even continuous thrust for T would leave above its minimum (rates not negative, initial level at most the capacity). Then there are a step length and a constant K such that solve from gamma(0) with every shorter t_step = h, thresholds not positive and |tf_max| + h <= T returns without exception: the recorded times are 0, h, 2h, ... up to the limit or convergence; with a = floor(duty_on/h) + 1 and b = floor(duty_off/h) + 1 the throttle of step k is 1 exactly when k mod (a + b) < a; every recorded state and mass is within K h of the motion; the exit code is 1 or 2 with converge set, or -2 with converge unset and the limit reached. If gamma is strictly inside the tolerances at time tc < T and |tf_max| >= tc, the run converges at the latest one step after tc.", "quantifier": "every object of either element set with rk4, every perturbation smooth along the motion, every duty cycle, battery that suffices, target, weights, thruster and number of steps", "why_tests_cant": "A limit over all step lengths and runs of unbounded length with any number of duty cycles; absence of exceptions at every step.", "anchors": ["pyqlaw/_qlaw.py: QLaw.solve, QLaw.set_problem", "pyqlaw/_integrate.py: rk4", "pyqlaw/_eom.py: eom_kep_gauss, eom_mee_with_a_gauss", "pyqlaw/_convergence.py: check_convergence_keplerian, check_convergence_mee", "pyqlaw/_lyapunov.py: lyapunov_control_angles"]}
{"id": "C119", "title": "Runs with Sundman steps and a duty cycle complete, follow the cycle, and reach the target when the switched motion does", "statement": "Take a switched motion as in C118, for an object with rk4 and use_sundman=True. There are a step length and constants K, A, B > 0 and N such that solve from gamma(0) with every shorter t_step = h (now an increment of the eccentric anomaly), a battery as in C118, thresholds not positive and |tf_max| + A h <= T returns without exception: the recorded times begin at 0 and grow by at least B h and at most A h up to the limit or convergence; all but N steps have the throttle that the nominal duty schedule prescribes during the whole step; every recorded state and mass is within K h of the motion at the recorded time; the exit code is 1 or 2 with converge set, or -2 with converge unset and the limit reached. If gamma is strictly inside the tolerances at time 0 < tc < T and |tf_max| >= tc, the run converges at the latest one step after tc.", "quantifier": "every object of either element set with rk4 and Sundman steps, every perturbation smooth along the motion, every duty cycle, battery that suffices, target, weights, thruster and number of steps", "why_tests_cant": "A limit over all step lengths and runs of unbounded length whose steps depend on the state; absence of exceptions at every step.", "anchors": ["pyqlaw/_qlaw.py: QLaw.solve, QLaw.set_problem", "pyqlaw/_elements.py: ta2ea, mee2ea", "pyqlaw/_integrate.py: rk4", "pyqlaw/_convergence.py: check_convergence_keplerian, check_convergence_mee", "pyqlaw/_lyapunov.py: lyapunov_control_angles"]}
{"id": "C120", "title": "Runs that thrust and coast obey Newton's law", "statement": "For a switched motion as in C117 (MEE: f > 0, off the reference plane) there is a continuous Cartesian trajectory, the image of its elements, that from every instant of [0, T) onwards satisfies r' = v and v' = -mu r/|r|^3 + F, where F has the perturbing acceleration of the object and, exactly while the schedule is on, a thrust acceleration of length tmax/mass in the direction returned by the law. For every N there are a step length and a constant K such that get_cartesian_history() of every completed run with steps in direction sigma, no longer than h, all but N of them with the scheduled throttle, is within K h of it. For the runs of C118 and C119 (duty cycle; fixed or Sundman steps) get_cartesian_history() moreover does not raise and has one column per recorded time. With SpicePerturbations, F is the thrust, when on, plus the sum of the enabled perturbations in the inertial frame.", "quantifier": "every object of either element set, either integrator (duty-cycle runs: rk4), every perturbation smooth along the motion, every schedule, target, weights, thruster and number of steps", "why_tests_cant": "A limit over all step lengths and runs of unbounded length, for every switching schedule and force model.", "anchors": ["pyqlaw/_qlaw.py: QLaw.solve, QLaw.get_cartesian_history", "pyqlaw/_perturbations.py: SpicePerturbations.get_perturbations_RTN", "pyqlaw/_eom.py: eom_kep_gauss, eom_mee_with_a_gauss", "pyqlaw/_elements.py: kep2sv, mee_with_a2sv"]}
{"id": "C121", "title": "With its generated gradient the package flies the law of steepest descent under perturbations, backwards, with a duty cycle and with Sundman steps", "statement": "Take an object with the functions generated by symbolic_qlaw_keplerian or symbolic_qlaw_mee_with_a, and a motion of these generated functions as in C115 (continuous thrust, either direction of time) or as in C118 (duty cycle) along regular states in the sense of C109 (MEE: f != 0) at which the perturbations are smooth, rpmin > 0, elements strictly inside their bounds. Then the conclusions of C116 (either integrator, fixed steps), C118 and C119 (rk4; fixed and Sundman steps) hold for solve() of the object itself: for all short enough steps it returns without exception, follows the motion and the duty cycle, converges or reaches tf_max, and converges at the latest one step after the motion is strictly inside the tolerances; and get_cartesian_history() is within K h of a trajectory obeying Newton's law with the perturbations and, while the thruster is on, full thrust along the direction of steepest descent (MEE: f > 0, off the reference plane). From every regular state where thrust can change Q such motions exist for every schedule with finitely many switches.", "quantifier": "every object of either element set with the generated functions, every perturbation smooth along the motion, every duty cycle, battery that suffices, target, weights, thruster and number of steps", "why_tests_cant": "Equality of unbounded executions with those of a law no test can run, and a limit over all step lengths.", "anchors": ["pyqlaw/_qlaw.py: QLaw.solve, QLaw.get_cartesian_history", "pyqlaw/_symbolic.py: symbolic_qlaw_keplerian, symbolic_qlaw_mee_with_a", "pyqlaw/_lyapunov.py: lyapunov_control_angles", "pyqlaw/_perturbations.py: SpicePerturbations.get_perturbations_RTN"]}
{"id": "C122", "title": "Runs limited by their battery complete, follow the charge cycle, and reach the target when the switched motion does", "statement": "Take an object with rk4 and without Sundman steps whose battery starts full at capacity[1] = hi, with minimum capacity[0] = lo, positive rates, hi > lo + 1e-12, require_full_recharge=True, a duty cycle on for at least T and off for less than the recharging time; and a switched motion as in C117 forward in time whose schedule is on for (hi - lo - 1e-12)/discharge_rate and off for (hi - lo - 1e-12)/charge_rate in turn, with mass above mass_min. Then there are a step length and a constant K such that solve from gamma(0) with every shorter t_step = h, thresholds not positive and |tf_max| + h <= T returns without exception: the recorded times are 0, h, 2h, ... up to the limit or convergence; with a = ceil(on/h) and b = ceil(a discharge_rate/charge_rate) the throttle of step k is 1 exactly when k mod (a + b) < a, and the recorded battery level falls from hi by discharge_rate h per step for a steps and rises by charge_rate h per step until it is hi again; every recorded state and mass is within K h of the motion; the exit code is 1 or 2 with converge set, or -2 with converge unset and the limit reached. If gamma is strictly inside the tolerances at time 0 <= tc < T and |tf_max| >= tc, the run converges at the latest one step after tc.", "quantifier": "every object of either element set with rk4, every perturbation smooth along the motion, every battery and pair of rates, target, weights, thruster and number of steps", "why_tests_cant": "A limit over all step lengths and runs of unbounded length with any number of charge cycles; absence of exceptions at every step.", "anchors": ["pyqlaw/_qlaw.py: QLaw.solve, QLaw.set_problem", "pyqlaw/_integrate.py: rk4", "pyqlaw/_eom.py: eom_kep_gauss, eom_mee_with_a_gauss", "pyqlaw/_convergence.py: check_convergence_keplerian, check_convergence_mee", "pyqlaw/_lyapunov.py: lyapunov_control_angles"]}
{"id": "C123", "title": "The battery recharges whenever the thruster is off", "statement": "After a solve() that returned without exception (forward, rk4, without Sundman steps, initial level inside the capacity, rates not negative), for every recorded step k with throttle 0: battery[k+1] = min(battery[k] + charge_rate (times[k+1] - times[k]), capacity[1]).", "quantifier": "every object and law, element set, duty cycle, battery, thresholds and number of steps", "why_tests_cant": "Which of several reasons turned the thruster off matters, and the effect on the battery is only visible over a stretch of steps that coast for that reason.", "anchors": ["pyqlaw/_qlaw.py: QLaw.solve"]}
{"id": "C124", "title": "A run never spends more energy than its battery held and was supplied", "statement": "After a solve() that returned without exception (forward, rk4, without Sundman steps, initial level inside the capacity, rates not negative), for every number k of recorded steps: the sum of discharge_rate (times[j+1] - times[j]) over the steps j < k with throttle 1 is at most battery[0] - capacity[0] plus the sum of charge_rate (times[j+1] - times[j]) over the other steps j < k.", "quantifier": "every object and law, element set, duty cycle, battery, thresholds and number of steps", "why_tests_cant": "A balance over runs of unbounded length with any number of charge cycles.", "anchors": ["pyqlaw/_qlaw.py: QLaw.solve"]}
{"id": "C125", "title": "The interpolated Cartesian history follows Newton's trajectory between the recorded times", "statement": "Take the runs of C116 (continuous thrust with perturbations, either direction of time, either integrator), C118, C119 (duty cycle, fixed or Sundman steps) or C122 (battery), along states where the conversion to Cartesian is smooth (MEE: f > 0, off the reference plane), and an interpolation scheme that is stable: there is a number Lambda such that on every increasing mesh finer than h, interpolating values within eps of a function with Lipschitz constant L gives values within Lambda (eps + L h) of it. Then there are a step length and a constant K such that after every run with shorter steps get_cartesian_history(interpolate=True, steps=N) returns without exception; its N evaluation times are equally spaced from 0 to the last recorded time; and at each of them, not only at the recorded times, the column is within K h of the trajectory obeying Newton's law. Linear interpolation is stable with Lambda = 1, on increasing and decreasing times.", "quantifier": "every object of either element set, every perturbation smooth along the motion, every stable interpolation scheme, every number of evaluation times, every target, weights, thruster and number of steps", "why_tests_cant": "A limit over all step lengths, and a statement about every time between the recorded ones.", "anchors": ["pyqlaw/_qlaw.py: QLaw.solve, QLaw.get_cartesian_history, QLaw.interpolate_states", "pyqlaw/_elements.py: kep2sv, mee_with_a2sv"]}
{"id": "C126", "title": "plot_trajectory_3d() with its default arguments draws the transfer after every completed run", "statement": "After a solve() that returned without exception and recorded elliptic states, with an elliptic target and mu > 0, plot_trajectory_3d() (interpolate=True, steps=None) and plot_trajectory_2d(interpolate=True) return without exception: the drawn initial and target orbits consist of 200 points on these orbits, the transfer has the requested number of points, the start marker is on the orbit of the first record and the end marker on the orbit of the last.", "quantifier": "every object of either element set, every completed run, every interpolation scheme that is exact at its nodes, every value of steps", "why_tests_cant": "Whether it holds depends on the number of records and the final time of the run, which are only known after solving.", "anchors": ["pyqlaw/_plot_methods.py: plot_trajectory_2d, plot_trajectory_3d", "pyqlaw/_qlaw.py: QLaw.get_cartesian_history, QLaw.interpolate_states"]}
{"id": "C127", "title": "A run stopped by its time limit can be resumed from its last record", "statement": "After a solve() on a fresh object that ended with exit code -2, call set_problem with the same arguments except oe0, mass0 and battery_initial, now the last recorded elements, mass and battery level, and tf_max, now the remaining time T - times[-1] (and perturbations, if any, with their reference epoch moved by times[-1]; callable thresholds read at the elapsed time), and solve again. If in the uninterrupted run to T recorded times advance, |T| is at most duty_cycle[0] and the battery stays above its minimum, and if before the interruption no produced state was within tol_oe_relaxed and the law returned no NaN angle, then the first run's histories continued by the second's (times shifted by times[-1], the common record counted once) are exactly those of the uninterrupted run, the same exception is raised if any, and otherwise exitcode and converge are the same.", "quantifier": "every object whose equations of motion do not depend on time (both element sets of the code), integrator, fixed or Sundman steps, forward or backward, every perturbation, thresholds, target and number of steps before and after the interruption", "why_tests_cant": "An equality between runs of unbounded length over all interruption times; a hidden loop variable that is not recorded breaks it only for particular inputs.", "anchors": ["pyqlaw/_qlaw.py: QLaw.solve, QLaw.set_problem", "pyqlaw/_perturbations.py: SpicePerturbations.get_perturbations_RTN"]}
{"id": "C128", "title": "A run backward in time is the reversal of a forward run", "statement": "Reversal turns an orbit half a turn about the reference direction and reverses its velocity: RAAN, argument of periapsis and true anomaly change sign (MEE: g, k and L). Take a problem and its reversal: oe0 and oeT reversed; tf_max, t_step, mdot, charge and discharge rates with the opposite sign; the bounds of RAAN and argument of periapsis negated and exchanged; perturbations with reversed ephemerides. With rk4, fixed steps, no effectivity thresholds, |tf_max| at most duty_cycle[0], the battery above its minimum and (MEE) no weight on k, solve() on the second returns the reversed histories of the first: times and recorded dQ/dt negated, states reversed, in-plane angles negated (pi stays pi), the same masses, battery levels, out-of-plane angles, throttles, Q values, exit code, flag and exception. So a problem can be solved backward in time by a forward run and vice versa.", "quantifier": "every object, element set, smooth or raising perturbation, target, weights, thruster, direction of time and number of steps", "why_tests_cant": "An equality between pairs of runs of unbounded length; the sign of one term of the dynamics, the law, the sign convention of the thrust or the books breaks it, and with ordinary inputs both runs still look plausible.", "anchors": ["pyqlaw/_qlaw.py: QLaw.solve", "pyqlaw/_symbolic.py: symbolic_qlaw_keplerian, symbolic_qlaw_mee_with_a", "pyqlaw/_elements.py: kep2sv, mee_with_a2sv", "pyqlaw/_perturbations.py: SpicePerturbations.get_perturbations_RTN"]}
{"id": "C129", "title": "Prograde and retrograde runs are mirror images", "statement": "Reflection in the plane of the reference direction and the pole turns inclination i into pi - i and RAAN into its negative and leaves the other Keplerian elements; the flown position and velocity are reflected. For a keplerian object whose problem is reflected (oe0 and oeT reflected; the bounds of inclination and RAAN reflected and exchanged; ephemerides of the perturbations reflected), solve() returns the reflected histories: states reflected, out-of-plane angles negated, everything else the same, including times, masses, battery, effectivities, Q, exit code and exception. With C94, C83 and C128 these are all symmetries of space that keep the pole axis.", "quantifier": "every keplerian object, either integrator, fixed or Sundman steps, either direction of time, every perturbation, thresholds invariant under reflection, duty cycle, battery, target, weights and number of steps", "why_tests_cant": "An equality between pairs of runs of unbounded length; tests fly prograde orbits, so a wrong sign of cos i or a missing absolute value does not show.", "anchors": ["pyqlaw/_qlaw.py: QLaw.solve", "pyqlaw/_symbolic.py: symbolic_qlaw_keplerian", "pyqlaw/_eom.py: eom_kep_gauss", "pyqlaw/_convergence.py: elements_safety, check_convergence_keplerian", "pyqlaw/_perturbations.py: SpicePerturbations.get_perturbations_RTN"]}
{"id": "C130", "title": "Sampled effectivities approach those of the whole orbit", "statement": "The effectivities in etas compare the current rate of Q with the best and the worst of anomaly_grid_size sampled anomalies. On an elliptic osculating orbit on which thrust influences Q everywhere, the fastest decrease of Q has a greatest value M and a least value m over all anomalies, and there is a constant L of the orbit, target, weights and acceleration, not of the grid, such that every forward step of every run recorded there with N samples and a positive threshold has an absolute effectivity between d/M and d/M + L/(N M), d being the recorded rate; and if 2L < N(M - m), a relative effectivity within L/(N(M - m)) of (d - m)/(M - m). Hence the recorded throttle is the one the exact effectivities call for, unless one of them is closer to its threshold than this error. The sampled absolute effectivity never understates.", "quantifier": "every elliptic orbit of either element set, target, weights and Petropoulos parameters, every run, grid size and number of steps before", "why_tests_cant": "An error bound over a continuum of anomalies and all grid sizes; a test compares a handful of grids on one orbit, and a grid that misses part of the orbit (one endpoint, half a turn) gives plausible numbers.", "anchors": ["pyqlaw/_qlaw.py: QLaw.evaluate_osculating_qdot, QLaw.solve", "pyqlaw/_symbolic.py: symbolic_qlaw_keplerian, symbolic_qlaw_mee_with_a"]}
{"id": "C131", "title": "Stopping criteria only decide where a run stops", "statement": "The tolerances, the relaxed tolerances, the number of relaxed convergences that end a run, the number of NaN angles allowed, the time limit and the mass threshold have no other effect than to end the run. For two objects that differ in nothing else, the histories of one run are the beginning of the histories of the other (up to the last recorded state, which the longer run may still move to the element bounds). Which one is the shorter: if each criterion of the first object is at least as easily met (tolerances wider, fewer relaxed convergences and NaN angles, earlier time limit, larger mass threshold), it is the first; and if the first ends in an exception, the second ends in the same exception with the same histories.", "quantifier": "every configuration, problem and pair of settings of the criteria, every run that returns or raises; the comparability for any arithmetic, the direction for any with the laws of order", "why_tests_cant": "Compares all pairs of settings of six criteria over runs of unbounded length; a test that tunes a tolerance looks at where the run ends, not at whether the path to it stayed the same, and a threshold feeding into the step or the control changes both.", "anchors": ["pyqlaw/_qlaw.py: QLaw.solve, QLaw.set_problem, QLaw.__init__", "pyqlaw/_convergence.py: check_convergence_keplerian, check_convergence_mee"]}
{"id": "C132", "title": "A state with NaN is never thrust on and never reported as converged", "statement": "With the generated functions of the package: once a recorded state has a NaN element (MEE: any of the six; Keplerian: the true anomaly), every later recorded state has it, every later step has throttle 0 and the mass does not change any more. The run does not end with exit code 1 or 2, unless the element has weight zero (fast variable: unless it is the last state or all weights are zero). At most nan_angles_threshold steps on which the duty is on follow. The record of a Keplerian run masks the NaN: from the second such state on, the first five elements are recorded as their lower bounds; and a NaN among the first five initial elements is replaced by the lower bound before the first step, which may then thrust.", "quantifier": "every completed run of either element set, integrator, perturbation, weights, duty cycle and battery, in any arithmetic in which NaN propagates and compares false", "why_tests_cant": "NaN reaches the loop from any of dozens of square roots and divisions and through any number of steps; tests feed states that stay finite, and a convergence check written with the opposite comparison, or a minimum that drops NaN, passes them.", "anchors": ["pyqlaw/_qlaw.py: QLaw.solve", "pyqlaw/_symbolic.py: symbolic_qlaw_keplerian, symbolic_qlaw_mee_with_a", "pyqlaw/_convergence.py: check_convergence_keplerian, check_convergence_mee, elements_safety", "pyqlaw/_lyapunov.py: lyapunov_control_angles"]}
{"id": "C133", "title": "Coasting thresholds act only through the steps they cut", "statement": "Say that a step of a run was cut when its recorded throttle is 0 and a recorded effectivity of it is a number (duty-cycle coasts and NaN steps record NaN). If no step of a completed solve(eta_a, eta_r) was cut, then solve(0.0, 0.0) on the same object completes too, with the same exit code, convergence flag, times, states, masses, battery levels, controls, Q and dQ/dt: only etas and etas_bounds differ. In general the two runs record the same times, states, masses, battery levels, controls, Q and dQ/dt for all steps before some step that was cut.", "quantifier": "every object, element set, integrator, perturbation, duty cycle and battery, thresholds given as floats or as callables, every completed run, in any arithmetic with the laws of order", "why_tests_cant": "Compares pairs of runs of unbounded length for arbitrary threshold functions; a threshold or the sampling of the orbit leaking into the state (a changed element, a scaled thrust, a counter) leaves every single run plausible.", "anchors": ["pyqlaw/_qlaw.py: QLaw.solve, QLaw.evaluate_osculating_qdot"]}
{"id": "C134", "title": "A battery acts only through the steps at which it is short", "statement": "Say that a battery is short at step n of a run when battery[n] is at most battery_capacity[0] + 1e-12, or battery[n] minus the discharge rate times the nominal step is below battery_capacity[0]. Two runs of objects that differ only in the battery arguments of set_problem (initial level, capacity, rates, require_full_recharge), with thresholds that do not look at the battery level, report the same exception, exit code, flag and histories apart from battery, or record the same up to a step at which one of the two batteries was short. Hence a battery that is never short does not matter: the run is the one with the default battery.", "quantifier": "every object, element set, integrator, fixed or Sundman steps, perturbation, duty cycle and pair of batteries, every run that returns or raises; the comparison in any arithmetic, the default battery over ordered fields extended by infinities and NaN", "why_tests_cant": "Compares pairs of runs of unbounded length over all battery parameters; tests use the default battery or look at one run, so a capacity or rate leaking into the thrust, the mass or the step does not show.", "anchors": ["pyqlaw/_qlaw.py: QLaw.solve, QLaw.set_problem"]}
{"id": "C135", "title": "What solve() prints is the record of the run", "statement": "verbosity and print_frequency do not change what solve() does: object, histories and exception are the same for all values. On a fresh object with print_frequency p >= 1, a completed solve() prints at verbosity 2 or more exactly one line for each step k that is a multiple of p, in order, with the header before those that are multiples of 20 p; the line shows k, times[k+1], the differences between the elements after the step (before they are moved to the element bounds) and the target, and the sixth element. A run that ends with exit code 1 or 2 prints no line for its last step, any other run prints all its steps. At verbosity 1 or more exactly one message follows, and it is that of the exit code: target reached for 1 and 2, mass under mass_min for -1, out of time for -2, NaN angles for -3. At verbosity 0 nothing is printed.", "quantifier": "every object, problem, thresholds, verbosity, positive print frequency and completed run of any length, in any arithmetic", "why_tests_cant": "Relates the whole output of runs of unbounded length to the recorded histories for all frequencies and exit codes; tests run at verbosity 0 or do not read the output.", "anchors": ["pyqlaw/_qlaw.py: QLaw.solve"]}
{"id": "C136", "title": "A duty cycle acts only once its first on-time is over", "statement": "Two runs of objects that differ only in duty_cycle report the same exception, exit code, flag and histories, or record the same (times, states, masses, battery, controls, etas, etas_bounds, Q, dQ/dt) up to a step that starts later than one of the two on-times, or with the battery at its minimum. Hence the duty cycle of a run no step of which starts later than its on-time (in particular one backward in time), with a battery that never reaches its minimum, can be replaced by any other with this property without changing anything.", "quantifier": "every object, element set, integrator, fixed or Sundman steps, perturbation, thresholds, battery and pair of duty cycles, every run that returns or raises, in any arithmetic", "why_tests_cant": "Compares pairs of runs of unbounded length over all duty cycles; a duty parameter leaking into the step, the clock or the thrust leaves each run plausible by itself.", "anchors": ["pyqlaw/_qlaw.py: QLaw.solve, QLaw.set_problem"]}
{"id": "C137", "title": "Callables are consulted only at the recorded states", "statement": "A run depends on perturbations.get_perturbations_RTN, eta_a and eta_r only through their values at the recorded points (times[k], states[k], masses[k], battery[k]); perturbations=None is an acceleration of zero. Take a solve() that returned or raised, and other perturbations and thresholds that give the same values (or raise the same exception) at all its recorded points: solve() with these ends too, with the same exception, exit code, flag and histories. In general two runs that differ in these arguments record the same up to a recorded point at which one of the values differs. In particular the perturbation is held constant over a step: integrator stages do not see it.", "quantifier": "every object, element set, integrator, duty cycle and battery, all pairs of perturbations and thresholds (floats or callables), every run that returns or raises, in any arithmetic", "why_tests_cant": "Quantifies over all functions that agree on the recorded points of runs of unbounded length; tests try a few smooth callables, with which an extra evaluation at another time or with a stale state is not visible.", "anchors": ["pyqlaw/_qlaw.py: QLaw.solve", "pyqlaw/_eom.py: eom_kep_gauss, eom_mee_with_a_gauss"]}
{"id": "C138", "title": "Settings a run does not use have no effect", "statement": "Changing a setting that does not apply changes nothing about solve() but the setting itself: ode_tol, step_min and step_max with integrator rk4, and with either integrator when the battery rates are zero; oe_min and oe_max with MEE; anomaly_grid_size while no threshold is positive; b_petro with MEE; rpmin and k_petro when wp is zero. In each case solve() raises the same exception or returns with the same exit code, flag and histories, after the same number of steps.", "quantifier": "every object, problem, thresholds and number of loop passes, and every value of the settings named; rk4, bounds and grid in any arithmetic, b_petro for the generated functions in any arithmetic, zero battery rates and zero wp over the reals", "why_tests_cant": "Quantifies over all values of a setting and all runs of unbounded length; tests keep the defaults, so that a setting read in the wrong branch does not show.", "anchors": ["pyqlaw/_qlaw.py: QLaw.solve, QLaw.evaluate_osculating_qdot, QLaw.__init__", "pyqlaw/_integrate.py: rk4, rkf45", "pyqlaw/_symbolic.py: symbolic_qlaw_keplerian, symbolic_qlaw_mee_with_a"]}
{"id": "C139", "title": "With MEE the direction from which longitudes are measured does not matter", "statement": "Increasing the RAAN of the initial orbit and of the target by the same angle (which turns (f, g) and (h, k) by that angle and adds it to L) leaves Q, the thrust vector in the radial-transverse-normal frame, dQ/dt and the convergence check of a mee_with_a object unchanged. (Violated: the maximum rates of h and k used in Q depend on the direction, so that the same transfer can have a Q nine times smaller; the box test of the convergence check depends on it by up to a factor sqrt 2; and see C44 for f <= 0. True for Q if f and g have the same weight and h and k none, and then for the thrust vector and dQ/dt if f > 0 in both descriptions.)", "quantifier": "every orbit, target, angle, acceleration and parameters of the law; over the reals", "why_tests_cant": "Quantifies over all orbits and angles; a test fixes one frame, and the law works in each frame, only differently.", "anchors": ["pyqlaw/_symbolic.py: symbolic_qlaw_mee_with_a", "pyqlaw/_convergence.py: check_convergence_mee", "pyqlaw/_elements.py: kep2mee_with_a"]}
{"id": "C140", "title": "For the semi-major axis alone both element sets command the same thrust", "statement": "With weight on the semi-major axis only, an even n_petro and the same target semi-major axis, a keplerian and a mee_with_a object in the same orbit compute the same Q, the same thrust vector in the radial-transverse-normal frame and the same dQ/dt. (Violated for f < 0, see C44: there Q agrees, but the thrust vectors differ at every longitude at which Q depends on the semi-major axis.)", "quantifier": "every ellipse with 0 < e < 1 and 0 < i < pi, every acceleration, target, periapsis penalty and scaling; over the reals", "why_tests_cant": "Relates two independently written quotients, their symbolic derivatives and two Gauss matrices for every orbit; a test compares numbers at single orbits.", "anchors": ["pyqlaw/_symbolic.py: symbolic_qlaw_keplerian, symbolic_qlaw_mee_with_a", "pyqlaw/_elements.py: kep2mee_with_a"]}
{"id": "C141", "title": "With a fractional n_petro a Keplerian run does not thrust below the target semi-major axis", "statement": "With keplerian elements and an n_petro that is not an integer, no step of a completed solve() that starts from a semi-major axis below the target thrusts, whatever the weights (also with weight zero on the semi-major axis): its throttle is 0 and the mass does not change. At most nan_angles_threshold such steps with the thruster available are recorded.", "quantifier": "every object with the generated keplerian functions, problem, thresholds and run, in any arithmetic in which operations on NaN give NaN, a negative number to the power n_petro is NaN and NaN to the power 1/r_petro is NaN (numpy: n_petro not an integer, 1/r_petro not zero)", "why_tests_cant": "Quantifies over all weights, targets, parameters and runs of unbounded length; the tests use the default n_petro = 4, for which the power of a negative number is a number.", "anchors": ["pyqlaw/_symbolic.py: symbolic_qlaw_keplerian", "pyqlaw/_qlaw.py: QLaw.solve", "pyqlaw/_lyapunov.py: lyapunov_control_angles"]}
{"id": "C142", "title": "An odd n_petro works while m_petro is at least one", "statement": "With keplerian elements, a whole n_petro (odd or even) and m_petro >= 1, the root in the scaling of the semi-major-axis term is taken of a positive number at every positive semi-major axis and every target; Q is non-negative, zero exactly at the target, and differentiable away from the kinks of the other terms. With an odd n_petro the scaling lowers the semi-major-axis term below the target, where an even one raises it. The bound is sharp: with 0 < m_petro < 1 and an odd n_petro the number under the root is negative whenever a < (1 - m_petro) aT.", "quantifier": "every inclined non-circular ellipse, target, acceleration, non-negative weights and penalty, every whole n_petro and every m_petro >= 1 (bound: every m_petro > 0); over the reals", "why_tests_cant": "Quantifies over all orbits, targets and exponents; the tests use the default n_petro = 4.", "anchors": ["pyqlaw/_symbolic.py: symbolic_qlaw_keplerian"]}
