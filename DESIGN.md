# Formal model of pyqlaw in Lean 4 — design

## 1. What is modelled, and over which numbers

The model is a function-by-function transcription of `/repo/pyqlaw` (see the table in section 3).
Every numeric function is written **once**, generically over a number type `α` that only has to
provide the operations the Python code uses (`+ - * / **`, comparisons, `sqrt`, `sin`, ...), with
**no laws**.  The same text is then instantiated in five ways:

| instance | use |
|---|---|
| arbitrary `α`, no laws | control-flow theorems about `QLaw.solve` and the object protocol. They use no arithmetic law, so they hold for IEEE doubles as well. |
| arbitrary `α` with `OrdLaws` | theorems that need only the laws of IEEE comparison (NaN compares false, otherwise a total order). |
| `Ext K` | exact arithmetic over an ordered field `K` extended with `nan`, `+inf`, `-inf` (IEEE without rounding and without signed zero). Used for time, mass and battery bookkeeping and NaN behaviour. |
| `Rd K` | rounded arithmetic: every result of `+ - * /` is the exact one followed by an arbitrary monotone, odd, idempotent rounding that may overflow (IEEE doubles without signed zeros are one). Used for C105. |
| `ℝ` | geometry, dynamics, control law: real analysis with Mathlib's functions. Domain guards (non-zero divisors, non-negative radicands) are hypotheses. |

Exceptions are values: functions compiled with numba's `@njit` use the default
`error_model='python'`, in which a scalar division by zero raises `ZeroDivisionError`;
they are modelled in `Except PyErr` with the checked division `ndiv`.  Lambdified
(sympy/numpy) code and plain numpy-scalar code uses the unchecked `/`.

The `while` loop of `QLaw.solve` is modelled by a step function and a fuel-indexed runner;
"the run stops with result x" means "for some fuel the runner returns x", and invariants are
proved for every fuel.  Histories are lists.  `oe_iter`, `states[-1]` and (before the first step)
the caller's `oe0` are the same numpy object in the code; since each step allocates a fresh array and
appends it to `states`, the list `states` itself is the heap and in-place clamping is an
update of its last element; `oe0` is `states[0]`.

## 2. Trusted base

* Lean's kernel, and the axioms `propext`, `Classical.choice`, `Quot.sound` (checked with
  `#print axioms`; no other axiom, no `sorry`, no `native_decide`/`bv_decide`).
* The transcription from Python to Lean, each definition citing file and lines.
* Semantics assumed of the libraries:
  - numpy elementary functions are the mathematical ones; `np.arctan2(y,x)` is `Complex.arg (x+iy)`;
    `np.clip`, `np.linspace`, `np.linalg.norm`, `np.cross`, `np.dot` as documented; Python/numba `min`/`max` keep
    the first argument on unordered comparison.
  - `sympy.diff` applies the rules of differentiation and `lambdify` evaluates the result with numpy, where a division by
    zero gives an infinity or NaN (Model/Diff.lean). Most theorems about gradients use Mathlib's `deriv`; C109 proves that
    the two agree at regular states. How sympy arranges and cancels terms is not modelled. Claims about singular states are made only
    where the division zero by zero cannot be cancelled (`acos(cos x)` and `sqrt(sin(x)**2)` at `x = 0`, C111), not for
    instance at `a = a_T`, where sympy may cancel powers of `a - a_T`.
  - numba's default error model raises on scalar division by zero and does not bounds-check.
  - `scipy.interpolate.interp1d` and SPICE are parameters (arbitrary functions).
* Not modelled: floating-point rounding except where theorems are law-free, need only the order of IEEE comparison, or are
  about `Rd K` (C105); signed zeros; what matplotlib draws (only the data handed to it); the file system (a write either stores
  the text or raises); integer-dtype arrays; threshold callables with side effects.

## 3. Code covered

| Lean module (lean/Verif/) | models |
|---|---|
| Num.lean, Ext.lean, Round.lean, Binary.lean | number interfaces, `Ext K`, rounded arithmetic `Rd K`, binary floating point |
| Model/Transformations.lean | `_transformations.py` |
| Model/Elements.lean | `_elements.py` |
| Model/Eom.lean | `_eom.py` |
| Model/Integrate.lean | `_integrate.py` |
| Model/Lyapunov.lean | `_lyapunov.py` |
| Model/Symbolic.lean, Model/Diff.lean | `_symbolic.py`: the expressions; their derivatives by the rules of `sym.diff` and the generated functions |
| Model/Convergence.lean | `_convergence.py` |
| Model/Perturbations.lean | `_perturbations.py` (SPICE as parameter) |
| Model/Qlaw.lean, Model/Defaults.lean | `_qlaw.py`: construction, default arguments, setters, set_problem, solve, evaluate_osculating_qdot |
| Model/Export.lean | `_qlaw.py`: save_to_dict, get_cartesian_history |
| Model/Plot.lean | `_plot_helper.py` geometry; the data handed to matplotlib by `_plot_methods.py` (plot_controls, plot_battery_history, plot_efficiency, plot_Q, frame of plot_trajectory_3d) |
| Model/Report.lean | the numbers printed by `pretty_results` (`_qlaw.py`) and drawn by plot_elements_history, plot_trajectory_2d and plot_trajectory_3d (`_plot_methods.py`) |
| Model/PlotInterp.lean | the default `plot_trajectory_3d()` and `plot_trajectory_2d(interpolate=True)` (`_plot_methods.py`) with the interpolated history |
| Model/Json.lean | `_qlaw.py`: NumpyEncoder, the file written by save_to_dict |
| Model/Pretty.lean | `_qlaw.py`: the values printed by pretty and pretty_settings |
| Model/Progress.lean | `_qlaw.py`: solve with the messages it prints |
| Props/*.lean | the property theorems; helper lemmas in Proofs/ |

## 4. Plan per property

* **C01 Result histories stay aligned** — Invariant over the law-free loop model: step preserves the length relation; induction on fuel.
* **C02 Exit code and converge flag are consistent on a fresh object** — Law-free; invariant `exitcode = 0 and converge = false` while the loop continues, case analysis at exit.
* **C03 Exit code 1 means the final state meets tolerance, and it is the first one** — Law-free; invariant: every recorded post-step state failed the strict check while the loop continues.
* **C04 Exit code 2 means the relaxed tolerance was met exit_at_relaxed times** — Law-free; invariant: the counter equals the number of recorded post-step states passing the relaxed check.
* **C05 Exit code -1 means the mass threshold was crossed, for the first time** — Law-free; invariant on recorded masses, precedence from the order of the checks in the step function.
* **C06 Exit code -2 means time ran out and nothing else** — Law-free; as C03/C05 plus the loop guard.
* **C07 Exit code -3 means more NaN thrust angles than allowed** — Law-free; invariant relating the NaN counter to a ghost count of NaN evaluations.
* **C08 Each solve() call reports its own outcome** — Counterexample run (two solves of one object) computed in the kernel over `Ext Q`; positive theorem restricted to fresh objects is C02.
* **C09 Time moves forward strictly and steps never exceed t_step** — `Ext K`; invariants: time/battery finite, step in (0, t_step].
* **C10 tf_max is respected up to the last step** — Law-free for the guard part; `Ext K` for the last step.
* **C11 solve() terminates** — `Ext K`: each step advances time by at least min(t_step, 1e-12/rate): fuel bound by the Archimedean property. t_step = 0: time never changes.
* **C12 Backward propagation** — `Ext K`: as C09/C11 with negative step.
* **C13 Propellant bookkeeping** — Law-free per-step relation, then `Ext K` summation.
* **C14 Mass never increases in forward runs and stays above mass_min until the last step** — `Ext K` for monotonicity, law-free for the threshold.
* **C15 Battery level stays within capacity** — `OrdLaws`; clip lies between its bounds. `Ext K` for finiteness.
* **C16 No thrust on a depleted battery** — Law-free; duty cannot be on at a step that found the battery at the floor.
* **C17 Full-recharge lockout** — Law-free temporal invariant on the charging flag.
* **C18 A thrusting step is paid for by the battery** — `Ext K`; invariant under require_full_recharge; counterexample run over `Ext Q` otherwise.
* **C19 Duty cycle limits continuous thrusting** — `Ext K` invariant about the last switch-on time; negative theorem for t_step < 0.
* **C20 Default duty cycle and battery never inhibit thrust** — `Ext K` invariant.
* **C21 Starting at the battery floor** — Law-free: error iff first iteration has duty off.
* **C22 Thrust / coast decision** — Law-free case analysis of the control phase.
* **C23 Effectivities are normalised in forward runs** — `R`: list max/min bounds over the sampling grid whose last point is the current anomaly plus 2 pi; negative theorem for negative acceleration.
* **C24 Threshold argument types are checked** — Law-free; plus `OrdLaws` (NaN comparisons) for the equality of runs.
* **C25 Throttle 1 means full thrust, throttle 0 means none** — `R`: norm of the commanded vector; law-free for zero.
* **C26 solve() does not modify its inputs** — Law-free on the states-as-heap model; concrete violating run for keplerian.
* **C27 Recorded Keplerian states respect the element bounds** — `OrdLaws` invariant.
* **C28 Object protocol: validation and readiness** — Operation-sequence induction on the object model.
* **C29 Element type and dynamics agree** — Operation-sequence induction; concrete violating sequence.
* **C30 A six-component target behaves as its first five components** — Law-free equality of runs.
* **C31 Sundman step** — `R`: monotonicity of E - e sin E.
* **C32 rkf45 step-size control in solve()** — Law-free simulation between runs with different step-size outputs.
* **C33 Relaxed tolerance contains the strict tolerance** — `R`/ordered field, from C34/C35.
* **C34 MEE convergence check is the weighted box test** — `R` and `Ext K`; sum of 0/1 flags equals the length iff all are 1.
* **C35 Keplerian convergence check measures angles modulo a full turn** — `R`; arccos(cos x) as distance to 2 pi Z.
* **C36 elements_safety clamps** — `OrdLaws`.
* **C37 Thrust angles point against the gradient** — `R` for the direction; `Ext R` for NaN and error cases.
* **C38 The commanded direction is the steepest descent of Q** — `R`; Cauchy-Schwarz.
* **C39 The two ways of computing dQ/dt agree** — `R`; algebra.
* **C40 Q is a valid Lyapunov candidate** — `R`; positivity and sum of squares.
* **C41 Q decreases along the controlled motion** — `R`; chain rule with Mathlib derivatives; differentiability via fun_prop.
* **C42 Keplerian maximum element rates are maxima** — `R`; explicit inequalities and witnesses.
* **C43 MEE maximum element rates are maxima** — `R`; closed-form maximisation over longitude and direction; an equivalence for each of f, g, h, k.
* **C44 MEE Gauss coefficients for the semi-major axis are right in every quadrant** — `R`; cos/sin of arctan(g/f).
* **C45 Keplerian -> MEE -> Keplerian round trip** — `R`; Complex.arg lemmas.
* **C46 MEE -> Keplerian -> MEE round trip** — `R`; Complex.arg lemmas; counterexample.
* **C47 Conversions through semi-major-axis MEE agree** — `R`; algebra.
* **C48 kep2sv produces the orbit with the given elements** — `R`; trigonometric identities.
* **C49 Cartesian round trip** — `R`; on top of C48.
* **C50 MEE to Cartesian agrees with Keplerian to Cartesian** — `R`; on top of C45 and 2pi-periodicity of kep2sv; counterexample.
* **C51 Orbital period** — `R`; vis-viva.
* **C52 True to eccentric anomaly** — `R`; half-angle identities.
* **C53 Eccentric anomaly from MEE agrees** — `R`.
* **C54 Orbit sampling closes** — `R`; list of samples.
* **C55 Rotation matrices are rotations** — `R`.
* **C56 wrap returns an equivalent angle in [-pi, pi)** — `R`; floor; counterexample.
* **C57 Coasting keeps the orbit** — `R`; algebra on the stages of the integrators.
* **C58 Keplerian Gauss equations are Newton's law** — `R`; HasDerivAt of kep2sv along a curve.
* **C59 MEE Gauss equations are consistent with the Keplerian ones** — `R`; HasDerivAt of kep2mee_with_a along a curve.
* **C60 Thrust and perturbation superpose** — Algebra.
* **C61 rk4 is the classical fourth-order method** — `R`; algebra per class.
* **C62 rkf45 is a consistent fourth-order method** — `R`; closed form for constant right-hand side; counterexample.
* **C63 Third-body formula equals the direct formula** — `R`; algebra with the cube of the square root.
* **C64 J2 acceleration is the gradient of the J2 potential** — `R`; HasDerivAt of the potential; counterexample.
* **C65 Solar radiation pressure is a radial inverse-square push** — `R`.
* **C66 RTN matrix is a right-handed rotation aligned with the orbit** — `R`.
* **C67 Perturbations in RTN** — `R`, ephemeris as parameters; error case by computation.
* **C68 save_to_dict exports one unit thrust direction and throttle per time** — Lists + trigonometric identity.
* **C69 save_to_dict exports MEE states** — Lists; counterexample.
* **C70 Cartesian history matches the recorded states** — Lists.
* **C71 Plot geometry helpers** — `R`.
* **C72 Histories after an exception** — As C01, with the exceptional ends of the loop; concrete violating run.
* **C73 Result plots show the recorded data** — Lists, from the alignment of C01.
* **C74 Interpolated Cartesian history** — `Ext K`; lists and C09.
* **C75 Solving again repeats the run** — Order laws; induction on the loop comparing the two runs after the first clamp.
* **C76 Raising the time limit only extends the run** — Order laws; induction on the loop, prefix order on histories.
* **C77 Targets with zero weight are ignored** — `R`; simulation between two runs (Proofs/Sim.lean), equality of the candidates on arguments that agree where weighted.
* **C78 Only the ratios of the weights matter** — `R`; the same simulation, linearity of the candidate in the weights and of the derivative.
* **C79 The unit of mass does not matter** — `R`; the same simulation with masses rescaled.
* **C80 Recorded Q, rate and direction are those of the control law** — Any arithmetic for the call of the law (trace of the run), then `R`: steepest descent of the law at the recorded arguments.
* **C81 The Gauss matrix is frozen within a step** — `R`; both integrators on a right-hand side whose slow components do not depend on the state, then the trace of the run.
* **C82 Coplanar transfers stay in their plane** — `R`; induction over the trace; the derivative of Q in the out-of-plane elements vanishes or is multiplied by a vanishing coefficient.
* **C83 The direction from which RAAN is measured does not matter** — `R`; change of variables carried through the whole loop (Proofs/Change.lean): if law, integrator, clipping, step choice and thresholds commute with an affine change of variables, so does solve.
* **C84 The units of time, length and mass do not matter** — Same simulation as C83 with the change of units; every formula of the package is shown to be dimensionally consistent.
* **C85 Target angles matter only up to whole turns** — `R`; periodicity of the cosine, then the simulation of C77.
* **C86 Printed errors are within the tolerance after convergence** — Alignment of the histories (C01) and the checks of C34 and C35; the violation is a real run of the package's own law (Examples/Turn.lean).
* **C87 Element plots show the recorded elements** — Lists; the conversion is `mee_with_a2kep`, with C34 and C35 for the band.
* **C88 The periapsis overlay is the periapsis radius** — The minimum of the polar equation of the orbit; equivalence for the unconverted case.
* **C89 Trajectory plots show the initial orbit, the target orbit and the transfer** — C48 and C54 at every point of the curves.
* **C90 A Cartesian state survives conversion to elements and back** — Elements of the state from its angular momentum and eccentricity vectors, then C49 and uniqueness.
* **C91 The MEE equations with the semi-latus rectum describe the same motion** — Differentiate kep2mee along the motion, substitute the Gauss rates.
* **C92 Perturbations do not depend on the units of length and time** — Scaling lemma for the constructor, for kep2sv and for each term; induction over the bodies.
* **C93 The maximum rate of the argument of periapsis is a weighted mean of two exact maxima** — Cauchy-Schwarz in the direction, then monotonicity of the in-plane bound around the root of the cubic given by Cardano's formula; closed form for the normal part.
* **C94 Runs reflected in the reference plane are the same run** — Change of variables carried through every phase of a step (the refinement used for C83 and C84), with a sign for the normal component.
* **C95 Short thrusting steps decrease Q** — The slow elements move along a straight line during a step (C81); Q restricted to that line has negative derivative by C80 and the chain rule, and only the mass changes afterwards.
* **C96 Whole turns in the initial angles do not matter** — The change of variables of C83 with a shift by whole turns; periodicity of each formula. Witness run for the violation.
* **C97 Q is the proximity quotient of the orbit** — Each ingredient is characterised on its own (least distance, shortest angle, greatest rate) and identified through C42, C88 and C93; uniqueness of extrema.
* **C98 Away from the target short thrusting steps decrease Q at a uniform rate** — Continuity of the gradient of Q (Proofs/Smooth.lean) and of the field of the law, compactness, and strict differentiability give a uniform step and rate; C81 for what a step does; induction over the stretch.
* **C99 Thrusting runs that stay away from singularities converge** — C98 bounds the duration; C02, C05, C06 and C07 leave convergence as the only way to end.
* **C100 The saved file holds the exported data** — Structural induction over nested values: what is encoded is decoded; the three cases of NumpyEncoder.default separately.
* **C101 pretty prints the problem that was set** — Induction over call sequences: which calls change the problem; C26 for what solve does to the initial elements; concrete violating run.
* **C102 Coast arcs follow the Kepler motion** — Expansion of one Runge-Kutta step in the time of flight to fifth order (Proofs/RkOrder.lean); the time of flight turns the exact motion into a translation, so step errors add up (Proofs/Flow.lean); C57 and C25 for what a recorded coast step is, C58 for the reference. rkf45: first-order expansion with the wrong weight; one-step runs for every small step length.
* **C103 The velocity change is that of the rocket equation** — Mass balance of each step (C13), then 1 - 1/x <= ln x <= x - 1 for each step and induction over the stretch.
* **C104 No step moves an element faster than thrust can** — The step of C81 bounded by the maximum over directions and anomaly; clamping is non-expansive towards a clamped state; C42 gives the closed forms, C103 and induction the cost of eccentricity.
* **C105 The books survive rounding** — The number type Rd K rounds after every operation (Round.lean); monotonicity and idempotence give the order of times and masses, the relative error bound and induction give the drift; the guard and the step give termination. Doubles: Binary.lean proves that round-to-nearest-even is such a rounding.
* **C106 Out of the box** — Construction and set_problem are evaluated on the default arguments (C28); termination, times, battery, thrust decisions and mass follow from C11, C09, C20, C07 and C13, with rounding from C105.
* **C107 Short steps follow the continuous closed loop** — The closed-loop rate is continuously differentiable where Q is smooth and its gradient along thrust is not zero (Proofs/Smooth, Proofs/ClosedLoop), hence Lipschitz on a tube around the compact curve; a thrusting step of either integrator differs from an Euler step by O(h^2) there; a discrete Gronwall induction over the records (Proofs/Euler) keeps the run in the tube. Existence by Picard-Lindelof.
* **C108 Where the continuous closed loop arrives, the run arrives** — On a tube around the motion the law, the equations of motion and all integrator stages are defined (tube_fine), so an iteration there is recorded and thrusts (step_fine). Induction on the number of iterations: a prefix of continued iterations is a completed run for a smaller tf_max, to which C107 applies, so the state is still in the tube. At tc the convergence check holds on an open set, so the run cannot pass it.
* **C109 The generated gradient is the gradient of Q** — Forward-mode jets: the transcribed, number-generic code for Q is run on pairs of value and derivative (Model/Diff.lean), with symbolic zeros as missing derivatives. Each rule preserves `the jet carries the derivative of the function` (HasDerivAt), by composition through the whole expression.
* **C110 An orbit with f = 0 cannot be flown** — The first evaluation of the right-hand side in either integrator raises, for every control; the trace of the run has no step from such a state, and the first iteration is evaluated symbolically.
* **C111 At its singular states the Keplerian law coasts, and never leaves** — NaN absorption through the jets of C109, from acos(cos(0)) and sqrt(sin(0)**2) up to the angles. With zero thrust and a finite influence matrix all slow rates are exactly zero, so every stage of either integrator keeps the five elements; induction over the records.
* **C112 The recorded Cartesian trajectory obeys Newton's law with thrust** — C58 and C113 turn the motion of the elements into Newton's law; the Cartesian map is continuously differentiable near the compact curve, hence Lipschitz on a tube around it, which carries the bounds of C107 and C108 over to the columns (C70).
* **C113 The MEE equations of motion are Newton's law** — The Cartesian image is a closed formula in the equinoctial frame; its frame vectors rotate with the rates of h and k, and the rates of p, f cos L + g sin L and f sin L - g cos L reduce to the classical ones. Differentiation by the chain rule.
* **C114 With its generated gradient the package flies the law of steepest descent** — The loop only uses the generated functions through their values at the recorded states (Proofs/Agree.lean: two function tables that agree along the recorded histories give the same run, by induction on the iterations). C109 gives agreement at regular states; regularity is open, so it holds on a tube around the motion, where C108 and C112 keep the run.
* **C115 Perturbed runs and backward runs follow the motion too** — As C107, with the perturbing acceleration as part of the field and the sign of time carried through: the law is called with the signed acceleration, which leaves its direction unchanged, the step bounds are those for the absolute value of the step (Proofs/Signed.lean), and Euler's method is applied in the variable sigma t. C58 and C113 turn the elements' motion into Newton's law; C63-C67 give the package's perturbations in closed form, from which smoothness is read off.
* **C116 Perturbed runs and backward runs complete, and reach the target when the motion does** — As C108 on top of C115: in a tube around the motion, in time and state, the law, the perturbations and all stages of a short step of either sign are defined; so each iteration is recorded and thrusts, and by C115, applied to the run cut off there, it ends close to the motion, where the next one starts. The duty cycle and the battery are followed exactly through the loop variables. C70 gives the Cartesian columns.
* **C117 Runs that thrust and coast follow the switched motion** — As C115, with one smooth field for the thrusting and one for the coasting phase, on time, state and mass together. The Euler comparison (Proofs/Switched.lean) is a discrete Gronwall argument in which at most N steps may use the wrong field; each of these adds a defect of order h. Existence (Proofs/SwitchedExists.lean) glues the arcs of Picard-Lindeloef between the switches, with one bound on the speed and so one T for all schedules.
* **C118 Runs with a duty cycle complete, follow the cycle, and reach the target when the switched motion does** — The duty variables are followed through the loop: with constant steps they form a cycle of a steps on and b steps off (Proofs/DutyClock.lean), which agrees with the nominal schedule during all but a bounded number of steps, independent of h. The rest is as C116, on top of C117: tube, one recorded step, the run cut off there.
* **C119 Runs with Sundman steps and a duty cycle complete, follow the cycle, and reach the target when the switched motion does** — A Sundman step is the time of flight for an increment of the eccentric anomaly, which near the motion lies between two multiples of that increment whatever the anomaly it starts from (Proofs/SundmanClock.lean). The duty variables are followed through steps of varying length: cycle j begins at most 2j steps late, so all but a bounded number of steps have the throttle of the nominal schedule. The rest is as C118 with the recorded times in place of the multiples of h.
* **C120 Runs that thrust and coast obey Newton's law** — A curve of elements with a one-sided derivative is compared with the straight line of the same derivative, for which C115 gives Newton's law; the chain rule carries the one-sided derivative to the Cartesian image. The runs are those of C117, C118 and C119, and the conversion to Cartesian coordinates is Lipschitz near the motion (C112).
* **C121 With its generated gradient the package flies the law of steepest descent under perturbations, backwards, with a duty cycle and with Sundman steps** — Regular states form an open set, so there is a tube of them around the motion. A run of the law defined with the derivative of Q stays in the tube (C116, C118, C119), and by C114 it is then, record for record, the run of the generated law; at a regular state a Sundman step is not zero (C31).
* **C122 Runs limited by their battery complete, follow the charge cycle, and reach the target when the switched motion does** — The battery level and the duty and charging flags are followed through the loop (Proofs/BatteryClock.lean): with short constant steps they form a cycle of a steps on and b steps off, at most a fixed number of steps longer than nominal per cycle, so that it agrees with the nominal schedule during all but a bounded number of steps, independent of h. The rest is as C118.
* **C123 The battery recharges whenever the thruster is off** — `Ext K`; the battery phase depends on the duty flag; without thresholds and NaN angles the throttle is that flag (C22). Otherwise a general theorem about the steps that discharge, and a run over `Ext Q`.
* **C124 A run never spends more energy than its battery held and was supplied** — `Ext K`; induction over the records with C18 for the thrusting steps. Without require_full_recharge the loop variables are followed from the first depleted record on: they repeat after two steps, each of which draws more than it was supplied.
* **C125 The interpolated Cartesian history follows Newton's trajectory between the recorded times** — `ℝ`; the motion is Lipschitz (its field is bounded on the compact curve), so the stable scheme carries the closeness at the records to every evaluation time; the Cartesian map is Lipschitz on a tube around the motion (as in C112). Stability of linear interpolation: induction over the mesh.
* **C126 plot_trajectory_3d() with its default arguments draws the transfer after every completed run** — `ℝ`; the markers and orbits as in C89, for the interpolated history; the end points are records because `linspace` ends at the last time and the scheme is exact there. The failing cases are proved for all runs in them, with witnesses.
* **C127 A run stopped by its time limit can be resumed from its last record** — `ℝ` (times are added); one iteration commutes with the map that prepends the earlier histories and shifts time, as long as the duty is on and the battery above its minimum; induction over the loop. The loop variables that are not recorded (counters, duty clock, charging) are shown to have their initial values at the interruption.
* **C128 A run backward in time is the reversal of a forward run** — `ℝ`. Reversal is a change of variables under which `Q` is invariant and the Gauss matrix changes signs, so the chosen angles change sign; the equations of motion for the reversed state are minus the reversed equations; `rk4` with the opposite step commutes with it; induction over the loop. Conversions and the perturbations of the package are treated separately.
* **C129 Prograde and retrograde runs are mirror images** — `ℝ`. An instance of the change of variables of C84 and C94 with the signs of inclination and RAAN reversed; conversions and the perturbations of the package for every reflection in a coordinate plane.
* **C130 Sampled effectivities approach those of the whole orbit** — `ℝ`. The best rate is `f` times the norm of a smooth periodic function of the anomaly; a bound of its derivative bounds the error of the sampled extremes. The example is a family of runs with every grid size from 2 on.
* **C131 Stopping criteria only decide where a run stops** — Any `α` for the comparison of two runs, `OrdLaws` for its direction. One iteration with either criteria is the same up to the exit phase, and the counter of relaxed convergences is the only variable that remembers them; then induction along both loops.
* **C132 A state with NaN is never thrust on and never reported as converged** — Any `α` with `NanLaws` (NaN in, NaN out; comparisons false), instance `Ext ℚ`. Each element occurs in the Gauss matrix, hence NaN control, hence NaN angles; both integrators add the rates to the old state. Examples: an initial eccentricity of 2 (MEE), a NaN anomaly and a NaN semi-major axis (Keplerian).
* **C133 Coasting thresholds act only through the steps they cut** — Any `α` with `OrdLaws`. Simulation between the loop with the thresholds and the loop with `.flt 0`, the two states differing only in `etas` and `etasBounds`; the iteration is the same unless the throttle was cut, and a cut is visible in the result lists. Examples: thresholds 1/4 (nothing cut) and 3/4 (two steps cut).
* **C134 A battery acts only through the steps at which it is short** — Any `α`. Simulation between two loops whose states differ only in `battery` and `hist.battery`: while neither battery is short the charging flag stays false and the duty phase is the duty-cycle clock alone. For the zero-rate battery the level stays at its initial value (or NaN) over `Ext K`. Examples: a battery losing 1/20 per step against the default one; one that runs short at the fourth step.
* **C135 What solve() prints is the record of the run** — Any `α`. `Model/Progress.lean` transcribes the loop with its output; forgetting the output gives the loop of `Model/Qlaw.lean` (`C135_same`). Induction over the loop with the aligned histories; that the printed state is the recorded one, or is clamped to it by the next iteration, follows from the histories being extended only. Examples: toy transfers at verbosity 0, 1, 2 and frequencies 1, 2.
* **C136 A duty cycle acts only once its first on-time is over** — Any `α`. Two loops from the same state take the same iteration while neither on-time is exceeded and the battery is above its minimum (the duty phase then returns the same record); induction with duty on, the clock at its start and the charging flag off. Examples: a toy transfer within its on-time, and one that pauses at its fourth step.
* **C137 Callables are consulted only at the recorded states** — Any `α`. An iteration of two loops from the same state is the same if the perturbations and thresholds agree at the clamped state it starts from, and that state is the recorded one (`record_at`: histories are only extended). Induction over the loop. Example: a perturbation that acts at time 1/4 only, the midpoint of the first rk4 step, does not change the toy transfer.
* **C138 Settings a run does not use have no effect** — Equality of the iterations for the two configurations, phase by phase, hence of the loops (`solve_cfg`); stated as an equation between the results of `solve`. For `wp = 0` the penalty jets are multiplied by the constant jet 0, whose product does not depend on the values of the other factor. Examples: toy transfer with unused settings set to NaN and 0; an empty grid raises with a positive threshold.
* **C139 With MEE the direction from which longitudes are measured does not matter** — The turned elements are shown to be those of the orbit with the RAAN increased. For weights on a, f, g only, Q is a function of the eccentricity and of the distance of (f, g) from its target; its gradient turns along (chain rule), and so do the rows of the Gauss matrix. Witnesses: an orbit with e = sqrt(13)/5 turned by a quarter turn (Q 12 against 4/3), and a state on the corner of the tolerance box turned by an eighth.
* **C140 For the semi-major axis alone both element sets command the same thrust** — Both quotients reduce to one function of semi-major axis and eccentricity; the MEE gradient is its derivative by the eccentricity times the direction of periapsis (chain rule through sqrt(f^2+g^2)), and the Gauss rows combine to the Keplerian ones. Example: raising the semi-major axis from 1 to 2 with periapsis at longitude 0 (agree) and pi (differ).
* **C141 With a fractional n_petro a Keplerian run does not thrust below the target semi-major axis** — The scaling of the semi-major-axis term is NaN below the target; Q is the penalty factor times the sum that contains it, so the derivative by the semi-major axis, which contains the derivative of the penalty factor times the sum, is NaN, then the control and the in-plane angle, and the loop treats the step as in C132. Example: a run by kernel evaluation with n_petro = 7/2 that ends with -3 without thrust; with n_petro = 4, or with the target on the other side, it thrusts.
* **C142 An odd n_petro works while m_petro is at least one** — The ratio (a-aT)/(m aT) is above -1 for a > 0 and m >= 1, so its powers are; the rest is C40 and C41, whose hypotheses admit this case. Example: an orbit with a = 2 and target 5, n_petro = 3.

## 5. Where the code disagrees with a property

The model follows the code. For each property below the code breaks part of it; the listed theorems prove the deviation (a witness, a general statement or an equivalence) and what remains true.

* **C08 Each solve() call reports its own outcome** — Violated by the code: flags are not reset. The negation is proved in general form and by a concrete call sequence; the partial theorem covers fresh objects and runs that do not time out. Theorems: `C08_own_outcome_partial`, `C08_stale_timeout`, `C08_violated`.
* **C18 A thrusting step is paid for by the battery** — Violated by the code when require_full_recharge is False: thrusting while charging uses energy the battery does not have (counterexample proved). Theorems: `C18_thrust_is_paid_partial`, `C18_free_energy`.
* **C19 Duty cycle limits continuous thrusting** — Forward runs, as stated; backward runs violate it: the cycle never switches off (general theorem and concrete run). Theorems: `C19_on_time`, `C19_off_time`, `C19_backward_never_off`, `C19_backward_violation`.
* **C21 Starting at the battery floor** — The code raises UnboundLocalError instead of coasting when the first step has no duty (proved); the partial theorem covers the later steps. Theorems: `C21_floor_start_raises`, `C21_later_coast_partial`.
* **C23 Effectivities are normalised in forward runs** — Forward runs, as stated, for any control law whose rates are finite and non-negative. C23_package instantiates it over the reals with the Lyapunov function of the package in either element set: the sampled rates are the fastest possible decreases of Q at the sampled anomalies and both effectivities lie in [0, 1]. Backward runs are proved to invert both effectivities. Theorems: `C23_effectivities_normalised`, `C23_samples`, `C23_package`, `C23_backward_inverted`, `C23_backward_violation`.
* **C24 Threshold argument types are checked** — eta_a part proved; the eta_r part is violated: an eta_r that is not a number is silently ignored and acts like no threshold (proved). Theorems: `C24_eta_a_checked_partial`, `C24_eta_r_ignored`, `C24_eta_r_violation`.
* **C26 solve() does not modify its inputs** — Holds for mee_with_a and for in-bounds keplerian problems; violated for out-of-bounds keplerian ones (concrete run). Theorems: `C26_mee_partial`, `C26_keplerian_partial`, `C26_in_bounds_partial`, `C26_violated`.
* **C29 Element type and dynamics agree** — Violated by assigning elements_type (general theorem and witness); the partial theorem covers call sequences that never assign the other type. Theorems: `C29_agree_partial`, `C29_stale`, `C29_violated`.
* **C31 Sundman step** — Over the reals, for every run of solve. The battery may cut a step short. The violation for negative t_step is a separate theorem. Theorems: `C31_keplerian`, `C31_mee`, `C31_backward_runs_forward`.
* **C32 rkf45 step-size control in solve()** — Violated by the code; both deviations are proved in general and by a concrete run; the bookkeeping part holds for rk4. Theorems: `C32_step_not_adapted`, `C32_rk4_books_elapsed_partial`, `C32_rkf45_books_suggestion`, `C32_violated`.
* **C43 MEE maximum element rates are maxima** — Violated by the code: each theorem for f, g, h, k is an equivalence saying exactly when the rate used is the maximum (g = 0; f = 0; f <= 0; g <= 0). Missing: the property itself outside those sets, where it is false. Theorems: `C43_a_partial`, `C43_f_partial`, `C43_g_partial`, `C43_h_partial`, `C43_k_partial`.
* **C44 MEE Gauss coefficients for the semi-major axis are right in every quadrant** — Proved for f > 0; for f < 0 both coefficients are wrong (value proved, witness given); f = 0 raises in the equations of motion. Theorems: `C44_partial`, `C44_wrong_half_plane`, `C44_violated`, `C44_raises`.
* **C46 MEE -> Keplerian -> MEE round trip** — Over the reals; the failure at h=k=0 is proved by a witness. Theorems: `C46_roundtrip`, `C46_violated`.
* **C50 MEE to Cartesian agrees with Keplerian to Cartesian** — Over the reals. The equatorial failure is proved with a witness. Theorems: `C50_agrees`, `C50_circular`, `C50_violated`.
* **C56 wrap returns an equivalent angle in [-pi, pi)** — The range holds; equivalence modulo full turns is violated already at the angle 0. Theorems: `C56_range_partial`, `C56_period_two`, `C56_violated`, `C56_not_turn_invariant`.
* **C62 rkf45 is a consistent fourth-order method** — Violated at every constant right-hand side; the exact wrong factor, the ZeroDivisionError and the missing second-order term are proved in general. Theorems: `C62_tableau_partial`, `C62_constant_partial`, `C62_violated`, `C62_zero_error`, `C62_no_second_order`.
* **C64 J2 acceleration is the gradient of the J2 potential** — Right exactly on the unit sphere and in the equatorial plane (iff proved). Theorems: `C64_partial`, `C64_right_iff`, `C64_violated`.
* **C67 Perturbations in RTN** — The sum and magnitude are proved for every ephemeris; third_bodies_names=None raises TypeError at every state. Theorems: `C67_sum_partial`, `C67_disabled`, `C67_other_type`, `C67_violated`.
* **C69 save_to_dict exports MEE states** — Proved for mee_with_a objects; violated for keplerian objects (a completed run is exhibited). Missing: the property for keplerian objects, where it is false. Theorems: `C69_partial`, `C69_rows`, `C69_violated`.
* **C72 Histories after an exception** — Violated by the code in the UnboundLocalError case (counterexample proved); proved for every other exception. Theorems: `C72_aligned_after_exception_partial`, `C72_misaligned`.
* **C77 Targets with zero weight are ignored** — Proved over the reals for the law with the gradient of Q, which the generated code computes at regular states (C109). Missing because the code does not do it: at RAAN equal to a target of weight zero the generated gradient is 0*NaN; a run is exhibited that coasts to the time limit where the same problem with another irrelevant target thrusts. Theorems: `C77_zero_weight_partial`, `C77_violated`.
* **C86 Printed errors are within the tolerance after convergence** — Proved for mee_with_a objects, and for a, e, i of keplerian objects; violated for RAAN and argument of periapsis (a completed run with exit code 1 that prints an error of 2 pi is exhibited). Theorems: `C86_mee`, `C86_keplerian_partial`, `C86_violated`.
* **C88 The periapsis overlay is the periapsis radius** — Proved for keplerian objects and for converted elements; for unconverted mee_with_a elements an equivalence says exactly when the overlay is right, and a witness shows that it can be wrong. Theorems: `C88_keplerian`, `C88_converted`, `C88_mee_partial`, `C88_violated`.
* **C90 A Cartesian state survives conversion to elements and back** — Over the reals. Missing because the code does not do it: circular orbits lose the position on the orbit, equatorial orbits flown clockwise come back elsewhere. Theorems: `C90_trip_partial`, `C90_equatorial_partial`, `C90_circular_forgets`, `C90_violated`, `C90_retrograde_violated`.
* **C92 Perturbations do not depend on the units of length and time** — Over the reals. Missing because the code does not do it: with J2 the result depends on the unit of length. Theorems: `C92_units_partial`, `C92_violated`.
* **C96 Whole turns in the initial angles do not matter** — Over the reals. Proved for the anomaly and the true longitude, and for RAAN and argument of periapsis with bounds moved along; with fixed bounds a run is exhibited that is flown from another orbit. Theorems: `C96_whole_turns_partial`, `C96_anomaly`, `C96_perturbations`, `C96_violated`.
* **C101 pretty prints the problem that was set** — Names, targets, weights and settings as stated, initial values as stated for mee_with_a and before the first run. Missing because the code does not do it: after a run with Keplerian elements outside the bounds pretty prints the clipped values (concrete run). Theorems: `C101_pretty_partial`, `C101_mee_partial`, `C101_no_problem`, `C101_short_target`, `C101_settings`, `C101_violated`.
* **C102 Coast arcs follow the Kepler motion** — Over the reals. rk4 as stated, both element types. Missing because the code does not do it: with rkf45 every short coast step is off by at least a fixed fraction of its length, for every orbit (C102_rkf45, Keplerian elements), hence no such constant exists (C102_violated). Theorems: `C102_keplerian_partial`, `C102_mee_partial`, `C102_newton`, `C102_rkf45`, `C102_violated`.
* **C123 The battery recharges whenever the thruster is off** — Proved for thresholds that are not positive and laws without NaN angles. Violated by the code otherwise: the battery update looks at the duty flag and not at the throttle, so every step that coasts because its effectivity is below a threshold drains the battery as if it thrust (proved for all such steps, with a run). Theorems: `C123_recharges_partial`, `C123_discharges`, `C123_drained`.
* **C124 A run never spends more energy than its battery held and was supplied** — Proved with require_full_recharge=True. Violated by the code otherwise: a depleted battery is charged for one step and then thrusts for a whole step again, with the level clipped at the minimum; 2m steps draw m discharge_rate t_step while m charge_rate t_step is supplied, for every m (proved for all such runs, with a witness). Theorems: `C124_budget_partial`, `C124_free`, `C124_unbounded`, `C124_overdrawn`.
* **C126 plot_trajectory_3d() with its default arguments draws the transfer after every completed run** — Proved for at least 3 records and at least 2 evaluation times. Violated by the code otherwise: with fewer than 3 records scipy's quadratic interp1d raises ValueError (a run that converges in its first step is a witness); when the final time is below 0.005 in absolute value the default number of evaluation times is 0 and taking the first column is an IndexError; with one evaluation time the end marker is drawn at the start (witness: short backward runs). Theorems: `C126_drawn_partial`, `C126_short`, `C126_empty`, `C126_no_steps`, `C126_single`.
* **C139 With MEE the direction from which longitudes are measured does not matter** — Proved for equal weights on f and g and none on h and k (thrust vector and dQ/dt with f > 0 in both descriptions); the convergence check up to a factor sqrt 2 of the tolerance. Violated in general, with witnesses for Q and for the check. Keplerian runs do not depend on the direction (C83). Theorems: `C139_turned`, `C139_quotient_partial`, `C139_control_partial`, `C139_check_partial`, `C139_differs`, `C139_check_differs`.
* **C140 For the semi-major axis alone both element sets command the same thrust** — The quotients agree on every ellipse; thrust vector and dQ/dt agree for f > 0. For f < 0 the thrust vectors are proved to differ wherever the derivative of Q by the semi-major axis is not zero. With an odd n_petro the Keplerian scaling changes sign below the target and the MEE scaling does not. Theorems: `C140_quotient`, `C140_thrust_partial`, `C140_differs`.

