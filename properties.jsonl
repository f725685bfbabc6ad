{"id": "C01", "title": "Period and semimajor axis are mutually inverse", "statement": "For mu > 0: a_from_period(orb_period(a, mu), mu) = a for every a > 0, and orb_period(a_from_period(P, mu), mu) = P for every P >= 0; orb_period is strictly increasing in a and satisfies Kepler's third law P^2 mu = 4 pi^2 a^3.", "quantifier": "every a > 0, P >= 0, mu > 0 (real arithmetic)", "why_tests_cant": "an infinite two-parameter family; tests sample points", "anchors": ["src/astrodynx/twobody/_orb_integrals.py: orb_period, a_from_period"]}
{"id": "C02", "title": "Mean motion, period and mean anomaly agree", "statement": "For a > 0, mu > 0: mean_motion(orb_period(a,mu)) * orb_period(a,mu) = 2 pi, mean_anomaly_elps(a,t,mu) = mean_motion(orb_period(a,mu)) * t, so the mean anomaly grows by exactly 2 pi per period; mean_anomaly_hypb(a,t,mu) for a < 0 equals mean_anomaly_elps(-a,t,mu).", "quantifier": "every a, mu > 0, every time t", "why_tests_cant": "infinite input family", "anchors": ["src/astrodynx/twobody/_orb_integrals.py: mean_motion, orb_period", "src/astrodynx/twobody/_kep_equ.py: mean_anomaly_elps, mean_anomaly_hypb"]}
{"id": "C03", "title": "Size/shape conversions are inverse and the apsides are consistent", "statement": "For e^2 != 1: a_from_pe(semipara_from_ae(a,e),e)=a and semipara_from_ae(a_from_pe(p,e),e)=p; for 0<=e<1, p>0: radius_periapsis <= a_from_pe <= radius_apoapsis, their mean is a_from_pe and their product is a*p; for every f with 1+e cos f > 0, radius_periapsis(p,e) <= equ_of_orbit(p,e,f), with equality at f=0, and equ_of_orbit(p,e,f) <= radius_apoapsis(p,e) when e<1, with equality at f=pi.", "quantifier": "every p, a, e, f in the stated domain", "why_tests_cant": "infinite input family", "anchors": ["src/astrodynx/twobody/_orb_integrals.py: semipara_from_ae, a_from_pe, radius_periapsis, radius_apoapsis, equ_of_orbit"]}
{"id": "C04", "title": "The three independently computed sizes of an orbit agree for every state", "statement": "For every position r != 0, velocity v and mu > 0, with h = angular_momentum(r,v), e = |eccentricity_vector(r,v,mu)|, p = semiparameter(|h|,mu): 1 - e^2 = p * (1/semimajor_axis) (energy form), so p = semipara_from_ae(semimajor_axis(|r|,|v|,mu), e) on every non-parabolic state, and for h != 0 the sign of semimajor_axis classifies the conic: a>0 iff e<1, a<0 iff e>1, e=1 iff the orbital energy is zero.", "quantifier": "every state (r,v) in R^3 x R^3 with r != 0, every mu > 0", "why_tests_cant": "six-dimensional continuum of states", "anchors": ["src/astrodynx/twobody/_orb_integrals.py: angular_momentum, eccentricity_vector, semimajor_axis, semiparameter, semipara_from_ae"]}
{"id": "C05", "title": "Every state satisfies its own orbit equation", "statement": "For every state with r != 0 and r x v != 0, equ_of_orbit(p, e, true_anomaly(r, e_vec)) = |r| where p, e_vec come from the library's own functions; e_vec and r are perpendicular to angular_momentum(r,v).", "quantifier": "every state with nonzero angular momentum, every mu > 0", "why_tests_cant": "continuum of states", "anchors": ["src/astrodynx/twobody/_orb_integrals.py: equ_of_orbit, eccentricity_vector, semiparameter", "src/astrodynx/twobody/_orb_elements.py: true_anomaly"]}
{"id": "C06", "title": "Radius bounds of the state by periapsis and apoapsis", "statement": "For every state with r x v != 0: radius_periapsis(p,e) <= |r|, and if e < 1 also |r| <= radius_apoapsis(p,e).", "quantifier": "every state with nonzero angular momentum, every mu > 0", "why_tests_cant": "continuum of states", "anchors": ["src/astrodynx/twobody/_orb_integrals.py: radius_periapsis, radius_apoapsis"]}
{"id": "C07", "title": "Universal functions are one entire function family across all conics", "statement": "For n = 0..5 and every chi, alpha (positive, zero, negative), ufunc_n(chi, alpha) equals the power series chi^n * sum_k (-alpha chi^2)^k / (n+2k)!; in particular the three branches join without a jump.", "quantifier": "every chi, alpha in R", "why_tests_cant": "the branch point alpha = 0 and its neighbourhood cannot be covered by samples", "anchors": ["src/astrodynx/twobody/_uniformulas.py: ufunc0..ufunc5"]}
{"id": "C08", "title": "Algebraic and differential identities of the universal functions", "statement": "For every chi, alpha: ufunc0^2 + alpha ufunc1^2 = 1, ufunc_n + alpha ufunc_{n+2} = chi^n/n! (n=0..3), d/dchi ufunc_{n+1} = ufunc_n, d/dchi ufunc0 = -alpha ufunc1, parity in chi, the addition formulas in chi, and scaling ufunc_n(s chi, alpha/s^2) = s^n ufunc_n(chi, alpha).", "quantifier": "every chi, alpha, s != 0", "why_tests_cant": "infinite family over three branches", "anchors": ["src/astrodynx/twobody/_uniformulas.py: ufunc0..ufunc5"]}
{"id": "C09", "title": "Universal functions are differentiable in alpha through the parabolic case", "statement": "For n = 0..3 and every chi, alpha including 0, d/dalpha ufunc_n = (n ufunc_{n+2} - chi ufunc_{n+1})/2.", "quantifier": "every chi, alpha", "why_tests_cant": "differentiability at the branch point is a limit statement", "anchors": ["src/astrodynx/twobody/_uniformulas.py: ufunc0..ufunc5"]}
{"id": "C10", "title": "Elliptic Kepler equation: derivative, existence and uniqueness of the eccentric anomaly", "statement": "For 0 <= e < 1 and every M there is exactly one E with kepler_equ_elps(E,e,M) = 0; dE(E,e) is its derivative in E, is positive, and |E - M| <= e at the root.", "quantifier": "every M in R, e in [0,1)", "why_tests_cant": "uniqueness is a universal statement", "anchors": ["src/astrodynx/twobody/_kep_equ.py: kepler_equ_elps, dE"]}
{"id": "C11", "title": "Hyperbolic Kepler equation: derivative, existence and uniqueness", "statement": "For e > 1 and every N there is exactly one H with kepler_equ_hypb(H,e,N) = 0; dH(H,e) is its derivative in H and is >= e-1 > 0.", "quantifier": "every N in R, e > 1", "why_tests_cant": "uniqueness is a universal statement", "anchors": ["src/astrodynx/twobody/_kep_equ.py: kepler_equ_hypb, dH"]}
{"id": "C12", "title": "Universal Kepler equation: derivative is the radius, root exists and is unique for every conic", "statement": "For every state with r0 != 0 and nonzero angular momentum, with alpha, r0, sigma0 computed by the library, every deltat and mu>0: kepler_equ_uni is differentiable in chi with derivative equ_of_orb_uvi(U0,U1,U2,r0,sigma0), this derivative is positive (bounded below by a positive constant), and there is exactly one chi with kepler_equ_uni = 0.", "quantifier": "every state with nonzero angular momentum, deltat in R, mu > 0", "why_tests_cant": "existence/uniqueness over a continuum", "anchors": ["src/astrodynx/twobody/_kep_equ.py: kepler_equ_uni, dchi", "src/astrodynx/twobody/_orb_integrals.py: equ_of_orb_uvi"]}
{"id": "C13", "title": "Solvers always terminate, within max_iter Newton steps, in any arithmetic", "statement": "For solve_kepler_elps, solve_kepler_hypb and solve_kepler_uni, for every input, every tol and every max_iter and under every interpretation of the arithmetic (including NaN and rounding), the while loop terminates, the result is the k-th Newton iterate of the documented starting value for some k <= max_iter, no earlier iterate met the stopping test, and if k < max_iter the stopping test holds at the result.", "quantifier": "every arithmetic, input, tolerance and iteration limit", "why_tests_cant": "all loop histories", "anchors": ["src/astrodynx/twobody/_kep_equ.py: solve_kepler_elps, solve_kepler_hypb, solve_kepler_uni"]}
{"id": "C14", "title": "Accuracy of solve_kepler_elps when it stops before the iteration limit", "statement": "For 0 <= e < 1, tol > 0: if the solver stops before max_iter then the returned E satisfies |kepler_equ_elps(E,e,M)| <= e tol^2/2 and |E - E*| <= e tol^2 / (2(1-e)) with E* the exact eccentric anomaly.", "quantifier": "every M, e in [0,1), tol > 0, max_iter", "why_tests_cant": "error bound for all inputs", "anchors": ["src/astrodynx/twobody/_kep_equ.py: solve_kepler_elps"]}
{"id": "C15", "title": "solve_kepler_hypb: accuracy and guaranteed convergence", "statement": "For e > 1, tol > 0: if it stops before max_iter the residual is <= tol and the error is <= tol/(e-1); for every N, e > 1 and tol > 0 there is an iteration limit from which on the solver always returns such a value.", "quantifier": "every N, e > 1, tol > 0", "why_tests_cant": "convergence for all inputs", "anchors": ["src/astrodynx/twobody/_kep_equ.py: solve_kepler_hypb"]}
{"id": "C16", "title": "solve_kepler_uni: accuracy, and guaranteed convergence for parabolic and hyperbolic states", "statement": "For every state with nonzero angular momentum: stopping before max_iter implies |kepler_equ_uni(chi)| <= tol; if alpha <= 0 then for every deltat and tol>0 there is an iteration limit from which on the solver always meets the tolerance.", "quantifier": "every state with alpha <= 0 and nonzero angular momentum, every deltat, tol > 0", "why_tests_cant": "convergence for all inputs", "anchors": ["src/astrodynx/twobody/_kep_equ.py: solve_kepler_uni"]}
{"id": "C17", "title": "Solver symmetries", "statement": "In exact arithmetic, for every input, tol and max_iter: solve_kepler_elps(-M,e) = -solve_kepler_elps(M,e), solve_kepler_elps(M+2 pi k,e) = solve_kepler_elps(M,e)+2 pi k for integers k, solve_kepler_hypb(-N,e) = -solve_kepler_hypb(N,e), solve_kepler_uni(-t,alpha,r0,-sigma0) = -solve_kepler_uni(t,alpha,r0,sigma0).", "quantifier": "every input, tolerance, iteration limit and integer k", "why_tests_cant": "relations between two whole executions of the loop", "anchors": ["src/astrodynx/twobody/_kep_equ.py: solve_kepler_elps, solve_kepler_hypb, solve_kepler_uni"]}
{"id": "C18", "title": "Claimed: the solvers return a solution with their default settings", "statement": "solve_kepler_elps returns, for every M and 0<=e<1 and its default tol and max_iter, a value solving Kepler's equation to tolerance; likewise solve_kepler_hypb for every N and e>1. (Expected false: find exact counterexamples and say how it fails.)", "quantifier": "every M,e in the documented domain with default arguments", "why_tests_cant": "the failing inputs are near e = 1 and cannot be found by spot checks; that a failure exists for every iteration limit is a universal statement", "anchors": ["src/astrodynx/twobody/_kep_equ.py: solve_kepler_elps, solve_kepler_hypb"]}
{"id": "C19", "title": "kepler() stays on the initial orbit whatever the solver returned", "statement": "For every r0 != 0, v0, mu>0 and every entry of ts, even when the root search did not converge, the returned (r,v) has the same angular momentum vector, the same semimajor axis/energy and the same eccentricity vector as (r0,v0), as computed by the library's own functions, provided the radius it computed is nonzero (always so when r0 x v0 != 0).", "quantifier": "every initial state, mu > 0, time", "why_tests_cant": "continuum of states times solver histories", "anchors": ["src/astrodynx/prop/_kepler.py: kepler", "src/astrodynx/twobody/_lagrange.py"]}
{"id": "C20", "title": "Lagrange coefficients form an area-preserving map and give the stated radius", "statement": "For every state and chi, with coefficients from lagrange_F/G/Ft/Gt: F*Gt - Ft*G = 1 and |F r0 + G v0| = equ_of_orb_uvi(...).", "quantifier": "every state with r0 != 0, every chi at which the radius is nonzero", "why_tests_cant": "continuum", "anchors": ["src/astrodynx/twobody/_lagrange.py: lagrange_F, lagrange_G, lagrange_Ft, lagrange_Gt", "src/astrodynx/prop/_kepler.py: _lagrange_prop"]}
{"id": "C21", "title": "kepler() solves the two-body problem", "statement": "For every initial state with nonzero angular momentum the curve t -> kepler(t) (with the root of the universal Kepler equation solved exactly) has derivative r' = v and v' = point_mass_grav = -mu r/|r|^3 for all t, with r(0)=r0, v(0)=v0; and it is the only such curve.", "quantifier": "every initial state with nonzero angular momentum, every time", "why_tests_cant": "solution of an ODE for all times", "anchors": ["src/astrodynx/prop/_kepler.py: kepler", "src/astrodynx/gravity/_general.py: point_mass_grav"]}
{"id": "C22", "title": "Propagating by zero time is the identity", "statement": "kepler(0, r0, v0, mu) = (r0, v0) exactly for every state and tol >= 0; with no Newton step taken.", "quantifier": "every state with r0 != 0, mu > 0", "why_tests_cant": "continuum of states", "anchors": ["src/astrodynx/prop/_kepler.py: kepler"]}
{"id": "C23", "title": "kepler() is exact up to a time error bounded by the tolerance", "statement": "If the solver stopped before its iteration limit, the state returned for time t is the exact two-body state at some time t' with |t' - t| <= 1e-6/sqrt(mu); in general t' - t = residual/sqrt(mu).", "quantifier": "every initial state with nonzero angular momentum, every t", "why_tests_cant": "error bound for all inputs", "anchors": ["src/astrodynx/prop/_kepler.py: kepler", "src/astrodynx/twobody/_kep_equ.py: solve_kepler_uni"]}
{"id": "C24", "title": "Propagation composes and is periodic on ellipses", "statement": "With exact root solving: propagating by t1 and then by t2 from the result equals propagating by t1+t2; on elliptic orbits propagating by orb_period(a,mu) returns the initial state.", "quantifier": "every initial state with nonzero angular momentum, every t1, t2", "why_tests_cant": "relation between executions", "anchors": ["src/astrodynx/prop/_kepler.py: kepler", "src/astrodynx/twobody/_orb_integrals.py: orb_period"]}
{"id": "C25", "title": "Time reversal", "statement": "For every state, time and iteration limit (code's own solver, converged or not): kepler(-t, r0, -v0) = (r, -v) where (r, v) = kepler(t, r0, v0).", "quantifier": "every state, time", "why_tests_cant": "relation between two executions", "anchors": ["src/astrodynx/prop/_kepler.py: kepler"]}
{"id": "C26", "title": "Each output row of kepler() depends only on its own time", "statement": "kepler(ts, ...) has one row per entry of ts and row i equals the row returned for the one-element array [ts[i]]; batching the solver (run the body on every lane until all lanes are finished, freezing finished lanes) gives per-lane results equal to the unbatched loop.", "quantifier": "every batch size, every ts, every mixture of convergence speeds", "why_tests_cant": "all batch sizes and lane schedules", "anchors": ["src/astrodynx/prop/_kepler.py: kepler (jax.vmap of solve_kepler_uni)"]}
{"id": "C27", "title": "Frame independence", "statement": "For every rotation R (orthogonal, det 1): kepler(t, R r0, R v0) = (R r, R v); eccentricity_vector and angular_momentum rotate with the state; semimajor axis, semiparameter, eccentricity, true anomaly, sigma are unchanged.", "quantifier": "every rotation, every state", "why_tests_cant": "continuum of rotations and states", "anchors": ["src/astrodynx/prop/_kepler.py: kepler", "src/astrodynx/twobody/_orb_integrals.py", "src/astrodynx/twobody/_orb_elements.py: true_anomaly"]}
{"id": "C28", "title": "State transition matrix over zero time is the identity", "statement": "dxdx0(r0, v0, r0, v0, 0, mu) is the 6x6 identity for every state with r0 != 0, mu>0.", "quantifier": "every state", "why_tests_cant": "continuum of states", "anchors": ["src/astrodynx/twobody/_state_trans.py: dxdx0"]}
{"id": "C29", "title": "dxdx0 is the Jacobian of the propagation", "statement": "For every initial state with nonzero angular momentum and every time, dxdx0(r, v, r0, v0, t, mu) evaluated at the exactly propagated state is the Frechet derivative of the exact Kepler propagation map with respect to (r0, v0).", "quantifier": "every initial state with nonzero angular momentum, every time, every conic type", "why_tests_cant": "a derivative is a limit statement over all directions and states", "anchors": ["src/astrodynx/twobody/_state_trans.py: dxdx0, prpr0, prpv0, pvpr0, pvpv0, C_func"]}
{"id": "C30", "title": "dxdx0 is symplectic", "statement": "The matrix of C29 satisfies Phi^T J Phi = J, hence has determinant 1 and inverse -J Phi^T J.", "quantifier": "every initial state with nonzero angular momentum, every time", "why_tests_cant": "continuum", "anchors": ["src/astrodynx/twobody/_state_trans.py: dxdx0"]}
{"id": "C31", "title": "generalized_anomaly recovers the root of the universal Kepler equation", "statement": "If chi solves the universal Kepler equation for (r0,v0,t) and (r,v) is the propagated state then generalized_anomaly(alpha, sigma_fn(r,v), sigma_fn(r0,v0), t, mu) = chi.", "quantifier": "every state, chi, t", "why_tests_cant": "continuum", "anchors": ["src/astrodynx/twobody/_kep_equ.py: generalized_anomaly", "src/astrodynx/twobody/_uniformulas.py: sigma_fn"]}
{"id": "C32", "title": "coe2rv produces a state with the requested orbit", "statement": "For p>0, mu>0, e>=0, 1+e cos f>0 and all angles: |r| = equ_of_orbit(p,e,f), semiparameter(|r x v|) = p, |eccentricity_vector| = e, the plane normal has inclination angle i and node direction Omega, periapsis direction is at angle omega from the node, and r is at angle f from periapsis.", "quantifier": "every p, e, i, Omega, omega, f in the domain", "why_tests_cant": "six-parameter continuum", "anchors": ["src/astrodynx/twobody/_orb_elements.py: coe2rv"]}
{"id": "C33", "title": "rv2coe inverts coe2rv (claimed for all elements)", "statement": "rv2coe(coe2rv(p,e,i,Omega,omega,f)) = (p,e,i,Omega,omega,f) for p>0, e>0, 0<i<pi, Omega, omega, f in [0,2 pi), 1+e cos f>0. (The code loses the half-plane of omega and f: prove what it returns for all inputs, and refute the full claim.)", "quantifier": "every element set", "why_tests_cant": "continuum; failing half of the domain", "anchors": ["src/astrodynx/twobody/_orb_elements.py: rv2coe, coe2rv"]}
{"id": "C34", "title": "coe2rv inverts rv2coe (claimed for all non-singular states)", "statement": "coe2rv(rv2coe(r,v)) = (r,v) for every state that is neither circular nor equatorial nor rectilinear. (Holds exactly for outbound states with periapsis on the northern side; refute the full claim.)", "quantifier": "every state", "why_tests_cant": "continuum of states", "anchors": ["src/astrodynx/twobody/_orb_elements.py: rv2coe, coe2rv"]}
{"id": "C35", "title": "Ranges of the classical elements", "statement": "For every state: e >= 0, p >= 0, inclination in [0,pi], right ascension in [0,2 pi), argument of periapsis and true anomaly in [0, pi].", "quantifier": "every state", "why_tests_cant": "universal range statement", "anchors": ["src/astrodynx/twobody/_orb_elements.py: inclination, true_anomaly, right_ascension, argument_of_periapsis"]}
{"id": "C36", "title": "nmax_by_periapsis bounds the number of revolutions", "statement": "For mu>0 and positive radii, tof >= 0: any elliptic orbit with periapsis radius >= rp_min that reaches both radii r1 and r2 and completes k whole periods within tof has k <= nmax_by_periapsis; the bound is attained by the orbit with a = (max(r1,r2)+rp_min)/2; nmax is nonnegative, monotone in tof.", "quantifier": "every orbit, radii, time of flight", "why_tests_cant": "quantifies over all orbits through both points", "anchors": ["src/astrodynx/twobody/_path_check.py: nmax_by_periapsis"]}
{"id": "C37", "title": "is_short_way decides whether the transfer angle is below pi", "statement": "For a state (r1,v1) with nonzero angular momentum and r2 in the orbital plane at in-plane angle theta in [0,2 pi) measured in the direction of motion, is_short_way(r1,v1,r2) is True iff 0<theta<pi.", "quantifier": "every state and target in the plane", "why_tests_cant": "continuum", "anchors": ["src/astrodynx/twobody/_path_check.py: is_short_way"]}
{"id": "C38", "title": "pass_perigee decides whether periapsis lies on the travelled arc", "statement": "With transfer angle theta and periapsis at angle phi (both in (0,2 pi), in the direction of motion, phi != theta, e>0), pass_perigee is True iff phi < theta. (Fails at theta = pi, where it is always True; prove the rest, and the behaviour at theta = pi and on the boundary.)", "quantifier": "every state and target in the plane", "why_tests_cant": "continuum plus the degenerate collinear configuration", "anchors": ["src/astrodynx/twobody/_path_check.py: pass_perigee"]}
{"id": "C39", "title": "rp_islower_rmin decides whether the orbit dips below rmin", "statement": "For every state with nonzero angular momentum: rp_islower_rmin(rmin,r,v,mu) is True iff some state of the same orbit (as produced by exact propagation) has radius < rmin.", "quantifier": "every state, rmin", "why_tests_cant": "quantifies over all times", "anchors": ["src/astrodynx/twobody/_path_check.py: rp_islower_rmin"]}
{"id": "C40", "title": "Zonal accelerations are gradients of the zonal potentials", "statement": "For every position r != 0: point_mass_grav, j2_acc, j3_acc, j4_acc are the gradients of mu/r and -mu J_n R^n/r^(n+1) P_n(z/r) for n=2,3,4 (P_n Legendre).", "quantifier": "every position, mu, J_n, R_eq", "why_tests_cant": "derivative statement over all positions", "anchors": ["src/astrodynx/gravity/_general.py: point_mass_grav, j2_acc, j3_acc, j4_acc"]}
{"id": "C41", "title": "Conservation laws of the force models", "statement": "Along every trajectory of the force field point mass + J2 + J3 + J4: total energy (kinetic minus potential) and the z component of angular_momentum are constant; with point mass only the whole angular momentum vector, the eccentricity vector and semimajor axis are constant.", "quantifier": "every differentiable trajectory avoiding the origin", "why_tests_cant": "all solutions of an ODE", "anchors": ["src/astrodynx/gravity/_general.py", "src/astrodynx/twobody/_orb_integrals.py"]}
{"id": "C42", "title": "Symmetries of the force models", "statement": "Every zonal acceleration is divergence free away from the origin, equivariant under rotation about z, mirror-equivariant in z for J2 and J4 and anti for J3, linear in mu and J_n, homogeneous of degree -(n+2) in position, independent of time, velocity and extra state entries.", "quantifier": "every position, angle, scale", "why_tests_cant": "continuum", "anchors": ["src/astrodynx/gravity/_general.py"]}
{"id": "C43", "title": "Missing parameters are reported, never defaulted", "statement": "point_mass_grav/j2_acc/j3_acc/j4_acc/radius_islow raise KeyError naming the first missing key (mu, J_n, R_eq order; rmin) for every args mapping lacking a key, and otherwise use exactly the values given; extra keys never change the result.", "quantifier": "every args mapping", "why_tests_cant": "all mappings", "anchors": ["src/astrodynx/gravity/_general.py", "src/astrodynx/events/radius.py: radius_islow"]}
{"id": "C44", "title": "radius_islow is negative exactly below the threshold", "statement": "radius_islow(t,x,args) < 0 iff |x[:3]| < rmin, = 0 iff on the sphere, for every t, x, extra keyword arguments.", "quantifier": "every state and rmin", "why_tests_cant": "continuum", "anchors": ["src/astrodynx/events/radius.py: radius_islow"]}
{"id": "C45", "title": "Output-time contracts of the Cowell propagators", "statement": "For every vector field, solver and (sane) step controller: adaptive_steps and fixed_steps save first the initial state at time 0, then one entry per accepted step at strictly increasing times ending at t1 if the run completes, with at most max_steps further entries; to_final returns exactly one entry, at t1 when the run completes; to_final returns the last entry of adaptive_steps with the same settings; custom_steps returns exactly the requested times when the run completes and a prefix of them when an event ends it; fixed_steps takes steps of exactly dt except the last.", "quantifier": "every vector field, solver, max_steps, t1>0 and every step controller that proposes steps of positive length, continuing from the end of a kept step and retrying a rejected one from its start; relative to the contract of diffrax.diffeqsolve written in the model", "why_tests_cant": "all integration histories", "anchors": ["src/astrodynx/prop/_cowell_method.py: cowell_method, fixed_steps, adaptive_steps, custom_steps, to_final"]}
{"id": "C46", "title": "Event termination of the Cowell propagators", "statement": "With event radius_islow: if a step-saving run ends by event the last saved state is the first accepted step at which the radius has crossed rmin; to_final returns that state; custom_steps ends as the step-saving run does and returns exactly the requested times up to the end of that step; with no event configured no run ends by event; args and event of the OrbDynx reach the solver unchanged in all five entry points. A run that starts below rmin is not stopped while it stays below (the docstring of radius_islow says it would be).", "quantifier": "every vector field, solver, max_steps, t1>0 and every step controller that proposes steps of positive length, continuing from the end of a kept step and retrying a rejected one from its start; relative to the contract of diffrax.diffeqsolve written in the model", "why_tests_cant": "all integration histories", "anchors": ["src/astrodynx/prop/_cowell_method.py", "src/astrodynx/events/radius.py"]}
{"id": "C47", "title": "Rotation matrices are rotations", "statement": "rotmat3dx/y/z(theta) are orthogonal with determinant 1, fix their axis, satisfy R(a)R(b)=R(a+b), R(0)=I, R(-a)=R(a)^T, R(a+2 pi)=R(a), rotate counterclockwise by a, and coe2rv's matrix product is orthogonal with determinant 1.", "quantifier": "every angle", "why_tests_cant": "continuum", "anchors": ["src/astrodynx/utils/_rot_mat.py: rotmat3dx, rotmat3dy, rotmat3dz"]}
{"id": "C48", "title": "Exactly which inputs yield NaN or infinity", "statement": "In arithmetic with IEEE special values (no rounding): on the documented domain every function returns a finite value equal to the real-number formula; outside it the result is as stated (orb_period of negative a/mu is NaN, semimajor_axis of a parabolic state is +inf and its reciprocal 0, radius_apoapsis at e=1 is +inf, inclination of a rectilinear state is NaN, ...).", "quantifier": "every finite input of the scalar formulas, the documented domain and its boundary for the others; NaN inputs are C71", "why_tests_cant": "the special-value boundary is measure zero", "anchors": ["src/astrodynx/twobody/_orb_integrals.py", "src/astrodynx/twobody/_uniformulas.py", "src/astrodynx/twobody/_kep_equ.py", "src/astrodynx/prop/_kepler.py"]}
{"id": "C49", "title": "solve_kepler_elps performs at least one Newton step (claimed)", "statement": "Because the initial previous value is E0+2 tol, the loop body runs at least once if max_iter>=1. (True in exact arithmetic; false in binary floating point once E0 + 2 tol rounds to E0: then the unrefined starting value is returned. Prove both.)", "quantifier": "every M, e, tol; every rounding that absorbs 2 tol", "why_tests_cant": "depends on the rounding of the arithmetic, over an infinite range of M", "anchors": ["src/astrodynx/twobody/_kep_equ.py: solve_kepler_elps"]}
{"id": "C50", "title": "Broadcasting is element-wise", "statement": "For arrays of any mutually broadcast-compatible shapes, each entry of the result of the element-wise functions (orb_period, semimajor_axis, ..., kepler_equ_*, lagrange_*) equals the scalar function of the correspondingly broadcast entries; the result shape is the broadcast shape; incompatible shapes raise.", "quantifier": "every shape and every array content", "why_tests_cant": "all shapes", "anchors": ["src/astrodynx/twobody/_orb_integrals.py", "src/astrodynx/twobody/_kep_equ.py", "src/astrodynx/twobody/_lagrange.py"]}
{"id": "C51", "title": "Exact range of radii along an orbit", "statement": "For mu>0 and nonzero angular momentum, the set of radii taken by the exact motion over all times is [radius_periapsis(p,e), radius_apoapsis(p,e)] when e<1 and [radius_periapsis(p,e), infinity) when e>=1, with p and e computed by the code from the initial state.", "quantifier": "every state, every radius, all times", "why_tests_cant": "quantifies over all times and all orbits, and both directions of an attained range", "anchors": ["src/astrodynx/twobody/_orb_integrals.py: radius_periapsis, radius_apoapsis", "src/astrodynx/prop/_kepler.py: kepler"]}
{"id": "C52", "title": "Starting values of the Kepler solvers", "statement": "The elliptic starting value satisfies Kepler's equation up to third order in e (residual at most 17/8 e^3) and exactly at both apsides; the hyperbolic starting value is the solution of e sinh H = 2N and has the sign of N; the universal starting value has the sign of the time of flight and of the true solution for ellipses and hyperbolas, and for circular orbits is the exact solution, so the solver returns it without a Newton step.", "quantifier": "every M, e in [0,1], N, e>0, every state and time", "why_tests_cant": "a worse starting value only costs iterations on most inputs, so tests still pass; the claims range over all inputs", "anchors": ["src/astrodynx/twobody/_kep_equ.py: solve_kepler_elps, solve_kepler_hypb, solve_kepler_uni"]}
{"id": "C53", "title": "Eccentric and hyperbolic anomaly", "statement": "On an ellipse (hyperbola) every state has an eccentric anomaly E, unique modulo 2 pi when e>0 (a unique hyperbolic anomaly H), with |r| = a(1-e cos E) and r.v = sqrt(mu a) e sin E (hyperbolic analogue). In terms of it, kepler_equ_uni at chi = sqrt(a)(E-E0) is a^(3/2) times kepler_equ_elps with M = E0 - e sin E0 + mean_anomaly_elps(a,t,mu) (kepler_equ_hypb with mean_anomaly_hypb), and the exact motion at time t is the state whose anomaly solves that equation. On a parabola kepler_equ_uni is Barker's equation. The polar equation of the orbit gives the classical half-angle relation with the true anomaly.", "quantifier": "every state of every conic, every time", "why_tests_cant": "links two independently written Kepler equations for all orbits", "anchors": ["src/astrodynx/twobody/_kep_equ.py: kepler_equ_elps, kepler_equ_hypb, kepler_equ_uni, mean_anomaly_elps, mean_anomaly_hypb", "src/astrodynx/prop/_kepler.py: kepler"]}
{"id": "C54", "title": "Periodicity of the exact motion", "statement": "The exact motion of an ellipse returns to its initial state after time t exactly when t is an integer multiple of orb_period(a,mu) (for a non-circular orbit this is already so for radius and radial velocity); the motion on a parabola or hyperbola is injective in time.", "quantifier": "every state, all times", "why_tests_cant": "the 'only' direction excludes return at every other time", "anchors": ["src/astrodynx/twobody/_orb_integrals.py: orb_period", "src/astrodynx/prop/_kepler.py: kepler"]}
{"id": "C55", "title": "Convergence of kepler's root search on ellipses", "statement": "With the default settings kepler (solve_kepler_uni, tol=1e-6, max_iter=50) meets its tolerance on every ellipse at every time of flight, so that every returned state is the exact state at a time within 1e-6/sqrt(mu) of the requested one.", "quantifier": "every elliptic state, every time of flight", "why_tests_cant": "fails only at particular combinations of eccentricity, starting phase and time of flight", "anchors": ["src/astrodynx/prop/_kepler.py: kepler", "src/astrodynx/twobody/_kep_equ.py: solve_kepler_uni"]}
{"id": "C56", "title": "Vector functions act vector by vector on batches", "statement": "angular_momentum, eccentricity_vector, sigma_fn, inclination, true_anomaly, node_vec, right_ascension, argument_of_periapsis, rv2coe, rotmat3dx/y/z, coe2rv and the rows returned by kepler, applied to arrays with any leading axes whose shapes broadcast, return the array of the broadcast shape whose entries are the values for the single vectors (elements, angles); shapes that do not broadcast raise.", "quantifier": "any number and lengths of leading axes, any contents, any scalar arithmetic", "why_tests_cant": "shape combinations are unbounded; tests use one or two", "anchors": ["src/astrodynx/twobody/_orb_elements.py: rv2coe, coe2rv", "src/astrodynx/twobody/_orb_integrals.py: angular_momentum, eccentricity_vector", "src/astrodynx/twobody/_uniformulas.py: sigma_fn", "src/astrodynx/utils/_rot_mat.py", "src/astrodynx/prop/_kepler.py: kepler"]}
{"id": "C57", "title": "Results do not depend on the units", "statement": "Under a change of the units of length (factor L) and time (factor T) every function of the library commutes with the conversion of its arguments and results: orbit integrals, elements, universal functions, Kepler equations, Lagrange coefficients, accelerations, path checks, the state transition matrix, solve_kepler_uni (with its tolerance converted by L^(3/2)), exact propagation, kepler, and the Cowell propagators with a Runge-Kutta solver.", "quantifier": "all positive conversion factors, all states, times and gravitational parameters", "why_tests_cant": "unit systems are a continuum; the tests use canonical units (mu = 1) and kilometres only", "anchors": ["src/astrodynx/prop/_kepler.py: kepler", "src/astrodynx/twobody/_kep_equ.py: solve_kepler_uni", "src/astrodynx/twobody/_orb_integrals.py", "src/astrodynx/twobody/_orb_elements.py", "src/astrodynx/twobody/_state_trans.py", "src/astrodynx/gravity/_general.py", "src/astrodynx/prop/_cowell_method.py"]}
{"id": "C58", "title": "Convergence of kepler's root search on hyperbolas", "statement": "With the default settings kepler (solve_kepler_uni, tol=1e-6, max_iter=50) meets its tolerance on every hyperbola at every time of flight, so that every returned state is the exact state at a time within 1e-6/sqrt(mu) of the requested one. (Expected false for long times: say exactly how it fails.)", "quantifier": "every hyperbolic state, every time of flight", "why_tests_cant": "the tests propagate hyperbolas for a few time units only; the failure starts at mean anomaly 60 from periapsis, and on the way in at a narrow range of times", "anchors": ["src/astrodynx/prop/_kepler.py: kepler", "src/astrodynx/twobody/_kep_equ.py: solve_kepler_uni"]}
{"id": "C59", "title": "Convergence of kepler's root search on parabolas", "statement": "With the default settings kepler (solve_kepler_uni, tol=1e-6, max_iter=50) meets its tolerance on every parabola at every time of flight, so that every returned state is the exact state at a time within 1e-6/sqrt(mu) of the requested one. (Expected false for extreme times: give a range where it holds and one where it fails.)", "quantifier": "every parabolic state, every time of flight", "why_tests_cant": "the tests contain a single parabola; the starting value on a parabola is always 0 (the initial state), so the number of steps grows with the logarithm of the time", "anchors": ["src/astrodynx/prop/_kepler.py: kepler", "src/astrodynx/twobody/_kep_equ.py: solve_kepler_uni"]}
{"id": "C60", "title": "Single precision near the parabola", "statement": "In binary32 arithmetic (JAX's default) kepler stays within 1% of the exact propagation for every non-parabolic state whose orbit is well away from the centre, whatever the size of alpha. (Expected false: ufunc2 and ufunc3 are evaluated from 1 - cos y and y - sin y, which are exactly 0 once sqrt(|alpha|) chi <= 2^-12; show that kepler then moves along a straight line, and give a state where the position is 7% off.)", "quantifier": "every non-parabolic state whose computed sqrt(|alpha|) chi is at most 2^-12, every binary32 library accurate to half a unit in the last place on tiny arguments", "why_tests_cant": "the tests use clearly elliptic, clearly hyperbolic and exactly parabolic states; the failure needs alpha tiny but nonzero, and the result is finite and looks plausible", "anchors": ["src/astrodynx/twobody/_uniformulas.py: ufunc0-ufunc3", "src/astrodynx/prop/_kepler.py: kepler"]}
{"id": "C61", "title": "Differentiation leaves the values alone", "statement": "Evaluating any of the library's functions under forward-mode differentiation (jax.jvp, jax.jacfwd) returns the same values as evaluating it without: formulas, universal functions, element conversions, state-transition blocks, accelerations, path checks, and the iterative solvers and kepler, which make the same number of iterations.", "quantifier": "every function of the model, every arithmetic (exact, rounded, with infinities and NaN), all inputs and all tangents", "why_tests_cant": "a branch or a loop condition that looked at a tangent would change values for some directions only", "anchors": ["src/astrodynx/twobody/_kep_equ.py", "src/astrodynx/prop/_kepler.py", "src/astrodynx/twobody/_uniformulas.py"]}
{"id": "C62", "title": "Forward-mode derivatives of the formulas", "statement": "On its smooth domain every formula of the library, differentiated in forward mode, returns the derivative of the function it computes, along every curve of inputs: orbit integrals, Lagrange coefficients, universal functions, Kepler equations, elements, rotation matrices, coe2rv, accelerations and state-transition blocks. (Expected false for the universal functions at alpha = 0, where the branch taken does not contain alpha.)", "quantifier": "every differentiable curve of inputs through every point of the smooth domain", "why_tests_cant": "the tests differentiate kepler_equ_uni with respect to chi at a few points; derivatives with respect to alpha at alpha = 0 come out as exactly 0, a finite and plausible number", "anchors": ["src/astrodynx/twobody/_uniformulas.py: ufunc0-ufunc5", "src/astrodynx/twobody/_orb_integrals.py", "src/astrodynx/twobody/_lagrange.py", "tests/test_kepler_equation.py:188"]}
{"id": "C63", "title": "Forward-mode derivatives through the Kepler solvers", "statement": "Forward-mode derivatives of solve_kepler_elps, solve_kepler_hypb and solve_kepler_uni, and of kepler with respect to time, are the derivatives of the exact root (of the exact motion) up to a multiple of the tolerance. (Expected false where the loop makes no step: the derivative is then that of the starting formula.)", "quantifier": "every differentiable curve of inputs, every tolerance and iteration limit", "why_tests_cant": "the tests compare values, not derivatives; a value within the tolerance says nothing about the derivative", "anchors": ["src/astrodynx/twobody/_kep_equ.py: solve_kepler_elps, solve_kepler_hypb, solve_kepler_uni", "src/astrodynx/prop/_kepler.py: kepler"]}
{"id": "C64", "title": "Where forward-mode derivatives are NaN", "statement": "For every function, the tangents computed by forward mode are finite, and equal to the exact-arithmetic ones, wherever the value is finite and the function is differentiable; the states at which a tangent is NaN are characterised. (Expected false at parabolic states: alpha = 1/semimajor_axis, used by kepler and dxdx0, is smooth there, and the code divides by zero twice.)", "quantifier": "all finite traced inputs with IEEE infinities and NaN; all tolerances, iteration limits and times", "why_tests_cant": "the tests never differentiate, and the degenerate states form sets of measure zero that random sampling does not hit", "anchors": ["src/astrodynx/twobody/_orb_elements.py: rv2coe", "src/astrodynx/twobody/_orb_integrals.py: semimajor_axis", "src/astrodynx/prop/_kepler.py: kepler", "src/astrodynx/twobody/_state_trans.py: dxdx0"]}
{"id": "C65", "title": "Transition matrices compose and carry the symmetries of the motion", "statement": "For the exact motion, dxdx0 over t1+t2 is the product of dxdx0 over t2 (from the state reached) and over t1; the matrix of the way back is the inverse; it maps velocity and acceleration at the start to those at the end, infinitesimal rotations to infinitesimal rotations, and the derivative of Kepler's scaling to its image; it conserves the variations of energy and angular momentum; over k revolutions of an ellipse it is the identity plus the along-track drift caused by the change of period; reversing the motion flips the sign of the off-diagonal blocks and turning the frame turns the blocks (for all arguments).", "quantifier": "all states with non-zero angular momentum, all mu > 0, all times, all variations; ellipses and all integers k for the last revolution claim; all arguments for reversal and frame", "why_tests_cant": "dxdx0 has no numerical test at all; the laws relate several calls over continua of states and times", "anchors": ["src/astrodynx/twobody/_state_trans.py: dxdx0", "src/astrodynx/twobody/_state_trans.py: prpr0, prpv0, pvpr0, pvpv0"]}
{"id": "C66", "title": "Differentiating kepler with respect to the initial state", "statement": "The forward-mode derivative of kepler with respect to the initial position and velocity is the derivative of the two-body motion at the same time of flight, i.e. the matrix dxdx0 applied to the variation. (Expected false: kepler passes alpha.item(), r0.item() and sigma0.item() to its root search, so the root carries no dependence on the state.)", "quantifier": "all states with non-zero angular momentum, all mu > 0, all times, all variations of state and time", "why_tests_cant": "the tests never differentiate kepler, and its values are right", "anchors": ["src/astrodynx/prop/_kepler.py: kepler", "src/astrodynx/twobody/_state_trans.py: dxdx0"]}
{"id": "C67", "title": "Rounding errors of the formulas", "statement": "In floating-point arithmetic each closed formula is accurate to a stated small number of roundings relative to the sum of the magnitudes of its terms: orbit integrals, radii, anomalies, Kepler equations and slopes, universal functions, Lagrange coefficients, gravity accelerations, all six elements from a state, coe2rv. The decisions (conic type, is_short_way, pass_perigee, rp_islower_rmin) are those of exact arithmetic outside an explicit rounding band. Cancellation amplifies the error exactly where a condition number appears: 1 - e**2 near e = 1 loses thousands of roundings, and the inclination of a nearly equatorial orbit comes out as 0.", "quantifier": "all inputs, every arithmetic that satisfies the standard model with unit roundoff u <= 1/1000 and elementary functions within L <= 100 roundings (binary32 and binary64 with correctly rounded functions are instances)", "why_tests_cant": "the tests compare a few values with a tolerance of 1e-6 or so; an error bound quantifies over all inputs and all roundings", "anchors": ["src/astrodynx/twobody/_orb_integrals.py", "src/astrodynx/twobody/_kep_equ.py", "src/astrodynx/twobody/_uniformulas.py", "src/astrodynx/twobody/_lagrange.py", "src/astrodynx/twobody/_orb_elements.py", "src/astrodynx/twobody/_path_check.py", "src/astrodynx/gravity/_general.py"]}
{"id": "C68", "title": "Accuracy of the Kepler solvers and of kepler in floating point", "statement": "In floating-point arithmetic the value returned by solve_kepler_elps, solve_kepler_hypb and solve_kepler_uni, when the loop stops on its test, is within (tolerance plus an explicit number of roundings)/slope of the exact root; position and velocity returned by kepler are then within sqrt(2/q-1/a)*tol resp. sqrt(mu)/q**2*tol plus explicit rounding terms of the exact motion. For solve_kepler_hypb with e >= 3 and at least seven iterations the result is within tol plus a stated rounding term of the root whether or not the test was met (for N < 0 as long as the argument of the logarithm of the starting value does not cancel). For solve_kepler_elps with e <= 1/2, and for kepler on orbits of eccentricity at most 1/4, the loop is shown to stop (within 6 resp. 4 steps) whenever the tolerance exceeds a stated multiple of the rounding error, so the bounds hold unconditionally; in binary64 with default settings solve_kepler_elps is right to 2e-11 for all |M| <= 1000.", "quantifier": "all inputs and all roundings of every arithmetic satisfying the standard model (binary32 and binary64 are instances); all tolerances and iteration limits", "why_tests_cant": "the tests compare a handful of results with one tolerance; an a priori bound covers every input and every sequence of roundings, and termination of the loop in rounded arithmetic is not implied by termination in exact arithmetic", "anchors": ["src/astrodynx/twobody/_kep_equ.py: solve_kepler_elps, solve_kepler_hypb, solve_kepler_uni", "src/astrodynx/prop/_kepler.py: kepler"]}
{"id": "C69", "title": "Overflow", "statement": "In IEEE-like arithmetic with a largest finite number, the functions whose exact value is an ordinary number nevertheless return 0, infinity or NaN on explicit ranges. In binary32: point_mass_grav is exactly zero at distances of 7.5e12 and more, j2_acc at 5.4e7 and more, j3_acc and j4_acc at 1e6 and more (so in metres they vanish everywhere around the Earth, including on the inputs of the project's own tests), j4_acc is NaN when mu*J4*R**4 overflows (Jupiter in metres). solve_kepler_hypb returns -inf for negative N once the argument of the logarithm of its starting value rounds to zero (2|N|/e >= 5810 in binary32, 1.35e8 in binary64) although the root is below 60 in magnitude as long as 2|N|/e <= 1e19 (below 350 up to 1e150), and +inf once the square in that argument overflows. kepler on a hyperbola returns NaN in every component once the mean anomaly sqrt(mu/|a|**3)*|t| exceeds 93 in binary32 or 730 in binary64 (energy not ill-conditioned, magnitudes between 1e-8 and 1e8). orb_period is +inf in binary32 for a >= 7.4e12 (the cube overflows; 49.5 AU in metres). Conversely nothing overflows on ordinary elliptic input: solve_kepler_elps with e <= 1/2 and kepler on ellipses of eccentricity at most 1/4 (1e-9 <= 1/a <= 1e6, 1e-6 <= mu <= 1e16, mean anomaly advance at most 1e6) return exactly the finite numbers of the arithmetic without overflow, so that the error bounds of C68 hold for them in binary64 as it is, overflow included.", "quantifier": "all inputs in the stated ranges, every rounding satisfying the standard model with largest number between 3e38 and 4e38 (gravity), every binary format (hyperbolic solver); all states, times and tolerances in the stated ranges for the absence of overflow", "why_tests_cant": "the tests sample canonical units or compare the function with the same overflowing formula, so zero is compared with zero", "anchors": ["src/astrodynx/gravity/_general.py", "src/astrodynx/twobody/_kep_equ.py: solve_kepler_hypb", "src/astrodynx/prop/_kepler.py: kepler", "src/astrodynx/twobody/_kep_equ.py: solve_kepler_elps", "src/astrodynx/twobody/_orb_integrals.py: orb_period"]}
{"id": "C70", "title": "Integer arrays", "statement": "The docstrings accept ArrayLike. For int32 arrays next to exact floating point: the three Kepler solvers (while 2*M resp. 2*N, e**2 and -alpha fit 32 bits; at N = 2**30 the hyperbolic solver starts from the value of -2**30), kepler's equations and their derivatives, mean_motion, equ_of_orbit, lagrange_F, lagrange_Ft, lagrange_Gt and generalized_anomaly return what they return for the same numbers as floats. orb_period, a_from_period, semiparameter, semimajor_axis, mean_anomaly_elps, mean_anomaly_hypb, angular_momentum, sigma_fn and is_short_way compute an integer power or product modulo 2**32: they agree with the float result while that intermediate fits 32 bits, and otherwise return the value of the wrapped number. So orb_period is NaN for a = 1291..1625 and for a = 7000, and finite but wrong at 1626; a_from_period is negative for 46341..65535 seconds and for the sidereal day; semiparameter is negative for h = 46341..65535; is_short_way reverses its answer at a quarter turn of radius 1000 and speed 3. ufunc0, ufunc1 and kepler_equ_uni raise TypeError for every integer chi, whatever alpha, because the branches of lax.cond differ in dtype; ufunc2 and ufunc3 never do.", "quantifier": "all integers in 32 bits, all float arguments including infinities and NaN, all tolerances and iteration limits", "why_tests_cant": "the tests pass floats; wrapping depends on the size of the integer and shows no error", "anchors": ["src/astrodynx/twobody/_orb_integrals.py", "src/astrodynx/twobody/_kep_equ.py", "src/astrodynx/twobody/_path_check.py: is_short_way", "src/astrodynx/twobody/_uniformulas.py", "src/astrodynx/twobody/_lagrange.py"]}
{"id": "C71", "title": "A NaN argument is not swallowed", "statement": "A NaN in any argument of a formula, the other arguments arbitrary (infinities and NaN included), makes the result NaN: all functions of _orb_integrals, _lagrange, the formulas of _kep_equ (kepler_equ_uni except for alpha), nmax_by_periapsis (through jnp.maximum), sigma_fn, the eccentricity vector, all six elements of rv2coe (four for a NaN mu: inclination and raan do not depend on it), both vectors of coe2rv (except the z components for a NaN raan and the position for a NaN mu), the accelerations (position and constants), all rows of kepler for a NaN in the state or mu and exactly its own row for a NaN time, all 36 entries of dxdx0. It is swallowed in exactly these places: ufunc0 at alpha = 0 or NaN (value 1); a NaN alpha in every universal function and in kepler_equ_uni, which return their values at alpha = 0; solve_kepler_uni with NaN r0 or sigma0, and every solver with a NaN tolerance, return the starting value as if converged; is_short_way and rp_islower_rmin answer no, pass_perigee answers yes (with a NaN mu, the opposite of is_short_way).", "quantifier": "all positions of the NaN, all values of the other arguments", "why_tests_cant": "no test passes NaN; the wrong answers are ordinary values", "anchors": ["src/astrodynx/twobody/_kep_equ.py: solve_kepler_uni", "src/astrodynx/twobody/_path_check.py", "src/astrodynx/twobody/_orb_elements.py", "src/astrodynx/prop/_kepler.py: kepler", "src/astrodynx/twobody/_state_trans.py: dxdx0", "src/astrodynx/gravity/_general.py"]}
{"id": "C72", "title": "Reverse-mode derivatives of the formulas", "statement": "For every function without a loop, reverse mode (jax.grad, jax.jacrev) and forward mode agree at every argument: the pullback is the transpose of the pushforward. On the smooth domain the pullback is multiplication by the true gradient, for the function itself and for every composition of library functions: if the arguments carry their gradients with respect to the inputs, the result does. (Expected false for the universal functions at alpha = 0 with respect to alpha.)", "quantifier": "all arguments; any number of inputs; all compositions", "why_tests_cant": "the tests take derivatives in a handful of places, never of rv2coe, coe2rv or the accelerations; agreement of the two modes at sampled points says nothing about the composition at others", "anchors": ["src/astrodynx/twobody/_uniformulas.py: ufunc0-ufunc5", "src/astrodynx/twobody/_orb_elements.py: rv2coe, coe2rv", "src/astrodynx/gravity/_general.py", "src/astrodynx/twobody/_orb_integrals.py"]}
{"id": "C73", "title": "Cowell propagation converges to the trajectory", "statement": "With an explicit Runge-Kutta solver, every state saved by fixed_steps and adaptive_steps, and the one returned by to_final, differs from the true trajectory at its time by at most C times (longest step + defect of the sum of the weights + distance of the initial state from the trajectory), for every trajectory of the point mass or of the zonal model that avoids the centre, every tableau, every valid controller, event and iteration limit, once the steps are short enough; in particular fixed_steps converges, as dt tends to 0, to the state that kepler computes. If the weights do not sum to 1 the error remains.", "quantifier": "all trajectories on a bounded time interval, all tableaus with bounded coefficients, all step sequences below a threshold", "why_tests_cant": "the tests compare single orbits at single tolerances; convergence is a statement about all small steps", "anchors": ["src/astrodynx/prop/_cowell_method.py: fixed_steps, adaptive_steps, to_final", "src/astrodynx/gravity/_general.py", "src/astrodynx/prop/_kepler.py: kepler"]}
{"id": "C74", "title": "Symmetries of the Cowell propagation", "statement": "With an explicit Runge-Kutta solver the propagators commute with every linear symmetry of the force: all rotations for the point mass, rotations about the polar axis with J2, J3, J4 (same times, same event, every state turned). Point-mass motion stays exactly in the initial orbital plane, equatorial motion with J2 and J4 exactly in the equator. Angular momentum and energy are conserved, and the choice of the steps does not depend on the axes. (Expected false: the last sentence.)", "quantifier": "all tableaus, steps, initial states, rotations", "why_tests_cant": "tests use a few axis-aligned orbits", "anchors": ["src/astrodynx/prop/_cowell_method.py", "src/astrodynx/gravity/_general.py", "src/astrodynx/events/radius.py"]}
{"id": "C75", "title": "The gravitational parameter as a variable", "statement": "The derivative of the two-body motion over a fixed time with respect to mu is (x - dxdx0 x0) / (3 mu), jointly with any variation of the initial state. Forward-mode differentiation of kepler with respect to time, state and mu together returns that derivative plus velocity and acceleration times the rate of change of the time of flight along the traced root; in particular differentiating kepler with respect to mu is correct. (Expected false: the last part, because alpha.item() and sigma0.item() drop their dependence on mu.)", "quantifier": "all non-rectilinear states, mu > 0, times and variations (on parabolas: those that keep alpha)", "why_tests_cant": "tests never differentiate kepler; mu is 1 or 398600", "anchors": ["src/astrodynx/prop/_kepler.py", "src/astrodynx/twobody/_state_trans.py"]}
{"id": "C76", "title": "The sign of zero", "statement": "In exact arithmetic with the two zeros of IEEE 754, every function gives on its domain the value of its formula, whatever the signs of the zeros among its arguments and intermediate results: orbit integrals, universal functions, Kepler's equations and their solvers, kepler (parabolas included), dxdx0, path checks, gravity, coe2rv and rv2coe. So the elements of an equatorial orbit do not depend on signs of zeros, and coe2rv(rv2coe(x)) = x at a retrograde equatorial periapsis as over the reals. (Expected false: the last sentence; arctan2(0, -0) is pi.)", "quantifier": "all arguments in the domain, all choices of signs of zeros", "why_tests_cant": "the tests hold a few states; none is retrograde equatorial, and none contains -0", "anchors": ["src/astrodynx/twobody/_orb_elements.py", "src/astrodynx/prop/_kepler.py"]}
{"id": "C77", "title": "Ranges and orderings under rounding", "statement": "In binary floating point with rounding to nearest and correctly rounded functions, with no error term: a computed norm is at least the magnitude of each component, so the argument of arccos in inclination is in [-1, 1] and inclination is never NaN for a nonzero angular momentum in range; the elements of rv2coe lie in their ranges (p, e >= 0, incl, argp and true_anom in [0, pi], raan in [0, 2 pi)); the computed radius of an ellipse lies between the computed periapsis and apoapsis; dE and dH are positive; radius_islow has the sign of the comparison; orb_period grows with a, mean anomalies and nmax_by_periapsis grow with time. (Expected false: raan < 2 pi, and angles <= pi, when pi is the real number.)", "quantifier": "all numbers of the format, all precisions p >= 2 (or 10)", "why_tests_cant": "the tests compare a few values with tolerances; a range that is missed by one rounding needs every argument", "anchors": ["src/astrodynx/twobody/_orb_elements.py", "src/astrodynx/twobody/_orb_integrals.py", "src/astrodynx/twobody/_kep_equ.py"]}
{"id": "C78", "title": "Derivatives of every order", "statement": "n nested forward-mode calls (jax.jacfwd of jax.jacfwd ...) return the mixed n-th derivatives: for every formula of the library on its smooth domain, and for the iterates and results of the three Kepler solvers away from jumps of the iteration count; the derivatives that come out of solve_kepler_elps are those of the eccentric anomaly up to a multiple of the tolerance. (Expected false for the universal functions at alpha = 0 and for the third derivative of the eccentric anomaly at M = 0.)", "quantifier": "every n, all directions, every smooth dependence of the arguments on the inputs", "why_tests_cant": "the tests take no second derivatives; the first and second derivative at M = 0 are exact, so the error shows only in the third", "anchors": ["src/astrodynx/twobody/_kep_equ.py: solve_kepler_elps, solve_kepler_hypb, solve_kepler_uni", "src/astrodynx/twobody/_uniformulas.py: ufunc0-ufunc5", "src/astrodynx/twobody/_orb_integrals.py"]}
{"id": "C79", "title": "Hessians: forward mode over reverse mode", "statement": "jax.hessian (jacfwd of jacrev) of every formula of the library returns the matrix of second derivatives on the smooth domain of the formula; more generally n forward passes over a reverse pass return the n-th derivatives of the gradient. The Hessian is symmetric, and agrees with forward over forward mode to every order. (Expected false for the universal functions at alpha = 0.)", "quantifier": "every n, any number of inputs, all directions, every smooth dependence of the arguments on the inputs", "why_tests_cant": "the tests take no gradients and no Hessians; a missing entry comes out as exactly 0", "anchors": ["src/astrodynx/twobody/_uniformulas.py: ufunc0-ufunc5", "src/astrodynx/twobody/_orb_integrals.py", "src/astrodynx/twobody/_orb_elements.py", "src/astrodynx/gravity"]}
{"id": "C80", "title": "Propagating backwards", "statement": "For a negative final time the Cowell propagators integrate backwards: fixed_steps, adaptive_steps, custom_steps and to_final save strictly decreasing times from 0, each state being one solver step of negative length from the one before, never beyond t1 and ending at t1 unless an event stops them; fixed_steps with a dt of the wrong sign and custom_steps with times outside the interval are refused. For forces that depend on the position only (point mass, zonal), propagating backwards is propagating forwards with the velocity reversed, state by state. As the steps shrink the states converge to the trajectory at negative times, for the point mass the one kepler computes. The way there and back is not the identity (one Euler step each way multiplies the position by 1 + h^2 mu / r^3), but its error is at most a constant times the step.", "quantifier": "all final times, states, forces, solvers, controllers, events, iteration limits; all trajectories on a bounded interval", "why_tests_cant": "the tests only propagate forwards", "anchors": ["src/astrodynx/prop/_cowell_method.py: cowell_method, fixed_steps, adaptive_steps, custom_steps, to_final", "src/astrodynx/events/radius.py: radius_islow", "src/astrodynx/gravity"]}
{"id": "C81", "title": "Straight-line motion: falling into the centre and bouncing back", "statement": "For every state with r != 0, angular momentum zero included, the universal Kepler equation used by kepler() has exactly one root for every time; the state kepler() forms from that root obeys Newton's law at every time at which it is not at the centre, is the only such motion up to the first collision, composes over intermediate states and repeats with orb_period when bound (on a line never earlier, and an unbound line never repeats); each row returned by kepler() is that state at a time shifted by the residual over sqrt(mu). With zero angular momentum the position is always a nonnegative multiple of r and the velocity lies along r; the centre is reached exactly once when alpha <= 0 and exactly at the times tc + k*orb_period when alpha > 0; the speed exceeds every bound near a collision; after it the body returns along the same ray with the opposite velocity; the eccentricity is 1 whatever the energy.", "quantifier": "every r != 0, v, mu > 0, every time; zero angular momentum for the second part", "why_tests_cant": "The collision times form a null set and everything near them is ill-conditioned; that the same formula continues through the singularity, and how, is a statement about all times.", "anchors": ["src/astrodynx/prop/_kepler.py: kepler, _lagrange_prop", "src/astrodynx/twobody/_kep_equ.py: kepler_equ_uni, solve_kepler_uni, generalized_anomaly", "src/astrodynx/twobody/_lagrange.py", "src/astrodynx/twobody/_uniformulas.py: ufunc0-ufunc5, sigma_fn, equ_of_orb_uvi"]}
{"id": "C82", "title": "Where a reverse-mode gradient is NaN", "statement": "With the IEEE special values, jax.grad/jax.jacrev of every function without a loop (orbital integrals, universal functions, Lagrange coefficients, Kepler equations, mean anomalies, accelerations and altitude event, rotation matrices, coe2rv, nmax_by_periapsis, the transition matrix and its blocks, one propagation step) is finite for every finite cotangent on the smooth domain and equals the exact-arithmetic gradient. rv2coe, element by element and for every state input: finite off its degenerate set and NaN for every cotangent on it (e on circular orbits, i and node on equatorial ones, argument of periapsis when on the node line, true anomaly at the apsides). At every parabolic state alpha = 1/semimajor_axis(...) has value 0 and gradient NaN, and so has each of the 36 entries of dxdx0, although both are smooth functions of the state.", "quantifier": "every input on the smooth domain; every non-rectilinear state for rv2coe; every parabolic state for the refutation; every cotangent and every input the state depends on", "why_tests_cant": "The sets where the gradient turns NaN have measure zero; a test at random states never meets them, and a test at one degenerate state does not show that all inputs and cotangents are affected.", "anchors": ["src/astrodynx/twobody/_orb_elements.py: rv2coe, inclination, right_ascension, argument_of_periapsis, true_anomaly", "src/astrodynx/twobody/_orb_integrals.py: semimajor_axis", "src/astrodynx/twobody/_state_trans.py: dxdx0", "src/astrodynx/twobody/_uniformulas.py", "src/astrodynx/gravity/_general.py"]}
{"id": "C83", "title": "Underflow", "statement": "In binary floating point with gradual underflow or flush to zero (and overflow): for inputs that are zero or of magnitude in [1/B, B] the orbital integrals, mean anomalies, Lagrange coefficients, generalized anomaly, sigma, angular momentum, eccentricity vector, p and e of rv2coe and the J2-J4 accelerations meet neither underflow nor overflow and keep the error bounds of C67. The norm has relative error at most 4u however small its smaller components are, and the point-mass acceleration 20u plus one underflow. In binary32 every component of j3_acc and j4_acc is an infinity or NaN whenever |r| <= 2^-22 (35 km in astronomical units), of j2_acc when |r| <= 2^-31 and of point_mass_grav when |r| <= 2^-51, for all parameters.", "quantifier": "every arithmetic with underflow satisfying Spec.UModel (gradual and flush-to-zero binary formats are proved to satisfy it), every input in the stated range; every position and every parameter for the loss", "why_tests_cant": "The tests use Earth orbits in SI units or canonical units; the failure needs other units, and the absence of underflow is a statement about all inputs in a range.", "anchors": ["src/astrodynx/gravity/_general.py: point_mass_grav, j2_acc, j3_acc, j4_acc", "src/astrodynx/twobody/_orb_integrals.py", "src/astrodynx/twobody/_lagrange.py", "src/astrodynx/twobody/_kep_equ.py: generalized_anomaly, mean_anomaly_*", "src/astrodynx/twobody/_uniformulas.py: sigma_fn"]}
{"id": "C84", "title": "The formulas displayed in the documentation", "statement": "In exact arithmetic and for all arguments, every function with a displayed formula in its docstring computes that formula, except: a_from_period displays a square root (the code takes the cube root; they agree only when the result is 0 or 1); right_ascension and rv2coe add 2 pi to the displayed arctan2 when the node has negative second component; coe2rv displays rotations by -Omega, -i, -omega (the code rotates by the angles themselves); pvpr0 and pvpv0 display a wrong power of a radius (the exact difference is given, and they agree exactly when the affected term vanishes or the radii make the powers equal).", "quantifier": "all real arguments, also outside the physical domain where both sides are defined by the same formula", "why_tests_cant": "The docstring examples run the code, never the displayed formula; nothing in the test suite connects the two.", "anchors": ["src/astrodynx/twobody/_orb_integrals.py", "src/astrodynx/twobody/_orb_elements.py", "src/astrodynx/twobody/_uniformulas.py", "src/astrodynx/twobody/_lagrange.py", "src/astrodynx/twobody/_kep_equ.py", "src/astrodynx/twobody/_state_trans.py", "src/astrodynx/twobody/_path_check.py", "src/astrodynx/gravity/_general.py", "src/astrodynx/utils/_rot_mat.py"]}
{"id": "C85", "title": "Omitted arguments", "statement": "Leaving out the optional arguments means canonical units (mu = 1), the unit circular orbit seen from periapsis, mean anomaly zero, tolerance 1e-6 with 20 (ellipse) or 50 iterations, no event, args = {mu: 1}, at most 4096 steps; the zonal accelerations vanish, the altitude event is the radius itself and nmax_by_periapsis() is 0. The time of flight of C_func and dxdx0 is the exception: left out it is 3.14, so dxdx0 of a state and itself is not the identity.", "quantifier": "every value of the arguments that are given; every arithmetic for the solvers, propagators and elements", "why_tests_cant": "The tests pass the arguments explicitly, or use one value at which a wrong default would have to be noticed by chance.", "anchors": ["signatures of all public functions in src/astrodynx"]}
{"id": "C86", "title": "The altitude event and the true trajectory", "statement": "A step-saving Cowell run with the event radius_islow, started near a trajectory, with steps, tolerance, weight defect and initial error small enough (how small depends on the trajectory): does not end by the event if the trajectory stays above rmin on [0, t1]; ends by it if the trajectory goes below rmin at some time tau, not before the trajectory could first reach rmin and at most one step after tau. For a bound Kepler orbit flown for at least a revolution from above rmin the outcome is the value of rp_islower_rmin, if the periapsis is not exactly at rmin. For a given step this fails: a dip between two steps is missed.", "quantifier": "every trajectory of the vector field with continuous radius for which the run converges (C73: point mass, zonal model), every explicit Runge-Kutta tableau with bounded coefficients, every rmin, every small enough step; fixed_steps and adaptive_steps with any valid controller", "why_tests_cant": "A test flies one trajectory with one step size; whether the event fires between the steps depends on the size of the steps against the depth of the dip.", "anchors": ["src/astrodynx/events/radius.py:8", "src/astrodynx/prop/_cowell_method.py:148", "src/astrodynx/prop/_cowell_method.py:226", "src/astrodynx/twobody/_path_check.py:136"]}
{"id": "C87", "title": "The elements along the motion", "statement": "Propagating the anomaly is propagating the state: with the other elements held fixed, solving Kepler's equation (Barker's on a parabola) from the anomaly at the start and applying coe2rv gives the state the exact Kepler propagation gives, on ellipses, circles, hyperbolas and parabolas; if Kepler's equation is not solved exactly, the state is the exact one at a time off by the residual over the mean motion. Every state kepler returns has in rv2coe the p, e, inclination, right ascension and argument of periapsis of the initial state. The true anomaly rv2coe returns changes along a noncircular orbit at the rate |h|/|r|^2 on the way out and at the opposite rate on the way in, so it does not advance with time.", "quantifier": "every p > 0, e >= 0, mu > 0, every orientation, initial anomaly and flight time; every state with nonzero angular momentum for the elements; every instant away from the apses for the rate", "why_tests_cant": "A test compares the two routes at chosen orbits and times; the claim is that they agree everywhere, with the exact size of the error an inexact anomaly makes.", "anchors": ["src/astrodynx/twobody/_orb_elements.py:184", "src/astrodynx/twobody/_orb_elements.py:107", "src/astrodynx/twobody/_orb_elements.py:32", "src/astrodynx/twobody/_kep_equ.py:11", "src/astrodynx/twobody/_kep_equ.py:74", "src/astrodynx/twobody/_kep_equ.py:137", "src/astrodynx/prop/_kepler.py:49"]}
{"id": "C88", "title": "The elements under a perturbation", "statement": "Along any motion with a further acceleration f besides the point mass, the quantities the library computes from the state change as Gauss' equations say: the angular momentum at the torque r x f, the semiparameter at 2 h.(r x f)/mu, the semimajor axis at 2 a^2 (v.f)/mu, the eccentricity vector and its magnitude, the inclination and the right ascension of the node (through the component of f along h). With the J2 term for f the node of a prograde orbit goes backwards and that of a retrograde orbit forwards, except at the equator crossings. Along every motion of the zonal models p cos^2 i is constant, and a polar orbit keeps its inclination pi/2 and its node.", "quantifier": "every motion, every perturbing acceleration, every instant away from the centre where the element is defined; every zonal trajectory, every J2, J3, J4, mu, R", "why_tests_cant": "A test compares elements at the ends of one numerical propagation, with integration error; the claim is the exact instantaneous rate for every motion and force.", "anchors": ["src/astrodynx/twobody/_orb_elements.py:107", "src/astrodynx/twobody/_orb_integrals.py:86", "src/astrodynx/twobody/_orb_integrals.py:128", "src/astrodynx/twobody/_orb_integrals.py:172", "src/astrodynx/twobody/_orb_integrals.py:222", "src/astrodynx/gravity/_general.py:45"]}
{"id": "C89", "title": "Motions under the force models exist and are unique", "statement": "For every force model the library offers (point mass, with J2, J3, J4 in any combination), through every state away from the centre there is a motion of the vector field Cowell's method integrates, and two motions that agree at one instant agree throughout. Hence a linear symmetry of the force carries motions into motions and fixes those it fixes once; motions can be run backwards; a motion that returns to a former state is periodic; with J3 = 0 a motion in the equatorial plane stays there; a motion on the polar axis stays there; and under the point mass the motion is the one kepler computes.", "quantifier": "every state with r != 0, every value of mu, J2, J3, J4, R; every open interval of time", "why_tests_cant": "Uniqueness compares all motions on all intervals of time; a test sees one numerical approximation of one of them.", "anchors": ["src/astrodynx/gravity/_general.py:8", "src/astrodynx/gravity/_general.py:45", "src/astrodynx/gravity/_general.py:95", "src/astrodynx/gravity/_general.py:148", "src/astrodynx/prop/_cowell_method.py:1", "src/astrodynx/prop/_kepler.py:49"]}
{"id": "C90", "title": "The effect of the zonal terms over one revolution", "statement": "Integrated over one period (as orb_period computes it) of any elliptic Kepler orbit, the rates of change that j2_acc causes are: the angular momentum turns about the planet's axis by -3 pi J2 (R/p)^2 cos i (its length and polar component, and so p and i, do not change); the eccentricity vector turns with it and in the plane of the orbit by 3/2 pi J2 (R/p)^2 (5 cos^2 i - 1), its length does not change, and this second turn vanishes exactly at the critical inclination 5 cos^2 i = 1; the power of each of the zonal terms J2, J3, J4 integrates to 0, so the semimajor axis does not change. For J3 and J4 the changes of the angular momentum and of the eccentricity vector are explicit polynomials in e cos w, e sin w and sin i; under J3 the size of the angular momentum stays exactly when the orbit is circular, equatorial or critically inclined or the periapsis is 90 degrees from the node, and a circular orbit gains eccentricity along the node. An integral over a period is the integral over the true anomaly with weight r^2/h.", "quantifier": "every elliptic state with nonzero angular momentum, every mu > 0, J2, J3, J4, R", "why_tests_cant": "A numerical propagation over one revolution mixes the secular change with higher orders and integration error; the claim is the exact first-order value for every orbit.", "anchors": ["src/astrodynx/gravity/_general.py:45", "src/astrodynx/gravity/_general.py:95", "src/astrodynx/gravity/_general.py:148", "src/astrodynx/twobody/_orb_integrals.py:8", "src/astrodynx/twobody/_orb_integrals.py:172", "src/astrodynx/twobody/_orb_elements.py:13"]}
{"id": "C91", "title": "The zonal motion to first order in the coefficients", "statement": "From every state with non-zero angular momentum and for every duration T there are C and e0 > 0 such that, whenever |J2|, |J3|, |J4| <= eps <= e0, the motion under point_mass_grav + j2_acc + j3_acc + j4_acc exists for the time T without reaching the centre, every such motion stays within C eps of the Kepler motion, and the changes of angular momentum, eccentricity vector and Kepler energy differ from the first-order integrals along the Kepler orbit by at most C eps^2. Over one period of an elliptic orbit these are the closed formulas of C90: with J2 the node regresses by 3 pi J2 (R/p)^2 cos i, the periapsis moves by 3/2 pi J2 (R/p)^2 (5 cos^2 i - 1) beyond it, and the energy does not change, up to C eps^2. Over n revolutions the changes are n times these, up to C_n eps^2. The state fixed_steps returns after the time T, for any Runge-Kutta tableau whose weights sum to 1, has the same angular momentum, eccentricity vector and energy up to C eps^2 plus as little as wanted, for all short enough steps.", "quantifier": "all mu > 0, R, all starting states with non-zero angular momentum (elliptic ones, or all elements with 0 <= e < 1, for the closed formulas), all durations, all argument dictionaries with the coefficients within eps, all motions", "why_tests_cant": "The statement is about the exact flow of the force model for all small coefficients and about an error of second order; a numerical run mixes in truncation and rounding error and shows one coefficient at a time.", "anchors": ["src/astrodynx/gravity/_general.py:45", "src/astrodynx/gravity/_general.py:95", "src/astrodynx/gravity/_general.py:148", "src/astrodynx/twobody/_orb_integrals.py:8", "src/astrodynx/twobody/_orb_integrals.py:172", "src/astrodynx/twobody/_orb_elements.py:13"]}
