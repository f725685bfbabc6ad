# Formal model of astrodynx — design

## What is modelled and how

astrodynx is a numerical library: pure functions over JAX arrays, three Newton loops
(`lax.while_loop`), one analytic propagator, thin wrappers over `diffrax`. The model is a
function-by-function transcription into Lean 4, **generic over the arithmetic**: every
definition takes a type `α` with `+ - * / ^ℕ`, natural-number literals and a class `JFun α` of the
`jax.numpy` primitives (`sqrt cbrt sin cos sinh cosh log arccos arctan2 abs maximum floor ones_like pi <`).
The same definitions are then read in several arithmetics:

| instance | use |
|---|---|
| any `α` (no laws) | loop termination, history and batching theorems: they hold for float32, NaN, anything |
| `ℝ` (Mathlib reals) | the mathematical theorems (exact arithmetic) |
| `XR` = reals + `±inf` + `nan`, no rounding | which inputs give NaN/inf (C48), and that division by zero is not hidden by Lean's `x/0 = 0` |
| `Rnd` = reals with a rounding function after each operation | C49, C60, C67, C68 |
| `Fl F Ω` = rounding as in `Rnd`, overflow above `Ω`, infinities and NaN as in `XR`, one zero; no underflow (C69), or with a rounding `F` that has it, gradual or flushed to zero (C83) | C69, C83 |
| `SX` = `XR` with the sign of zero | C76 |
| `JN` = `int32` modulo 2³² next to `XR` floats | C70 |
| `Arr β` = arrays over any arithmetic with NumPy broadcasting, or a broadcasting error | C50, C56 |
| `Dual α` = value and tangent, JAX's differentiation rules | what `jax.jvp`/`jax.jacfwd` of each function returns (C61–C63, C66); over `XR` also where they are NaN (C64) |
| `DualN n` = `Dual` nested `n` times over ℝ | `n` nested `jax.jvp`/`jax.jacfwd` calls (C78) |
| `Rev ι (DualN n)` | `n` forward passes over a reverse pass, `jax.hessian` for `n = 1` (C79) |
| `Rev ι α` = value and pullback to the inputs `ι` | what `jax.vjp`/`jax.grad`/`jax.jacrev` returns (C72; over `XR` C82) |
| `Float` | only to *run* the model on the numbers in the docstrings/tests of the repo (tests, not proofs) |

Vectors `(3,)` are a structure `V3 α`, `3×3` matrices are `M3 α`, the state is a pair of `V3`.
Python exceptions (`KeyError`) are `Except` values. `lax.while_loop` is a big-step relation plus a
function computing it.

Files (all under `lean/Verif`): `Num` (arithmetic classes and ℝ instance), `Vec`, `Model/*` (one per
source file), `Spec/*` (independent specifications), `Lemmas/*`, `Props/*` (the property theorems,
grouped by property id), `XR`, `Rnd`, `Fl`, `FloatRun`. The array arithmetic is `Model/NDArray`, its specification
`Spec/Broadcast`. The vector functions on arrays with leading axes are `Model/NDVec`, their specification
`Spec/Batch`.

## Per property plan

* C01–C03: real algebra with `Real.sqrt`, cube root. Direct.
* C04–C06: Lagrange identity for cross products; `field_simp; ring` on components.
* C07–C09: define the series independently, prove summability, identify with code branch by branch
  (`Real.cos_eq_tsum` etc.), derive identities; differentiate in alpha through the series.
* C10–C12: strict monotonicity from the derivative, IVT for existence. Radius positivity through the
  invariant `2r − αr² − σ² = p`.
* C13: big-step semantics of `while_loop`, induction on the remaining iterations; any arithmetic.
* C14: Taylor bound for Newton; C15/C16: Newton for increasing concave-then-convex functions
  converges monotonically after one overshoot; limit is the root.
* C17, C25: simulation relation between two loop executions.
* C18: refuted by theorem. Elliptic: iterates are continuous in M, intermediate-value argument shows
  that for e close to 1 and *every* iteration limit some M ends far from the root; a second use of the
  intermediate value theorem finds, for every `e ≥ 0.9973`, an M whose starting value lies on a two-cycle of
  Newton's method. Hyperbolic: for e near 1 the first step overshoots to `1/(4N)`, later steps move back at most
  1 each. The ranges that hold (`e ≤ 0.9965`; `e ≥ 1.0001`): right of the root Newton's steps on a convex function first contract
  linearly (Cusa's inequality, `5(sinh x - x) ≥ x(cosh x - 1)`), then quadratically; `Props/C18h`: on hyperbolas a step
  halves the residual; `Props/C18i`: between 0.9943 and 0.9965 the first step may pass apoapsis, the second returns.
* C19–C24, C31: algebra of universal functions; implicit-function derivative of the exact root;
  uniqueness of ODE solution by conservation or by Grönwall (Mathlib `ODE_solution_unique`).
* C26: model of JAX's batching rule for `while_loop`; lane-wise bisimulation.
* C27: equivariance under orthogonal matrices.
* C28–C30: C28 direct. C29 via derivative of universal functions in alpha (C09) and implicit
  differentiation; C30 from the closed form.
* C32–C35: rotation-matrix algebra, `Complex.arg` for arctan2, explicit characterisation of what the
  code returns, refutation of the full round-trip by a witness.
* C36–C39: as stated; C38's degenerate case refuted/characterised.
* C40–C42: `HasDerivAt` of the potential in each coordinate (and along any curve).
* C43: `Except` model of args lookup.
* C44–C46: `radius_islow` direct; the `diffrax` loop is *external*: modelled as a loop over an
  arbitrary step function/controller (assumed contract written in the model file).
* C47: matrix algebra. C48: `XR` instance. C49: `Rnd` instance. C50: nd-array model with broadcasting.
* C51: radii attained over all times. C52: accuracy and sign of the Newton starting values.
* C53: closed forms of the universal functions turn the universal Kepler equation into the classical ones
  (`Spec/Anomaly`, `Lemmas/Anomaly`). C54: from C53 by uniqueness of the anomaly.
* C55: C53 conjugates the universal Newton iteration to the elliptic one started at `M + e sin E0`;
  refutation at `e = 0.999999` by the intermediate value theorem as in C18 and at every `e ≥ 0.802` by explicit
  two-cycles of Newton's method (points `4π/3` apart; `7π/5` below 0.82); convergence for `e ≤ 0.785` by following the iterates through
  the convex part of the equation.
  From an apsis the start is `M` itself and the convexity argument of C18 gives `e ≤ 0.92`.
* C58: on hyperbolas the universal iteration is Newton's method for the hyperbolic equation from `H0 + n t`;
  each step from far out moves back by at most 1.001, so 50 steps do not suffice beyond `n t = 55`; `Props/C58b` counts the
  steps from the first iterate in tiers (0.992, 0.96, 0.8, 0.4, linear, quadratic); `Props/C58c` uses that a
  step right of the root halves the residual at every eccentricity above 1; `Props/C58d` counts the steps more closely when
  the root lies beyond 2.21.
* C59: on parabolas the iteration is Newton's method for Barker's equation, whose error obeys
  `x' - a = (x - a)^2 (2x + a) / (3 (x^2 + p))` exactly; the number of steps is counted from that
  (`Props/C59b`: the quadratic rate over `max a √p`, the overshoot from the left at most `a³/(3p)`).
* C60: `Rnd F` with binary32 rounding and elementary functions that are right to half a unit in the last
  place on arguments up to `2^-12` (proved for correctly rounded ones); every step of the witness' root
  search is followed through the roundings.
* C56: each array operation (`stack`, `squeeze`, `sum`, `cross`, `@`, broadcasting) is shown to act per entry of the
  batch; the functions follow by composition.
* C61: taking values commutes with every operation of `Dual α`, so with every definition; loops by simulation.
* C62: `Spec/Deriv` says what a correct derivative along a curve is; closed under every operation on its smooth
  domain (`Lemmas/Dual`), so the formulas follow by composition.
* C63: the traced loop makes the iterations of the untraced one; the tangent recursion of Newton's method is compared
  with the derivative of the root. For the hyperbolic solver tangent times slope stays bounded along the iterates, and
  the residual after the last step bounds how far that step changed the slope. On the way out of a hyperbola the universal
  solver makes the same steps (C58), with one more part of the tangent, from the start, that stays at most 1.
* C64: finite traced values are closed under every operation on its smooth domain (`Lemmas/DualXR`); a NaN tangent is
  absorbing, so one NaN in `alpha` reaches every entry of `dxdx0`.
* C65: composition from C24 and C29 by the chain rule; symmetries by differentiating families of exact motions; the
  conserved variations from symplecticity (C30) paired with the symmetries; full revolutions from `U1 = U2 = 0`.
* C66: a root found from untraced arguments is untraced, so `kepler` differentiates the step at a fixed anomaly; along a
  curve of states that step is the exact motion at a moving time, and the time's rate is the error.
* C67: `Spec/Rounding` states the standard model and Higham's `γ_k`; `Lemmas/RoundErr` is a calculus of relative
  (`Within`) and magnitude-relative (`Near`) errors closed under every operation, so each formula follows by composition;
  `Lemmas/Formats` proves binary32 and binary64 to be instances. The angles of `rv2coe` follow from perturbation bounds of
  `arctan2` (proportional to the relative change of the vector) and `arccos` (square root at the poles), `Lemmas/AnglePert`.
* C68: C67 bounds the residual of the returned value, the slope bounds of C11/C12 turn it into an error of the anomaly, and
  `Lemmas/Speed` (the motion moves at most by its periapsis speed) into an error of the state. Termination: one rounded
  Newton step is compared with the exact one from the same point, giving a quadratic recursion with a rounding term; on
  ellipses the universal equation is the elliptic one in `E + √α χ`.
* C69: the model in `Fl F Ω`; `Lemmas/FlBound` tracks finite values with magnitude bounds until the first overflow, after
  which the IEEE rules decide. For the hyperbolic start `Lemmas/SqrtSq` shows `√(x²) = x` and `x + 1 = x` in binary formats.
  Below overflow `Lemmas/FlTransfer` carries a finite value of `Fl` together with the equal value of `Rnd` through the code;
  the bounds on the iterates come from the contraction in C68.
* C70: the model in `JN`; wrapping is a ring homomorphism modulo 2³², the solvers are simulated by the `XR` ones.
* C71: NaN absorbs every arithmetic operation of `XR` and makes every comparison false; the rest is which branch that takes.
* C72: `Lemmas/Param` proves that every library function respects every relation between two arithmetics that the
  operations respect; "pullback and tangent are transposes" is such a relation (`Lemmas/Rev`). C62 then gives the gradient.
* C73: `Model/RungeKutta` is the solver; `Lemmas/RungeKutta` bounds the error of one step by the tableau's row sums, the bound
  and the Lipschitz constant of the field in a tube around the trajectory, and sums over the kept steps of the driver;
  `Lemmas/Converge` gets the tube from compactness.
* C74: a linear map commuting with the force is a homomorphism of calls of `diffeqsolve` (`Lemmas/CowellHom`); planes from
  the chain of saved steps.
* C75: multiplying `mu` by `L³` is dividing the state by `L` at the same times, so a variation of `mu` is a variation of the state;
  then as C66.
* C76: a number of `SX` has the value `x` (either zero for `x = 0`); operations keep values except division by zero and `arctan2` on its
  cut. Which zeros reach these: the parabolic `alpha` (always `+0`), norms (never `-0`), the node vector of equatorial orbits.
* C77: rounding to nearest is monotone and odd (`Lemmas/Mono.lean`), so ranges and orderings that follow from monotone formulas hold exactly
  in `Rnd (FB p)`; the two strict bounds that fail get witnesses.
* C78: `Spec/Jet` says what correct derivatives of all orders are; by induction on the nesting each rule keeps them (`Lemmas/Jet`), the
  formulas follow by composition, the loops as in C63. The third derivative at `M = 0` by differentiating the Newton step.
* C79: the pullback of a cotangent with derivatives is the product with the gradient, with derivatives (`Spec/Hess`); one lemma for rules with
  one argument, one for two (`Lemmas/Hess`).
* C57: `U n (√L χ) (α / L) = √L ^ n U n χ α` from the power series; the solver loop is simulated step by step.
  The Cowell loop likewise (`Lemmas/CowellScale`), with diffrax's clipping tolerance converted too.
* C80: negating the time axis (`Model/CowellBack`) reduces backward runs to forward runs of the negated field; for forces of the position
  that is the forward run with the velocity reversed (`Lemmas/CowellHom`), so C73 gives convergence; there and back by C73 from a start off
  the trajectory.
* C81: without `h ≠ 0` the radius is still `≥ 0` and its integral strictly increasing and unbounded, so the universal Kepler equation keeps its
  unique root (`Lemmas/Collide`); addition formulas give composition; at a collision `R = σ = 0`, and from there `R = U2`, even in `χ`.
* C82: as C64 with `Rev ι XR`: `RFin` (finite value, finite pullback of finite cotangents, equal to the real one) is kept by every operation on
  its smooth domain; `Bad S i` (cotangents in `S` come back as NaN at input `i`) follows a NaN, or an infinity meeting a zero, to the inputs.
* C83: `Fl.Mz X a b`: `a` is the number `b` computed without underflow or overflow, zero or of magnitude in `[1/X, X]`; each operation
  keeps it with a larger `X` (differences by the gap between neighbouring numbers), so the bounds of C67 carry over as long as `X` stays in range.
  For norms and the point mass a direct estimate with one absolute error per operation; for the loss upper bounds of the powers of `r`.
* C84: `Spec/Documented` is the displayed formulas with Mathlib's vectors and matrices; compared entry by entry. C85: by evaluation
  (`Model/Defaults` adds the default `args` dictionaries of the accelerations and the event).
* C86: C73 with the margins of the radius above and below `rmin` (compactness) and the event contract of C46; the revolution by C51 and C54.
* C87: the universal quantities from periapsis written in the classical anomalies, composition of propagations (C24); the returned anomaly as `arccos ((p/|r| - 1)/e)`, differentiated.
* C88: derivatives of the library's expressions along a motion whose state is known at one instant only to first order; the zonal forces lie in the meridian plane.
* C89: the smooth vector field of C73, Picard–Lindelöf and local uniqueness from Mathlib, connectedness of the interval; symmetries of the force from C42.
* C90: two changes of variable (time to eccentric anomaly by C87, eccentric to true anomaly by an explicit continuous branch), then moments of `cos^a sin^b` by recursion.
* C91: the field is a small multiple of a continuously differentiable one near the compact Kepler arc, so it is bounded and Lipschitz in a tube around it. The perturbed motion exists because the field with its argument held in the tube is bounded (Picard-Lindelof over the whole time), and it never leaves the tube by a fencing argument. The rates of C88 then differ from those along the Kepler arc by the square of the coefficients; C90 evaluates the latter over one period.

## Trusted base
* Lean 4.33.0 kernel; axioms `propext`, `Classical.choice`, `Quot.sound` only (checked with
  `#print axioms` for every theorem named in MANIFEST.json).
* The transcription of the source into `Model/*` (each definition cites file and lines).
* `lax.while_loop` and its `vmap` batching rule: written in `Model/While` from the JAX documentation.
* `diffrax.diffeqsolve`: external and not available in the sandbox. `Model/Cowell.lean` contains the
  contract assumed (loop order, clipping of the step to `t1`, `SaveAt(t0, t1, steps, ts)`, a real
  event without root finder fires when its sign changes between two kept steps and the run ends at the
  end of that step, `max_steps` exceeded raises, terms and event are traced at the initial state).
  The stepping method is an arbitrary function; the controller is arbitrary up to
  `Controller.Valid` (proposed steps have positive length, continue from the end of a kept step).
  For `t1 < 0` (C80, `Model/CowellBack.lean`): the time axis is negated around the same loop, and a `dt0` of the wrong sign is refused.
  For C73 the stepping method is an explicit Runge–Kutta method (`Model/RungeKutta.lean`: stages, reuse of the last stage);
  its coefficients are parameters, and those of `tsit5` come from the literature.
* `jax.numpy` primitives: their exact real meaning (`Num`), their IEEE special values (`XR`: one zero,
  no rounding, no overflow; `SX`: two zeros), round-to-nearest-even on 24 bits with unbounded exponent (`Rnd.F32`), and
  NumPy's broadcasting rule (`Model/NDArray`) and array operations (`Model/NDVec`).
* Rounding (C67): every operation is rounded once with relative error `u`, no fused multiply-add, no overflow or underflow,
  small integer literals exact. With underflow: C83. Python-side constants such as `jnp.pi**2` are read as operations in the working precision
  (the code computes that one in binary64 and rounds once, which is more accurate).
* JAX's forward mode: the rule of each primitive and the symbolic zero tangent of constants (`Model/Dual`, from the
  JAX sources as remembered; JAX is not available in the sandbox). `cond`, `where` and `while_loop` select by value;
  `.item()` returns the number without its tangent.
* JAX's reverse mode (`Model/Rev`): the transposes of the forward rules; contributions of different paths are added at the
  inputs, and `cond`/`where` pull back through the selected branch only (equal in exact arithmetic, in which it is used).
  JAX raises `ValueError` for `while_loop`, so the solvers and `kepler` have no reverse mode.

Not modelled: floating-point rounding except where `Rnd` is used, JIT/XLA compilation, dtype
promotion, device placement, the internals of diffrax.

## Disagreements between the code and the claimed properties or docstrings

| where | what | theorem |
|---|---|---|
| `true_anomaly`, `argument_of_periapsis` (`_orb_elements.py`) | the quadrant test never selects the second half-plane: result always in `[0, π]`, so `rv2coe` loses the half-plane, the round trip fails, and along the motion the returned anomaly runs backwards on the way in | C33, C34, C87_rate |
| `pass_perigee` | always `True` at a final true anomaly of π; inconsistent on the boundary and for `e = 0` | C38 |
| `solve_kepler_elps`, `solve_kepler_hypb` default settings | do not converge for every orbit: for every `0.9973 ≤ e < 1` some `M < 1/40` makes the iteration a two-cycle, for every iteration limit; hyperbola at `N = 1/180` for every `1 < e ≤ 1 + 1/16200` | C18 |
| `kepler` default settings on hyperbolas | from periapsis, mean anomaly `n t ≥ 55`: returns the state of at least 5/4 (from 60 on: more than 100 times) of the requested time, without notice; fine up to 28.9 for `e ≥ 1.1` (39.8 if also `n t ≥ 4.6 e`); on the way in also at short times (`e = 1.2`, `H0 = -4`, `n t = 4`) | C58 |
| `kepler` default settings on parabolas | meets its tolerance up to `D0 + √mu t/r0 = 10^10 √p` outbound, fails beyond `√mu t = 10^13 p^{3/2}` from periapsis | C59 |
| universal functions in single precision, `alpha` tiny but not 0 | `1 - cos y` and `y - sin y` are exactly 0 for `\|y\| ≤ 2^-12`: `kepler` moves along a straight line; position 7% off in a concrete case | C60 |
| `kepler` default settings | from the periapsis of the ellipse `a = mu = 1`, `e = 0.999999` some time of flight in `[0.01, π]` gives a state that is off by at least 0.01 in time, silently | C55 |
| `kepler`, every tolerance and iteration limit | on every ellipse with `e ≥ 0.802` there are a state and a time of flight for which the root search alternates between two points for ever; the returned state is off by at least `0.1 √(a³/mu)` in time, silently | C55 (`C55_cycle_refuted`) |
| `solve_kepler_elps` in float | starting the "previous" value at `E0 + 2 tol` does not force a step once `2 tol` is absorbed by rounding (float32 default tolerance: `|E0| ≥ 64`) | C49 |
| NaN | every Newton loop exits silently on a NaN iterate (`abs(nan) > tol` is false) | C13 |
| `radius_islow` docstring | says the run stops when the value is negative; with a sign-change event a run starting below `rmin` is not stopped | C46_docstring_refuted |
| `to_final` docstring | says `ts` contains only `t1`; event-terminated runs end earlier | C45_final |
| `a_from_period` docstring | shows a square root where the code (correctly) takes a cube root | C01, C84_a_from_period_iff |
| `pvpv0` docstring | `1/r0³` where the code uses `r³` | C29, C84_pvpv0_iff |
| `pvpr0` docstring | `r² r0²` under the last term where the code uses `r³ r0³` | C29, C84_pvpr0_iff |
| `coe2rv` docstring | displays rotations by `-Ω, -i, -ω` with active rotation matrices; the code rotates by `Ω, i, ω` | C84_coe2rv_partial, C84_coe2rv_refuted |
| `right_ascension` docstring | displays `arctan2(N_y, N_x)`; the code adds `2π` to a negative value | C84_right_ascension |
| `dxdx0`, `C_func` defaults | `deltat=3.14` when left out, so `dxdx0(r, v, r, v)` is not the identity | C85_dxdx0_refuted |
| `radius_islow` as an event | evaluated at the ends of the steps only, so a dip below `rmin` inside one step goes unnoticed | C86_missed_refuted |
| `adaptive_steps` docstring | default `dt0 = 0.01 t1`; the code passes `None` | – |
| `ufunc0..5` | a NaN `alpha` is not propagated: both comparisons are false and the parabolic formula is returned | C48_ufunc_nan_alpha |
| `semipara_from_ae` | the parabolic pair produced by `semimajor_axis` (`a = inf`, `e = 1`) gives NaN, not `p` | C48 |
| `solve_kepler_elps` | `e = 1`, `M = 0` gives NaN (0/0 in the first step) | C48_solve_elps_parabolic |
| `coe2rv` docstring | "shape broadcast-compatible": raises unless `e` broadcasts into the shape of `true_anom` (`jnp.stack` of different shapes) | C56_coe2rv_raises |
| `eccentricity_vector` | a `mu` of shape `(..., 3)` is accepted and divides the components by different numbers; `mu` must have shape `()` or `(..., 1)` | C56_mu_last_axis_3 |
| `rv2coe` | `incl` and `raan` have the broadcast shape of position and velocity, the other elements also that of `mu` | C56_rv2coe |
| `kepler` fixed tolerance `1e-6` | it has the dimension length^(3/2): in large units (an orbit with `2 e a^(3/2) ≤ 1e-6`, e.g. any Earth orbit below 9000 km in AU) no Newton step is made and the result is the starting guess | C57_small_orbit, C57_kepler_refuted |
| `fixed_steps` and the fixed clipping tolerance of diffrax | a flight shorter than the tolerance (1e-10 or 1e-6 of the unit of time) is made in two steps, whatever `dt` | C57_two_steps, C57_fixed_steps_refuted (relative to Model/Cowell) |
| `kepler` | `.item()`: raises under `jit` and `vmap` (not modelled), which is how docs/basics.rst uses it (`jax.vmap(adx.prop.kepler, …)`, `@jax.jit def fast_propagation`); the `jax.jacfwd` example there runs and gives the wrong Jacobian (C66); a scalar `ts` returns `(1, 3)` arrays | – |
| `kepler` differentiated with respect to the state | `.item()` drops the tangents of `alpha`, `r0`, `sigma0` without an error: what comes out is the derivative at fixed anomaly, not at fixed time; wrong in some direction for every non-rectilinear state and every result that moved. Unit circle, one turn: drift `-2π` instead of `-6π` | C66_kepler_refuted, C66_circle_refuted |
| `kepler` differentiated with respect to `mu` | `mu` reaches the root search, its part in `alpha.item()` and `sigma0.item()` does not: on the unit circle the position drifts by `t` instead of `2t` | C75 |
| `right_ascension` of retrograde equatorial orbits | `node_vec` computes `0 * h_z - h_y = -0`, and `arctan2(0, -0)` is `π`; which zero comes out depends on the signs of `x` and `v_x`, so the right ascension jumps between `0` and `π` along the orbit, and at the periapsis `(q, 0, 0)` `coe2rv(rv2coe(..))` is `(-q, 0, 0)`. The model over ℝ has `arctan2(0, 0) = 0` | C76 |
| `right_ascension` range | the wrap is meant to give `[0, 2π)`; for a node direction `(1, -d)` with `0 < d ≤ 2^-p` the wrapped angle is exactly the computed `2π` (C77_raan_two_pi). In binary32 `true_anomaly` and `argument_of_periapsis` can exceed the real `π`, since `float32(π) > π` | C77 |
| `ufunc0..5` differentiated at `alpha = 0` (either mode) | the parabolic branch does not contain `alpha`: the derivative with respect to `alpha` comes out as 0 | C62_ufunc_refuted, C72_ufunc_refuted, C78_ufunc_refuted, C79_ufunc_refuted |
| third derivative of `solve_kepler_elps` at `M = 0` | one Newton step is made whatever the tolerance and limit: `d³E/dM³` comes out as `-e (1 - 3e⁶ + 2e⁹)/(1-e)⁴` instead of `-e/(1-e)⁴` (at `e = 0.9` 5.5 times too small); first and second derivatives are right | C78_elps_third_refuted |
| `solve_kepler_hypb` differentiated at `N = 0` | `dH/dN` comes out as `2/e` instead of `1/(e-1)`, for every tolerance and limit | C63_hypb_refuted |
| `kepler` differentiated with respect to time | on an interval of times around 0 no step is made and the derivative of the position comes out as `\|alpha\| \|r\|` times the velocity | C63_kepler_near_zero_refuted |
| `kepler` differentiated with respect to time, after a step | on every ellipse with `e = 7/10`, `a ≥ 1` there are a state and a time at which one Newton step lands on the root, the returned state is exact, and the derivatives come out as at least 7/5 of velocity and acceleration; on every non-circular ellipse the same with a factor of at least `1 + e³/10` | C63_kepler_ellipse_refuted, C63_kepler_every_ellipse_refuted |
| `alpha = 1 / semimajor_axis` and `dxdx0` differentiated with respect to the state at a parabola | value finite, derivative NaN: `1/(1/0)` is differentiated; both are smooth there. `kepler` is spared, since its parabolic branch does not contain `alpha` | C64_alpha_refuted, C64_dxdx0_parabola_refuted; in reverse mode C82_alpha_refuted, C82_dxdx0_parabola_refuted |
| `rv2coe` differentiated | NaN: `e` on circular orbits, `i` and node on equatorial ones (also along perturbations that keep them so), argument of periapsis and true anomaly when they are 0 or pi | C64_rv2coe, C82_rv2coe |
| `semipara_from_ae`, `a_from_pe` | `1 - e**2` cancels: in binary32 at `e = 1 - 2896·2^-24` the relative error is more than 1400 roundings (`(1-e)*(1+e)` would give 3) | C67_one_sub_sq_loses |
| `inclination` | `arccos` next to 1: in binary32 every tilt up to `2^-13` rad (25") about the x axis comes out as exactly 0 | C67_inclination_lost |
| `inclination` | NaN for a rectilinear state (`h = 0`) | C48_inclination |
| gravity in binary32, SI units | exactly zero: `j3_acc`, `j4_acc` everywhere beyond 1000 km (the tests `test_earth_j3`, `test_earth_j4` compare zero with zero), `j2_acc` beyond 54 000 km, point mass beyond 50 AU; `j4_acc` around Jupiter is NaN | C69 |
| gravity in binary32 near the centre | `r**7` (`r**5`, `r**3`) underflows to zero: every component of `j3_acc` and `j4_acc` is infinite or NaN for `\|r\| <= 2^-22` (35 km in AU), of `j2_acc` for `\|r\| <= 2^-31` | C83_j3_j4_lost, C83_j2_mu_lost, C83_asteroid |
| `solve_kepler_hypb` in floating point, `N < 0` | `log(2N/e + sqrt((2N/e)² + 1))` cancels to `log 0`: returns `-inf` for `2\|N\|/e ≥ 5810` (binary32), `1.35e8` (binary64) | C69_hypb_bin32, C69_hypb_bin64 |
| `kepler` in floating point on hyperbolas | the starting value makes `sinh`, `cosh` overflow: NaN from mean anomaly 93 (binary32), 730 (binary64) on | C69_kepler_bin32, C69_kepler_bin64 |
| `orb_period` in binary32 | `a**3` overflows: `+inf` for `a ≥ 7.4e12` (49.5 AU in metres) | C69_orb_period_inf |
| integer arrays | `a**3`, `orbperiod**2`, `h_mag**2`, cross and dot products wrap modulo 2³²: NaN period of a 7000 km orbit, negative semimajor axis for a sidereal day, reversed `is_short_way` | C70_orb_period_leo, C70_a_from_period_geo, C70_semiparameter_neg, C70_is_short_way_wrong |
| `ufunc0`, `ufunc1` at an integer `chi` | `TypeError`: the branches of `lax.cond` have different dtypes | C70_ufunc_int_error |
| NaN inputs | `solve_kepler_uni` with NaN `r0` or `sigma0` returns its starting value; `kepler_equ_uni` with NaN `alpha` returns the residual of a parabola; `pass_perigee` answers True, `rp_islower_rmin` False | C71_solve_uni_swallowed, C71_kepler_equ_uni_alpha, C71_path_check |
| default step-size control | the error norm is taken component by component: the same step can be kept in one frame and rejected in a turned one | C74_pid_refuted |
