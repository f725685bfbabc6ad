import Verif.Model.Gravity
import Verif.Model.While

/-! # Model of `src/astrodynx/prop/_cowell_method.py`

The five entry points only assemble a call of `diffrax.diffeqsolve` (external, `diffrax >= 0.7.0`).
The assembled calls are transcribed literally. `diffeqsolve` itself is modelled by the contract below,
**assumed**, not verified against diffrax's source (the package is not available here):

* the solver (`Tsit5()` or any other) and the step-size controller (`PIDController`, or any other) are
  arbitrary functions with arbitrary internal state;
* one iteration of the loop makes one solver step from `tprev` to `tnext`, asks the controller whether
  to keep it and for the next interval, clips the next interval to the end time
  (`diffrax._integrate._clip_to_end`), and, only if the step is kept, advances the state, saves, and
  evaluates the event;
* the loop runs while `tprev < t1`, no event has occurred and fewer than `max_steps` iterations were
  made; if it ends at the iteration limit, `diffeqsolve` raises (`throw=True`);
* a float-valued event fires at a kept step where the sign of `cond_fn` differs from its sign at the
  previous kept step; without a root finder the run ends at the end of that step (the code never passes
  a root finder);
* exceptions of `terms` and `cond_fn` (missing keys) are raised when they are traced, before stepping.

Simplifications: forward integration only (`Model/CowellBack.lean` adds the negation of the time axis by
which diffrax handles a negative `t1`); `ts`/`ys` hold the entries actually written, without the padding by
infinities up to `max_steps + 1`; controller failures (`dtmin`) and solver failures are not modelled;
NaN event values are not treated specially; `dense=True` output is not modelled. -/

namespace Adx
variable {α : Type} [Add α] [Sub α] [Neg α] [Mul α] [Div α] [Pow α ℕ] [NatCast α] [JFun α]

/-- How `diffeqsolve` can fail. -/
inductive DiffErr where
  /-- an exception of the user's functions -/
  | py (e : PyErr)
  /-- `RESULTS.max_steps_reached` with `throw=True` -/
  | maxSteps
  /-- `saveat.ts` is not increasing or leaves `[t0, t1]` -/
  | badTs
  /-- `ConstantStepSize` without `dt0` -/
  | noDt0
  /-- `saveat.steps` with `max_steps=None` -/
  | stepsUnbounded
  /-- `dt0` points away from `t1` (only raised in `Model/CowellBack.lean`) -/
  | badDt0
  deriving DecidableEq, Repr

/-- A solver with internal state `σ`: a step gives the new state, an interpolation over the step, an
error estimate and the new internal state. -/
structure Solver (α Y σ : Type) where
  /-- initial internal state -/
  init : (α → Y → Y) → α → Y → σ
  /-- one step from `t0` to `t1` -/
  step : (α → Y → Y) → α → α → Y → σ → Y × (α → Y) × Y × σ

/-- A step-size controller with internal state `γ`: `init t0 t1 y0 dt0` gives the end of the first
step, `adapt t0 t1 y0 y1 err` whether to keep the step and the next interval. -/
structure Controller (α Y γ : Type) where
  /-- the end of the first step -/
  init : (α → Y → Y) → α → α → Y → Option α → Except DiffErr (α × γ)
  /-- accept or reject, and the next interval -/
  adapt : α → α → Y → Y → Y → γ → Bool × α × α × γ

/-- `diffrax.ConstantStepSize()`: keeps every step, each of length `dt0`. -/
def constantStepSize {Y : Type} : Controller α Y α where
  init _ t0 _ _ dt0 := match dt0 with
    | some h => .ok (t0 + h, h)
    | none => .error .noDt0
  adapt _ t1 _ _ _ h := (true, t1, t1 + h, h)

/-- `diffrax.SaveAt` (for `SaveAt(subs=SubSaveAt(t1=True))` the same flags). -/
structure SaveAt (α : Type) where
  /-- save the initial state -/
  t0 : Bool := false
  /-- save the final state -/
  t1 : Bool := false
  /-- save at these times -/
  ts : List α := []
  /-- save every kept step -/
  steps : Bool := false

/-- `diffrax.Event(cond_fn)` without direction and root finder. -/
abbrev Event (α Y : Type) := α → Y → Args α → Except PyErr α

/-- The arguments of `diffeqsolve`. -/
structure Call (α Y σ γ : Type) where
  /-- the vector field of the `ODETerm` -/
  terms : α → Y → Args α → Except PyErr Y
  /-- the solver -/
  solver : Solver α Y σ
  /-- initial time -/
  t0 : α
  /-- final time -/
  t1 : α
  /-- initial step size -/
  dt0 : Option α
  /-- initial state -/
  y0 : Y
  /-- the static arguments -/
  args : Args α
  /-- `none` is Python's `None` -/
  max_steps : Option ℕ
  /-- the step-size controller -/
  stepsize_controller : Controller α Y γ
  /-- what to save -/
  saveat : SaveAt α
  /-- the event -/
  event : Option (Event α Y)

/-- The part of the loop state that does not depend on what is saved. -/
structure Core (α Y σ γ : Type) where
  /-- start of the next step = time of `y` -/
  tprev : α
  /-- end of the next step -/
  tnext : α
  /-- the current state -/
  y : Y
  /-- internal state of the solver -/
  solver : σ
  /-- internal state of the controller -/
  ctrl : γ
  /-- iterations made -/
  num_steps : ℕ
  /-- value of the event function at `y` -/
  event_value : α
  /-- whether an event has occurred -/
  event : Bool
  /-- whether the last iteration kept its step -/
  kept : Bool
  /-- interpolation over the last step -/
  interp : α → Y

/-- `jnp.sign`. -/
def sgn (x : α) : ℤ := if JFun.lt (ℓ 0) x then 1 else if JFun.lt x (ℓ 0) then -1 else 0

/-- `jnp.minimum`. -/
def jmin (a b : α) : α := if JFun.lt a b then a else b

/-- `diffrax._integrate._clip_to_end(tprev, tnext, t1, keep_step)`; `ctol` is the fixed tolerance of
the float type (`1e-6` for float32, `1e-10` for float64). -/
def clipToEnd (ctol tprev tnext t1 : α) (keep : Bool) : α :=
  if JFun.lt (t1 - ctol) tnext then
    if keep then t1 else tprev + ℓ 1 / ℓ 2 * (t1 - tprev)
  else tnext

variable {Y σ γ : Type}

/-- The value of the event function at `(t, y)`; `old` if there is no event. -/
def evalEvent (g : Option (α → Y → α)) (old t : α) (y : Y) : α :=
  match g with
  | some g => g t y
  | none => old

/-- One iteration of the loop, without saving. -/
def coreStep (ctol : α) (c : Call α Y σ γ) (f : α → Y → Y) (g : Option (α → Y → α))
    (s : Core α Y σ γ) : Core α Y σ γ :=
  let r := c.solver.step f s.tprev s.tnext s.y s.solver
  let a := c.stepsize_controller.adapt s.tprev s.tnext s.y r.1 r.2.2.1 s.ctrl
  let tprev := jmin a.2.1 c.t1
  let tnext := clipToEnd ctol tprev a.2.2.1 c.t1 a.1
  if a.1 then
    let ev := evalEvent g s.event_value tprev r.1
    { tprev, tnext, y := r.1, solver := r.2.2.2, ctrl := a.2.2.2, num_steps := s.num_steps + 1,
      event_value := ev, event := g.isSome && decide (sgn ev ≠ sgn s.event_value), kept := true,
      interp := r.2.1 }
  else
    { s with tprev, tnext, ctrl := a.2.2.2, num_steps := s.num_steps + 1, kept := false }

/-- The saving part of the loop state: the entries written, and the requested times not yet reached. -/
abbrev Save (α Y : Type) := List (α × Y) × List α

/-- What one iteration writes, given the state after it. -/
def saveStep (sa : SaveAt α) (s : Core α Y σ γ) (w : Save α Y) : Save α Y :=
  if s.kept then
    let due := w.2.takeWhile fun t => !JFun.lt s.tprev t
    (w.1 ++ due.map (fun t => (t, s.interp t)) ++ (if sa.steps then [(s.tprev, s.y)] else []),
      w.2.dropWhile fun t => !JFun.lt s.tprev t)
  else w

/-- The loop condition without the iteration limit. -/
def running (t1 : α) (s : Core α Y σ γ) : Bool := JFun.lt s.tprev t1 && !s.event

/-- The loop condition. -/
def loopCond (t1 : α) (max_steps : Option ℕ) (s : Core α Y σ γ) : Bool :=
  running t1 s && (match max_steps with
    | some m => decide (s.num_steps < m)
    | none => true)

/-- `diffrax.Solution`: the entries `(ts[i], ys[i])`, whether the run ended by an event, and the number
of iterations. -/
structure Sol (α Y : Type) where
  /-- `zip(ts, ys)` -/
  saved : List (α × Y)
  /-- `result == RESULTS.event_occurred` -/
  event : Bool
  /-- `stats["num_steps"]` -/
  num_steps : ℕ

/-- `saveat.ts` must be increasing and lie between `t0` and `t1`. -/
def tsOk (t0 t1 : α) (ts : List α) : Bool :=
  ts.all (fun t => !JFun.lt t t0 && !JFun.lt t1 t) && (ts.zip ts.tail).all fun p => !JFun.lt p.2 p.1

/-- The state before the first iteration. -/
def coreInit (c : Call α Y σ γ) (f : α → Y → Y) (g : Option (α → Y → α)) (first : α × γ) :
    Core α Y σ γ :=
  { tprev := c.t0, tnext := jmin first.1 c.t1, y := c.y0, solver := c.solver.init f c.t0 c.y0,
    ctrl := first.2, num_steps := 0,
    event_value := evalEvent g (ℓ 0) c.t0 c.y0, event := false, kept := false, interp := fun _ => c.y0 }

/-- The loop together with the final save. -/
def diffeqLoop (ctol : α) (c : Call α Y σ γ) (f : α → Y → Y) (g : Option (α → Y → α)) (first : α × γ) :
    Option (Except DiffErr (Sol α Y)) :=
  (whileLoop (fun s => loopCond c.t1 c.max_steps s.1)
    (fun s => let s' := coreStep ctol c f g s.1
              (s', saveStep c.saveat s' s.2))
    (coreInit c f g first, (if c.saveat.t0 then [(c.t0, c.y0)] else [], c.saveat.ts))).map fun s =>
      if running c.t1 s.1 then .error .maxSteps
      else .ok { saved := s.2.1 ++ (if c.saveat.t1 then [(s.1.tprev, s.1.y)] else []),
                 event := s.1.event, num_steps := s.1.num_steps }

/-- Tracing of the vector field: its exceptions, or the function of time and state it computes. -/
def traceTerms (c : Call α Y σ γ) : Except PyErr (α → Y → Y) := do
  let d ← c.terms c.t0 c.y0 c.args
  return fun t y => match c.terms t y c.args with
    | .ok v => v
    | .error _ => d

/-- Tracing of the event function. -/
def traceEvent (c : Call α Y σ γ) : Except PyErr (Option (α → Y → α)) :=
  match c.event with
  | none => .ok none
  | some e => do
    let d ← e c.t0 c.y0 c.args
    return some fun t y => match e t y c.args with
      | .ok v => v
      | .error _ => d

/-- `diffrax.diffeqsolve`; `none` = does not return (only possible with `max_steps=None`). -/
def diffeqsolve (ctol : α) (c : Call α Y σ γ) : Option (Except DiffErr (Sol α Y)) :=
  if c.saveat.steps && c.max_steps.isNone then some (.error .stepsUnbounded)
  else if !tsOk c.t0 c.t1 c.saveat.ts then some (.error .badTs)
  else match traceTerms c with
    | .error e => some (.error (.py e))
    | .ok f => match traceEvent c with
      | .error e => some (.error (.py e))
      | .ok g => match c.stepsize_controller.init f c.t0 c.t1 c.y0 c.dt0 with
        | .error e => some (.error e)
        | .ok first => diffeqLoop ctol c f g first

/-- The default `args={"mu": 1.0}`. -/
def defaultArgs : Args α := fun k => if k = "mu" then some (ℓ 1) else none

/-- `OrbDynx`, _cowell_method.py:8-62. -/
structure OrbDynx (α Y : Type) [NatCast α] where
  /-- the vector field -/
  terms : α → Y → Args α → Except PyErr Y
  /-- static arguments -/
  args : Args α := defaultArgs
  /-- the event, if any -/
  event : Option (Event α Y) := none

/-- The call made by `cowell_method`, _cowell_method.py:133-145. -/
def cowellCall (o : OrbDynx α Y) (x0 : Y) (t1 : α) (saveat : SaveAt α) (dt0 : Option α)
    (max_steps : Option ℕ) (solver : Solver α Y σ) (ctrl : Controller α Y γ) : Call α Y σ γ :=
  { terms := o.terms, solver := solver, t0 := ℓ 0, t1 := t1, dt0 := dt0, y0 := x0, args := o.args,
    max_steps := max_steps, stepsize_controller := ctrl, saveat := saveat, event := o.event }

/-- The call made by `fixed_steps`, _cowell_method.py:211-223. -/
def fixedCall (o : OrbDynx α Y) (x0 : Y) (t1 dt : α) (max_steps : Option ℕ) (solver : Solver α Y σ) :
    Call α Y σ α :=
  { terms := o.terms, solver := solver, t0 := ℓ 0, t1 := t1, dt0 := some dt, y0 := x0, args := o.args,
    max_steps := max_steps, stepsize_controller := constantStepSize,
    saveat := { t0 := true, steps := true }, event := o.event }

/-- The call made by `adaptive_steps`, _cowell_method.py:312-324. -/
def adaptiveCall (o : OrbDynx α Y) (x0 : Y) (t1 : α) (max_steps : Option ℕ) (solver : Solver α Y σ)
    (ctrl : Controller α Y γ) : Call α Y σ γ :=
  { terms := o.terms, solver := solver, t0 := ℓ 0, t1 := t1, dt0 := none, y0 := x0, args := o.args,
    max_steps := max_steps, stepsize_controller := ctrl,
    saveat := { t0 := true, steps := true }, event := o.event }

/-- The call made by `custom_steps`, _cowell_method.py:396-408. -/
def customCall (o : OrbDynx α Y) (x0 : Y) (t1 : α) (ts : List α) (solver : Solver α Y σ)
    (ctrl : Controller α Y γ) : Call α Y σ γ :=
  { terms := o.terms, solver := solver, t0 := ℓ 0, t1 := t1, dt0 := none, y0 := x0, args := o.args,
    max_steps := none, stepsize_controller := ctrl, saveat := { ts := ts }, event := o.event }

/-- The call made by `to_final`, _cowell_method.py:477-489. -/
def finalCall (o : OrbDynx α Y) (x0 : Y) (t1 : α) (solver : Solver α Y σ) (ctrl : Controller α Y γ) :
    Call α Y σ γ :=
  { terms := o.terms, solver := solver, t0 := ℓ 0, t1 := t1, dt0 := none, y0 := x0, args := o.args,
    max_steps := some 4096, stepsize_controller := ctrl, saveat := { t1 := true }, event := o.event }

/-- `cowell_method`, _cowell_method.py:65-145. The defaults `Tsit5()` and `PIDController` are left to
the caller. -/
def cowell_method (ctol : α) (o : OrbDynx α Y) (x0 : Y) (t1 : α) (saveat : SaveAt α)
    (solver : Solver α Y σ) (ctrl : Controller α Y γ) (dt0 : Option α := none)
    (max_steps : Option ℕ := some 4096) : Option (Except DiffErr (Sol α Y)) :=
  diffeqsolve ctol (cowellCall o x0 t1 saveat dt0 max_steps solver ctrl)

/-- `fixed_steps`, _cowell_method.py:148-223. -/
def fixed_steps (ctol : α) (o : OrbDynx α Y) (x0 : Y) (t1 dt : α) (solver : Solver α Y σ)
    (max_steps : Option ℕ := some 4096) : Option (Except DiffErr (Sol α Y)) :=
  diffeqsolve ctol (fixedCall o x0 t1 dt max_steps solver)

/-- `adaptive_steps`, _cowell_method.py:226-324. -/
def adaptive_steps (ctol : α) (o : OrbDynx α Y) (x0 : Y) (t1 : α) (solver : Solver α Y σ)
    (ctrl : Controller α Y γ) (max_steps : Option ℕ := some 4096) : Option (Except DiffErr (Sol α Y)) :=
  diffeqsolve ctol (adaptiveCall o x0 t1 max_steps solver ctrl)

/-- `custom_steps`, _cowell_method.py:327-408. -/
def custom_steps (ctol : α) (o : OrbDynx α Y) (x0 : Y) (t1 : α) (ts : List α) (solver : Solver α Y σ)
    (ctrl : Controller α Y γ) : Option (Except DiffErr (Sol α Y)) :=
  diffeqsolve ctol (customCall o x0 t1 ts solver ctrl)

/-- `to_final`, _cowell_method.py:411-489. -/
def to_final (ctol : α) (o : OrbDynx α Y) (x0 : Y) (t1 : α) (solver : Solver α Y σ)
    (ctrl : Controller α Y γ) : Option (Except DiffErr (Sol α Y)) :=
  diffeqsolve ctol (finalCall o x0 t1 solver ctrl)

end Adx
