import Verif.Model.Cowell

/-! # Model of `src/astrodynx/prop/_cowell_method.py` for either sign of `t1`

The docstrings do not restrict the sign of the final time `t1`, and the code passes it on. `diffeqsolve` (external, not
verified against its source) refuses a `dt0` of the wrong sign, and handles `t1 < t0` by negating the time axis: initial and
final time, step, requested times and vector field are negated, the loop runs forward, and the saved times are negated back.

Simplification: the event function is given the original time (`radius_islow`, the only event of the library, ignores it). -/

namespace Adx
variable {α : Type} [Add α] [Sub α] [Neg α] [Mul α] [Div α] [Pow α ℕ] [NatCast α] [JFun α]
variable {Y σ γ : Type} [Neg Y]

/-- The call with the time axis negated. -/
def reverseCall (c : Call α Y σ γ) : Call α Y σ γ :=
  { c with
    terms := fun t y args => (c.terms (-t) y args).map fun v => -v
    t0 := -c.t0
    t1 := -c.t1
    dt0 := c.dt0.map fun h => -h
    saveat := { c.saveat with ts := c.saveat.ts.map fun t => -t }
    event := c.event.map fun e t y args => e (-t) y args }

omit [Neg Y] in
/-- The saved times negated back. -/
def Sol.negTimes (s : Sol α Y) : Sol α Y := { s with saved := s.saved.map fun p => (-p.1, p.2) }

/-- `diffrax.diffeqsolve` for either order of `t0` and `t1`. -/
def diffeqsolveDir (ctol : α) (c : Call α Y σ γ) : Option (Except DiffErr (Sol α Y)) :=
  if (match c.dt0 with
    | some h => JFun.lt ((c.t1 - c.t0) * h) (ℓ 0)
    | none => false) then some (.error .badDt0)
  else if JFun.lt c.t0 c.t1 then diffeqsolve ctol c
  else (diffeqsolve ctol (reverseCall c)).map (Except.map Sol.negTimes)

/-- `cowell_method`, _cowell_method.py:65-145, for any `t1`. -/
def cowell_method_any (ctol : α) (o : OrbDynx α Y) (x0 : Y) (t1 : α) (saveat : SaveAt α)
    (solver : Solver α Y σ) (ctrl : Controller α Y γ) (dt0 : Option α := none)
    (max_steps : Option ℕ := some 4096) : Option (Except DiffErr (Sol α Y)) :=
  diffeqsolveDir ctol (cowellCall o x0 t1 saveat dt0 max_steps solver ctrl)

/-- `fixed_steps`, _cowell_method.py:148-223, for any `t1`. -/
def fixed_steps_any (ctol : α) (o : OrbDynx α Y) (x0 : Y) (t1 dt : α) (solver : Solver α Y σ)
    (max_steps : Option ℕ := some 4096) : Option (Except DiffErr (Sol α Y)) :=
  diffeqsolveDir ctol (fixedCall o x0 t1 dt max_steps solver)

/-- `adaptive_steps`, _cowell_method.py:226-324, for any `t1`. -/
def adaptive_steps_any (ctol : α) (o : OrbDynx α Y) (x0 : Y) (t1 : α) (solver : Solver α Y σ)
    (ctrl : Controller α Y γ) (max_steps : Option ℕ := some 4096) : Option (Except DiffErr (Sol α Y)) :=
  diffeqsolveDir ctol (adaptiveCall o x0 t1 max_steps solver ctrl)

/-- `custom_steps`, _cowell_method.py:327-408, for any `t1`. -/
def custom_steps_any (ctol : α) (o : OrbDynx α Y) (x0 : Y) (t1 : α) (ts : List α) (solver : Solver α Y σ)
    (ctrl : Controller α Y γ) : Option (Except DiffErr (Sol α Y)) :=
  diffeqsolveDir ctol (customCall o x0 t1 ts solver ctrl)

/-- `to_final`, _cowell_method.py:411-489, for any `t1`. -/
def to_final_any (ctol : α) (o : OrbDynx α Y) (x0 : Y) (t1 : α) (solver : Solver α Y σ)
    (ctrl : Controller α Y γ) : Option (Except DiffErr (Sol α Y)) :=
  diffeqsolveDir ctol (finalCall o x0 t1 solver ctrl)

end Adx
