import Verif.Model.Cowell

/-! # Model of diffrax's explicit Runge–Kutta solvers

External code (`diffrax.AbstractERK`: `Tsit5`, the default of the Cowell propagators, and its relatives). Modelled:
the stages and the first-same-as-last reuse of the last stage; the coefficients are parameters.
A method that does not reuse its last stage is written with one more row, its weights.
Not verified against diffrax's source (the package is not available here).

Simplifications: the weighted sums are evaluated from left to right (diffrax uses `jnp.tensordot`); interpolation and error
estimate are arbitrary functions. -/

namespace Adx
variable {α : Type} [Add α] [Sub α] [Neg α] [Mul α] [Div α] [Pow α ℕ] [NatCast α] [JFun α]
variable {Y : Type} [Add Y] [SMul α Y]

/-- `ButcherTableau`: for each stage after the first its node and its coefficients. The last row are the weights of the
solution. -/
structure Tableau (α : Type) where
  /-- `zip(c, a_lower)` -/
  rows : List (α × List α)

/-- `y + sum_j h a_j k_j`. -/
def rkCombine (h : α) (y : Y) (row : List α) (ks : List Y) : Y :=
  (row.zip ks).foldl (fun acc p => acc + (h * p.1) • p.2) y

/-- The stages: `ks` are the derivatives found so far, `yl` the last stage's state, `kl` its derivative. -/
def rkStages (f : α → Y → Y) (t h : α) (y : Y) : List (α × List α) → List Y → Y → Y → Y × Y
  | [], _, yl, kl => (yl, kl)
  | p :: rest, ks, _, _ =>
    let yi := rkCombine h y p.2 ks
    let ki := f (t + p.1 * h) yi
    rkStages f t h y rest (ks ++ [ki]) yi ki

/-- The solver; its internal state is the derivative at the current state (`first_same_as_last`). -/
def rkSolver (tb : Tableau α) (interp : α → α → Y → Y → α → Y) (err : α → α → Y → Y → Y) : Solver α Y Y where
  init f t y := f t y
  step f t0 t1 y k :=
    let r := rkStages f t0 (t1 - t0) y tb.rows [k] y k
    (r.1, interp t0 t1 y r.1, err t0 t1 y r.1, r.2)

/-- The vector field of the docstrings, `jnp.concatenate([x[3:], acc(t, x, args)])`, on states `(r, v)`. -/
def secondOrder (acc : α → State α → Args α → Except PyErr (V3 α)) (t : α) (x : V3 α × V3 α) (args : Args α) :
    Except PyErr (V3 α × V3 α) := do
  let a ← acc t ⟨x.1, [x.2.x, x.2.y, x.2.z]⟩ args
  return (x.2, a)

/-- `acc += other(t, x, args)`. -/
def addAcc (acc other : α → State α → Args α → Except PyErr (V3 α)) (t : α) (x : State α) (args : Args α) :
    Except PyErr (V3 α) := do
  let a ← acc t x args
  let b ← other t x args
  return a + b

end Adx
