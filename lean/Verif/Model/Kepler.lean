import Verif.Model.KepEqu
import Verif.Model.Lagrange

/-! # Model of `src/astrodynx/prop/_kepler.py` -/

namespace Adx
variable {α : Type} [Add α] [Sub α] [Neg α] [Mul α] [Div α] [Pow α ℕ] [NatCast α] [JFun α]

/-- `_lagrange_prop`, _kepler.py:46: `F * r0_vec + G * v0_vec, Ft * r0_vec + Gt * v0_vec`. -/
def lagrange_prop (F G Ft Gt : α) (r0_vec v0_vec : V3 α) : V3 α × V3 α :=
  (F • r0_vec + G • v0_vec, Ft • r0_vec + Gt • v0_vec)

/-- The part of `kepler` after the root search for one entry `chi`, _kepler.py:102-122. The code
does this for the whole array `chi` at once, every operation acting entry by entry. -/
def keplerStep (chi alpha r0 sigma0 : α) (r0_vec v0_vec : V3 α) (mu : α) : V3 α × V3 α :=
  let F := lagrange_F (ufunc2 chi alpha) r0
  let G := lagrange_G (ufunc1 chi alpha) (ufunc2 chi alpha) sigma0 r0 mu
  let r := equ_of_orb_uvi (ufunc0 chi alpha) (ufunc1 chi alpha) (ufunc2 chi alpha) r0 sigma0
  let Ft := lagrange_Ft (ufunc1 chi alpha) r r0 mu
  let Gt := lagrange_Gt (ufunc2 chi alpha) r
  lagrange_prop F G Ft Gt r0_vec v0_vec

/-- `jax.vmap(solve_kepler_uni, in_axes=(0, None, None, None, None))(ts, ...)`, _kepler.py:99-101,
with JAX's batching rule for the loop: one lane per entry of `ts`. A lane carries its own time
because the batched condition and body close over it. Defaults `tol=1e-6`, `max_iter=50`. -/
def vmapSolve (ts : List α) (alpha r0 sigma0 mu : α) : Option (List α) :=
  (batchWhileLoop
    (fun s : α × Carry α => uniCond s.1 alpha r0 sigma0 mu defaultTol 50 s.2)
    (fun s => (s.1, uniBody s.1 alpha r0 sigma0 mu s.2))
    (ts.map fun t => (t, uniInit t alpha mu defaultTol))).map (List.map (·.2.2.1))

/-- `kepler`, _kepler.py:94-122; `ts` after `jnp.atleast_1d`. Returns the arrays of positions and
velocities, one row per time; `none` would be a loop that never returns. -/
def kepler (ts : List α) (r0_vec v0_vec : V3 α) (mu : α := ℓ 1) : Option (List (V3 α) × List (V3 α)) :=
  let r0 := V3.norm r0_vec
  let v0 := V3.norm v0_vec
  let alpha := ℓ 1 / semimajor_axis r0 v0 mu
  let sigma0 := sigma_fn r0_vec v0_vec mu
  (vmapSolve ts (JFun.item alpha) (JFun.item r0) (JFun.item sigma0) mu).map fun chis =>
    (chis.map fun chi => (keplerStep chi alpha r0 sigma0 r0_vec v0_vec mu).1,
     chis.map fun chi => (keplerStep chi alpha r0 sigma0 r0_vec v0_vec mu).2)

end Adx
