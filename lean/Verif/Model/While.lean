import Mathlib.Logic.Function.Iterate
import Mathlib.Data.List.Basic

/-! # Model of `jax.lax.while_loop` and of its batching rule

External code (JAX). Semantics assumed: `while_loop(cond, body, init)` applies `body` as long as
`cond` holds; a loop whose condition never becomes false does not return (`none` here). Under
`jax.vmap` with a batched condition, JAX runs the body on every lane while *any* lane's condition
holds, and keeps the old carry of the lanes whose own condition is false
(`jax._src.lax.control_flow.loops._while_loop_batching_rule`). -/

namespace Adx

/-- `jax.lax.while_loop(cond, body, init)`; `none` = does not terminate. -/
def whileLoop {σ : Type} (cond : σ → Bool) (body : σ → σ) (s : σ) : Option σ :=
  if cond s then whileLoop cond body (body s) else some s
partial_fixpoint

/-- The batched loop `jax.vmap(while_loop)`; one list entry per lane. -/
def batchWhileLoop {σ : Type} (cond : σ → Bool) (body : σ → σ) (ss : List σ) : Option (List σ) :=
  if ss.any cond then
    batchWhileLoop cond body (ss.map fun s => if cond s then body s else s)
  else some ss
partial_fixpoint

end Adx
