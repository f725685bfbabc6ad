import Verif.Vec

/-! # Model of `src/astrodynx/twobody/_uniformulas.py`

`jax.lax.cond(p, f, g)` with `p` a scalar boolean is `if p then f else g`. Each `ufuncN` tests
`alpha > 0` first and `alpha < 0` second, so `alpha = 0` (and a NaN `alpha`) takes the last branch. -/

namespace Adx
variable {α : Type} [Add α] [Sub α] [Neg α] [Mul α] [Div α] [Pow α ℕ] [NatCast α] [JFun α]

/-- `sigma_fn`, _uniformulas.py:50: `jnp.sum(pos_vec * vel_vec) / jnp.sqrt(mu)`.
Simplification: the code keeps a trailing axis of length one (`keepdims=True`), see `Model/NDVec`. -/
def sigma_fn (pos_vec vel_vec : V3 α) (mu : α := ℓ 1) : α :=
  V3.dot pos_vec vel_vec / JFun.sqrt mu

/-- `ufunc0`, _uniformulas.py:94-102. -/
def ufunc0 (chi alpha : α) : α :=
  if JFun.lt (ℓ 0) alpha then JFun.cos (JFun.sqrt alpha * chi)
  else if JFun.lt alpha (ℓ 0) then JFun.cosh (JFun.sqrt (-alpha) * chi)
  else JFun.onesLike chi

/-- `ufunc1`, _uniformulas.py:146-154. -/
def ufunc1 (chi alpha : α) : α :=
  if JFun.lt (ℓ 0) alpha then JFun.sin (JFun.sqrt alpha * chi) / JFun.sqrt alpha
  else if JFun.lt alpha (ℓ 0) then JFun.sinh (JFun.sqrt (-alpha) * chi) / JFun.sqrt (-alpha)
  else chi

/-- `ufunc2`, _uniformulas.py:198-206. -/
def ufunc2 (chi alpha : α) : α :=
  if JFun.lt (ℓ 0) alpha then (ℓ 1 - JFun.cos (JFun.sqrt alpha * chi)) / alpha
  else if JFun.lt alpha (ℓ 0) then (JFun.cosh (JFun.sqrt (-alpha) * chi) - ℓ 1) / -alpha
  else chi ^ 2 / ℓ 2

/-- `ufunc3`, _uniformulas.py:250-262. -/
def ufunc3 (chi alpha : α) : α :=
  if JFun.lt (ℓ 0) alpha then
    (JFun.sqrt alpha * chi - JFun.sin (JFun.sqrt alpha * chi)) / alpha / JFun.sqrt alpha
  else if JFun.lt alpha (ℓ 0) then
    (JFun.sqrt (-alpha) * chi - JFun.sinh (JFun.sqrt (-alpha) * chi)) / alpha / JFun.sqrt (-alpha)
  else chi ^ 3 / ℓ 6

/-- `ufunc4`, _uniformulas.py:306-316. -/
def ufunc4 (chi alpha : α) : α :=
  if JFun.lt (ℓ 0) alpha then
    (alpha * chi ^ 2 - ℓ 2 + ℓ 2 * JFun.cos (JFun.sqrt alpha * chi)) / (ℓ 2 * alpha ^ 2)
  else if JFun.lt alpha (ℓ 0) then
    (alpha * chi ^ 2 - ℓ 2 + ℓ 2 * JFun.cosh (JFun.sqrt (-alpha) * chi)) / (ℓ 2 * alpha ^ 2)
  else chi ^ 4 / ℓ 24

/-- `ufunc5`, _uniformulas.py:360-378. -/
def ufunc5 (chi alpha : α) : α :=
  if JFun.lt (ℓ 0) alpha then
    (alpha ^ 2 * chi ^ 3 - ℓ 6 * alpha * chi
      + ℓ 6 * JFun.sqrt alpha * JFun.sin (JFun.sqrt alpha * chi)) / (ℓ 6 * alpha ^ 3)
  else if JFun.lt alpha (ℓ 0) then
    (alpha ^ 2 * chi ^ 3 - ℓ 6 * alpha * chi
      - ℓ 6 * JFun.sqrt (-alpha) * JFun.sinh (JFun.sqrt (-alpha) * chi)) / (ℓ 6 * alpha ^ 3)
  else chi ^ 5 / ℓ 120

end Adx
