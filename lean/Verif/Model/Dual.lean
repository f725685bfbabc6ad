import Verif.Num

/-! # Model of JAX's forward-mode differentiation (`jax.jvp`, `jax.jacfwd`)

External code (JAX). A traced value carries its value and a tangent; every primitive propagates tangents by
its own rule (`jax/_src/lax/lax.py`, the `ad.defjvp` lines; `jax/_src/interpreters/ad.py`, `JVPTrace`). A constant
has a *symbolic* zero tangent (`ad.Zero`, here `none`) that is dropped instead of multiplied, so a constant never
produces `0 * inf`. Comparisons, `lax.cond`, `lax.while_loop` conditions and `jnp.where` look at values only: the
tangent of the branch taken (of the loop iterations made) is what comes out, which is what evaluating the same
generic definition on `Dual α` does.

`x.item()` of a traced value (`array_methods._item`, `core.concrete_or_error`, `JVPTracer.to_concrete_value`) is the
Python number of the primal: the tangent is dropped without an error. (Under `jit` or `vmap` there is no number and it
raises `ConcretizationTypeError`; not modelled.)

Since every model definition is generic over its arithmetic, `f` at type `Dual α` is the model of `jax.jvp(f)`.
Simplifications: `jnp.arccos` by `-g / sqrt(1 - x**2)` in one rule. Reverse mode
(`jax.grad`, `jax.jacrev`) is in `Model/Rev`. -/

namespace Adx

/-- A value and its tangent; `none` is the symbolic zero. -/
@[ext] structure Dual (α : Type) where
  /-- the value -/
  val : α
  /-- the tangent -/
  tan : Option α

namespace Dual
variable {α : Type}

/-- `ad.add_tangents` -/
def addTan [Add α] : Option α → Option α → Option α
  | some a, some b => some (a + b)
  | some a, none => some a
  | none, b => b

section
variable [Add α] [Sub α] [Neg α] [Mul α] [Div α] [Pow α ℕ] [NatCast α] [JFun α]

/-- `add_p`: both tangents -/
instance : Add (Dual α) := ⟨fun a b => ⟨a.val + b.val, addTan a.tan b.tan⟩⟩
/-- `sub_p`: `g` and `neg(g)` -/
instance : Sub (Dual α) := ⟨fun a b => ⟨a.val - b.val, addTan a.tan (b.tan.map fun g => -g)⟩⟩
/-- `neg_p` -/
instance : Neg (Dual α) := ⟨fun a => ⟨-a.val, a.tan.map fun g => -g⟩⟩
/-- `mul_p`: `mul(g, y)` and `mul(x, g)` -/
instance : Mul (Dual α) :=
  ⟨fun a b => ⟨a.val * b.val, addTan (a.tan.map fun g => g * b.val) (b.tan.map fun g => a.val * g)⟩⟩
/-- `div_p`: `div(g, y)` and `mul(mul(neg(g), x), integer_pow(y, -2))` -/
instance : Div (Dual α) :=
  ⟨fun a b => ⟨a.val / b.val,
    addTan (a.tan.map fun g => g / b.val) (b.tan.map fun g => -g * a.val * (ℓ 1 / b.val ^ 2))⟩⟩
/-- `integer_pow_p`: `mul(g, mul(n, x**(n-1)))`, zeros for `n = 0` -/
instance : Pow (Dual α) ℕ :=
  ⟨fun a n => ⟨a.val ^ n, a.tan.map fun g => if n = 0 then ℓ 0 else g * (Nat.cast n * a.val ^ (n - 1))⟩⟩
/-- a literal: a constant -/
instance : NatCast (Dual α) := ⟨fun n => ⟨n, none⟩⟩

/-- `lax.sign` (`0` and `nan` are returned as they are) -/
def sign (x : α) : α := if JFun.lt (ℓ 0) x then ℓ 1 else if JFun.lt x (ℓ 0) then -(ℓ 1) else x

/-- `_balanced_eq(x, maximum(x, y), y)`: the share of the first argument in the tangent of `maximum` -/
def share (x y : α) : α := if JFun.lt y x then ℓ 1 else if JFun.lt x y then ℓ 0 else ℓ 1 / ℓ 2

/-- The rules of the `jax.numpy` primitives. -/
instance : JFun (Dual α) where
  pi := ⟨JFun.pi, none⟩
  sqrt a := ⟨JFun.sqrt a.val, a.tan.map fun g => g * (ℓ 1 / ℓ 2 / JFun.sqrt a.val)⟩
  cbrt a := ⟨JFun.cbrt a.val, a.tan.map fun g => g * (ℓ 1 / ℓ 3 * (ℓ 1 / JFun.cbrt a.val ^ 2))⟩
  sin a := ⟨JFun.sin a.val, a.tan.map fun g => g * JFun.cos a.val⟩
  cos a := ⟨JFun.cos a.val, a.tan.map fun g => -(g * JFun.sin a.val)⟩
  sinh a := ⟨JFun.sinh a.val, a.tan.map fun g => g * JFun.cosh a.val⟩
  cosh a := ⟨JFun.cosh a.val, a.tan.map fun g => g * JFun.sinh a.val⟩
  log a := ⟨JFun.log a.val, a.tan.map fun g => g / a.val⟩
  arccos a := ⟨JFun.arccos a.val, a.tan.map fun g => g * -(ℓ 1 / JFun.sqrt (ℓ 1 - a.val ^ 2))⟩
  arctan2 a b := ⟨JFun.arctan2 a.val b.val,
    addTan (a.tan.map fun g => g * (b.val / (a.val ^ 2 + b.val ^ 2)))
      (b.tan.map fun g => g * -a.val / (a.val ^ 2 + b.val ^ 2))⟩
  abs a := ⟨JFun.abs a.val, a.tan.map fun g => g * sign a.val⟩
  maximum a b := ⟨JFun.maximum a.val b.val,
    addTan (a.tan.map fun g => g * share a.val b.val) (b.tan.map fun g => g * share b.val a.val)⟩
  floor a := ⟨JFun.floor a.val, none⟩
  onesLike a := ⟨JFun.onesLike a.val, none⟩
  item a := ⟨JFun.item a.val, none⟩
  lt a b := JFun.lt a.val b.val

end
end Dual
end Adx
