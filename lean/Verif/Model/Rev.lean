import Verif.Model.Dual

/-! # Model of JAX's reverse-mode differentiation (`jax.vjp`, `jax.grad`, `jax.jacrev`)

External code (JAX). `jax.vjp` linearises the function with the forward rules (`Model/Dual`) and transposes the linear part
(`jax/_src/interpreters/ad.py`, `backward_pass`). A traced value carries its value and its pullback: the map from a cotangent
to the cotangents of the inputs, indexed by `ι`. Each operation transposes the linear operations of its forward rule, in
reverse order; a constant has no pullback (`none`). Comparisons, `lax.cond` and `jnp.where` look at values only.

Simplification: the contributions along different paths are added at the inputs; `backward_pass` adds them at the first
common ancestor. In exact arithmetic that is the same number.
`lax.while_loop` has no reverse mode (`ValueError`), so the solvers and `kepler` cannot be differentiated this way. -/

namespace Adx

/-- A value and its pullback; `none` for a constant. -/
structure Rev (ι α : Type) where
  /-- the value -/
  val : α
  /-- the pullback -/
  adj : Option (α → ι → α)

namespace Rev
variable {ι α : Type}

section
variable [Add α] [Sub α] [Neg α] [Mul α] [Div α] [Pow α ℕ] [NatCast α] [JFun α]

/-- Sum of the contributions of two operands. -/
def addAdj : Option (α → ι → α) → Option (α → ι → α) → Option (α → ι → α)
  | some a, some b => some fun ct i => a ct i + b ct i
  | some a, none => some a
  | none, b => b

/-- Contribution of one operand: transform the cotangent, then pull back. -/
def pre (a : Rev ι α) (f : α → α) : Option (α → ι → α) := a.adj.map fun b ct => b (f ct)

/-- `add_p` -/
instance : Add (Rev ι α) := ⟨fun a b => ⟨a.val + b.val, addAdj a.adj b.adj⟩⟩
/-- `sub_p` -/
instance : Sub (Rev ι α) := ⟨fun a b => ⟨a.val - b.val, addAdj a.adj (b.pre fun ct => -ct)⟩⟩
/-- `neg_p` -/
instance : Neg (Rev ι α) := ⟨fun a => ⟨-a.val, a.pre fun ct => -ct⟩⟩
/-- `mul_p` -/
instance : Mul (Rev ι α) :=
  ⟨fun a b => ⟨a.val * b.val, addAdj (a.pre fun ct => ct * b.val) (b.pre fun ct => a.val * ct)⟩⟩
/-- `div_p`: the transpose of `mul(mul(neg(g), x), integer_pow(y, -2))` -/
instance : Div (Rev ι α) :=
  ⟨fun a b => ⟨a.val / b.val,
    addAdj (a.pre fun ct => ct / b.val) (b.pre fun ct => -(ct * (ℓ 1 / b.val ^ 2) * a.val))⟩⟩
/-- `integer_pow_p` -/
instance : Pow (Rev ι α) ℕ :=
  ⟨fun a n => ⟨a.val ^ n, a.pre fun ct => if n = 0 then ℓ 0 else ct * (Nat.cast n * a.val ^ (n - 1))⟩⟩
/-- a literal -/
instance : NatCast (Rev ι α) := ⟨fun n => ⟨n, none⟩⟩

/-- The rules of the `jax.numpy` primitives. -/
instance : JFun (Rev ι α) where
  pi := ⟨JFun.pi, none⟩
  sqrt a := ⟨JFun.sqrt a.val, a.pre fun ct => ct * (ℓ 1 / ℓ 2 / JFun.sqrt a.val)⟩
  cbrt a := ⟨JFun.cbrt a.val, a.pre fun ct => ct * (ℓ 1 / ℓ 3 * (ℓ 1 / JFun.cbrt a.val ^ 2))⟩
  sin a := ⟨JFun.sin a.val, a.pre fun ct => ct * JFun.cos a.val⟩
  cos a := ⟨JFun.cos a.val, a.pre fun ct => -ct * JFun.sin a.val⟩
  sinh a := ⟨JFun.sinh a.val, a.pre fun ct => ct * JFun.cosh a.val⟩
  cosh a := ⟨JFun.cosh a.val, a.pre fun ct => ct * JFun.sinh a.val⟩
  log a := ⟨JFun.log a.val, a.pre fun ct => ct / a.val⟩
  arccos a := ⟨JFun.arccos a.val, a.pre fun ct => ct * -(ℓ 1 / JFun.sqrt (ℓ 1 - a.val ^ 2))⟩
  arctan2 a b := ⟨JFun.arctan2 a.val b.val,
    addAdj (a.pre fun ct => ct * (b.val / (a.val ^ 2 + b.val ^ 2)))
      (b.pre fun ct => ct / (a.val ^ 2 + b.val ^ 2) * -a.val)⟩
  abs a := ⟨JFun.abs a.val, a.pre fun ct => ct * Dual.sign a.val⟩
  maximum a b := ⟨JFun.maximum a.val b.val,
    addAdj (a.pre fun ct => ct * Dual.share a.val b.val) (b.pre fun ct => ct * Dual.share b.val a.val)⟩
  floor a := ⟨JFun.floor a.val, none⟩
  onesLike a := ⟨JFun.onesLike a.val, none⟩
  item a := ⟨JFun.item a.val, none⟩
  lt a b := JFun.lt a.val b.val

end

/-- Input number `i`: its pullback puts the cotangent in place `i`. -/
def input [DecidableEq ι] [NatCast α] (x : ι → α) (i : ι) : Rev ι α :=
  ⟨x i, some fun ct j => if j = i then ct else ℓ 0⟩

/-- A constant. -/
def const (c : α) : Rev ι α := ⟨c, none⟩

/-- `jax.grad`: the pullback of `1`; zeros for a constant. -/
def grad [NatCast α] (r : Rev ι α) (i : ι) : α := match r.adj with
  | some b => b (ℓ 1) i
  | none => ℓ 0

end Rev
end Adx
