import Verif.Num
import Verif.Spec.Broadcast

/-! # Arrays with broadcasting

`jax.numpy` arrays of any shape: an array is a shape (a list of lengths, in NumPy order) and its
entries. `Arr α` is an array or the exception of a failed broadcast. The arithmetic classes are
instantiated at `Arr α`, so that the *same* model definitions (`orb_period`, …) read with `α := Arr β`
are the array versions of the functions: each `+ - * / **` broadcasts its two operands and each
`jnp` function acts entry by entry.
External code (jax.numpy), semantics assumed from the NumPy broadcasting rule.
Simplification: a multi-index numbers the axes from the last one. -/

namespace Adx
open Spec (dimR)

/-- An array: shape and entries. -/
structure ND (α : Type) where
  /-- lengths of the axes -/
  shape : List ℕ
  /-- the entry at a multi-index, axes numbered from the last -/
  get : (ℕ → ℕ) → α

/-- The exceptions of array functions (`TypeError`, `ValueError`, `IndexError` in JAX). -/
inductive BErr where
  /-- shapes that do not broadcast -/
  | incompatible
  /-- an axis of the wrong length (or none), or operands of `jnp.stack` of different shapes -/
  | badShape

/-- One axis: equal lengths, or one of them 1. -/
def bdim (a b : ℕ) : Option ℕ := if a = b then some a else if a = 1 then some b else if b = 1 then some a else none

/-- Shapes with the last axis first. -/
def bshapeRev : List ℕ → List ℕ → Option (List ℕ)
  | [], ys => some ys
  | xs, [] => some xs
  | x :: xs, y :: ys => do
    let d ← bdim x y
    let ds ← bshapeRev xs ys
    return d :: ds

/-- `jnp.broadcast_shapes(s, t)`; `none` = raises. -/
def bshape (s t : List ℕ) : Option (List ℕ) := (bshapeRev s.reverse t.reverse).map List.reverse

/-- Index of an operand of shape `t` under an index of the broadcast result. -/
def opIdx (t : List ℕ) (idx : ℕ → ℕ) : ℕ → ℕ := fun k => if dimR t k = 1 then 0 else idx k

/-- An array or a broadcasting error. -/
abbrev Arr (α : Type) := Except BErr (ND α)

namespace Arr
variable {α β γ : Type}

/-- A binary elementwise operation with broadcasting. -/
def bin (f : α → β → γ) : Arr α → Arr β → Arr γ
  | .error e, _ => .error e
  | .ok _, .error e => .error e
  | .ok a, .ok b =>
    match bshape a.shape b.shape with
    | some s => .ok ⟨s, fun idx => f (a.get (opIdx a.shape idx)) (b.get (opIdx b.shape idx))⟩
    | none => .error .incompatible

/-- A unary elementwise operation. -/
def un (f : α → β) : Arr α → Arr β
  | .error e => .error e
  | .ok a => .ok ⟨a.shape, fun idx => f (a.get idx)⟩

/-- A scalar (shape `()`). -/
def scalar (a : α) : Arr α := .ok ⟨[], fun _ => a⟩

instance [Add α] : Add (Arr α) := ⟨bin (· + ·)⟩
instance [Sub α] : Sub (Arr α) := ⟨bin (· - ·)⟩
instance [Mul α] : Mul (Arr α) := ⟨bin (· * ·)⟩
instance [Div α] : Div (Arr α) := ⟨bin (· / ·)⟩
instance [Neg α] : Neg (Arr α) := ⟨un (- ·)⟩
instance [Pow α ℕ] : Pow (Arr α) ℕ := ⟨fun x n => un (· ^ n) x⟩
instance [NatCast α] : NatCast (Arr α) := ⟨fun n => scalar (n : α)⟩
/-- `lt` is the Python truth value of a comparison, which exists only for scalars (`lax.cond` takes a
scalar predicate); on anything else the code raises, which `Bool` cannot express, so no theorem is
stated about it. -/
instance [JFun α] : JFun (Arr α) where
  pi := scalar JFun.pi
  sqrt := un JFun.sqrt
  cbrt := un JFun.cbrt
  sin := un JFun.sin
  cos := un JFun.cos
  sinh := un JFun.sinh
  cosh := un JFun.cosh
  log := un JFun.log
  arccos := un JFun.arccos
  arctan2 := bin JFun.arctan2
  abs := un JFun.abs
  maximum := bin JFun.maximum
  floor := un JFun.floor
  onesLike := un JFun.onesLike
  item := un JFun.item
  lt x y := match x, y with
    | .ok ⟨[], f⟩, .ok ⟨[], g⟩ => JFun.lt (f fun _ => 0) (g fun _ => 0)
    | _, _ => false

end Arr
end Adx
