import Verif.Model.Dual

/-! # Nested forward mode (`jax.jacfwd(jax.jacfwd(f))`, `jax.jvp` of `jax.jvp`)

External code (JAX). An inner transformation traces values that the outer ones trace already: the rules of `Model/Dual` are
applied to numbers that carry tangents themselves. `DualN n` is `n`-fold forward mode over the reals; the type constructor
applied last is the innermost transformation. -/

namespace Adx

/-- `n`-fold traced numbers. -/
def DualN : ℕ → Type
  | 0 => ℝ
  | n + 1 => Dual (DualN n)

/-- The operations of an arithmetic, bundled. -/
structure Arith (α : Type) where
  /-- `+` -/
  add : Add α
  /-- `-` -/
  sub : Sub α
  /-- unary `-` -/
  neg : Neg α
  /-- `*` -/
  mul : Mul α
  /-- `/` -/
  div : Div α
  /-- `**` -/
  pow : Pow α ℕ
  /-- literals -/
  cast : NatCast α
  /-- `jax.numpy` -/
  fn : JFun α

/-- The arithmetic of `Dual α` from that of `α`. -/
@[reducible] def Arith.dual {α : Type} (A : Arith α) : Arith (Dual α) :=
  let _ := A.add; let _ := A.sub; let _ := A.neg; let _ := A.mul; let _ := A.div; let _ := A.pow; let _ := A.cast
  let _ := A.fn
  ⟨inferInstance, inferInstance, inferInstance, inferInstance, inferInstance, inferInstance, inferInstance, inferInstance⟩

namespace DualN

/-- The arithmetic of every level. -/
noncomputable def arith : (n : ℕ) → Arith (DualN n)
  | 0 => (⟨inferInstance, inferInstance, inferInstance, inferInstance, inferInstance, inferInstance, inferInstance,
      inferInstance⟩ : Arith ℝ)
  | n + 1 => (arith n).dual

variable {n : ℕ}
noncomputable instance : Add (DualN n) := (arith n).add
noncomputable instance : Sub (DualN n) := (arith n).sub
noncomputable instance : Neg (DualN n) := (arith n).neg
noncomputable instance : Mul (DualN n) := (arith n).mul
noncomputable instance : Div (DualN n) := (arith n).div
noncomputable instance : Pow (DualN n) ℕ := (arith n).pow
noncomputable instance : NatCast (DualN n) := (arith n).cast
noncomputable instance : JFun (DualN n) := (arith n).fn

/-- A constant: no tangents at any level. -/
def const : (n : ℕ) → ℝ → DualN n
  | 0, c => c
  | n + 1, c => (⟨const n c, none⟩ : Dual (DualN n))

/-- An input with value `c` and, at level `k`, the tangent `w k`, itself a constant. -/
def input (w : ℕ → ℝ) (c : ℝ) : (n : ℕ) → DualN n
  | 0 => c
  | n + 1 => (⟨input w c n, some (const n (w n))⟩ : Dual (DualN n))

/-- The value. -/
def base : (n : ℕ) → DualN n → ℝ
  | 0, d => d
  | n + 1, d => base n (Dual.val (α := DualN n) d)

/-- The tangent of the tangent of …: what the nested call returns. -/
def top : (n : ℕ) → DualN n → ℝ
  | 0, d => d
  | n + 1, d => ((Dual.tan (α := DualN n) d).map (top n)).getD 0

end DualN
end Adx
