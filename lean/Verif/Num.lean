import Mathlib.Analysis.SpecialFunctions.Complex.Arg
import Mathlib.Analysis.SpecialFunctions.Pow.Real
import Mathlib.Analysis.SpecialFunctions.Trigonometric.Inverse
import Mathlib.Analysis.SpecialFunctions.Log.Basic
import Mathlib.Tactic.Ring
import Mathlib.Tactic.FieldSimp
import Mathlib.Tactic.Linarith
import Mathlib.Tactic.Positivity
import Mathlib.Tactic.LinearCombination

/-!
# The arithmetic the model is written over

Every model definition is generic over a type `α` carrying the Python operators
(`+ - * / -x x**n`, numeric literals) and the `jax.numpy` primitives the library calls.
No laws are assumed of `α`: a theorem about the generic definitions holds for float32 with NaN
and rounding as well as for the reals.
-/

namespace Adx

/-- The `jax.numpy` primitives used by astrodynx, as an interface without laws.
Models: `jnp.pi`, `jnp.sqrt`, `jnp.cbrt`, `jnp.sin`, `jnp.cos`, `jnp.sinh`, `jnp.cosh`, `jnp.log`,
`jnp.arccos`, `jnp.arctan2(y, x)`, `jnp.abs`, `jnp.maximum`, `jnp.floor`, `jnp.ones_like`, the method `.item()` and the comparison `<`
(`a > b` in Python is `lt b a`; every comparison with a NaN is `false`). -/
class JFun (α : Type) where
  /-- `jnp.pi` -/
  pi : α
  /-- `jnp.sqrt` -/
  sqrt : α → α
  /-- `jnp.cbrt` -/
  cbrt : α → α
  /-- `jnp.sin` -/
  sin : α → α
  /-- `jnp.cos` -/
  cos : α → α
  /-- `jnp.sinh` -/
  sinh : α → α
  /-- `jnp.cosh` -/
  cosh : α → α
  /-- `jnp.log` -/
  log : α → α
  /-- `jnp.arccos` -/
  arccos : α → α
  /-- `jnp.arctan2(y, x)`, in this argument order -/
  arctan2 : α → α → α
  /-- `jnp.abs` -/
  abs : α → α
  /-- `jnp.maximum` -/
  maximum : α → α → α
  /-- `jnp.floor` -/
  floor : α → α
  /-- `jnp.ones_like`: 1, with the shape of the argument -/
  onesLike : α → α
  /-- `x.item()`: the Python number in a scalar array. A value traced for differentiation loses its tangent here. -/
  item : α → α
  /-- `a < b` -/
  lt : α → α → Bool

/-- A numeric literal of the Python source: `ℓ 2` is the literal `2` (or `2.0`) in `α`. -/
scoped macro:max "ℓ" n:num : term => `((Nat.cast ($n : ℕ)))

/-- Real cube root, odd like `jnp.cbrt`. -/
noncomputable def realCbrt (x : ℝ) : ℝ :=
  if 0 ≤ x then x ^ (1 / 3 : ℝ) else -((-x) ^ (1 / 3 : ℝ))

/-- Exact real arithmetic. `arctan2 y x` is the argument of `x + iy` (`0` at the origin, range
`(-π, π]`), as in IEEE without signed zeros. `sqrt`, `log`, `arccos` and division are Mathlib's
total functions; what the code does outside their domains is the subject of `Verif/XR.lean`. -/
noncomputable instance : JFun ℝ where
  pi := Real.pi
  sqrt := Real.sqrt
  cbrt := realCbrt
  sin := Real.sin
  cos := Real.cos
  sinh := Real.sinh
  cosh := Real.cosh
  log := Real.log
  arccos := Real.arccos
  arctan2 := fun y x => Complex.arg ⟨x, y⟩
  abs := fun x => |x|
  maximum := max
  floor := fun x => (⌊x⌋ : ℝ)
  onesLike := fun _ => 1
  item := fun x => x
  lt := fun a b => decide (a < b)

section RealSimp
variable (x y : ℝ)
@[simp] theorem pi_real : (JFun.pi : ℝ) = Real.pi := rfl
@[simp] theorem sqrt_real : JFun.sqrt x = Real.sqrt x := rfl
@[simp] theorem cbrt_real : JFun.cbrt x = realCbrt x := rfl
@[simp] theorem sin_real : JFun.sin x = Real.sin x := rfl
@[simp] theorem cos_real : JFun.cos x = Real.cos x := rfl
@[simp] theorem sinh_real : JFun.sinh x = Real.sinh x := rfl
@[simp] theorem cosh_real : JFun.cosh x = Real.cosh x := rfl
@[simp] theorem log_real : JFun.log x = Real.log x := rfl
@[simp] theorem arccos_real : JFun.arccos x = Real.arccos x := rfl
@[simp] theorem arctan2_real : JFun.arctan2 y x = Complex.arg ⟨x, y⟩ := rfl
@[simp] theorem abs_real : JFun.abs x = |x| := rfl
@[simp] theorem maximum_real : JFun.maximum x y = max x y := rfl
@[simp] theorem floor_real : JFun.floor x = (⌊x⌋ : ℝ) := rfl
@[simp] theorem onesLike_real : JFun.onesLike x = 1 := rfl
@[simp] theorem item_real : JFun.item x = x := rfl
@[simp] theorem lt_real : JFun.lt x y = decide (x < y) := rfl
end RealSimp

end Adx
