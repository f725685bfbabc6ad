import Verif.Vec

/-! # Model of `src/astrodynx/gravity/_general.py` and `src/astrodynx/events/radius.py` -/

namespace Adx
variable {α : Type} [Add α] [Sub α] [Neg α] [Mul α] [Div α] [Pow α ℕ] [NatCast α] [JFun α]

/-- The Python exceptions the modelled functions can raise. -/
inductive PyErr where
  /-- `KeyError: key` -/
  | keyError (key : String)
  deriving DecidableEq, Repr

/-- A Python mapping with string keys (the `args` pytree): `none` = key absent. -/
abbrev Args (α : Type) := String → Option α

/-- `args[key]`: the value, or `KeyError`. -/
def Args.get (args : Args α) (key : String) : Except PyErr α :=
  match args key with
  | some v => .ok v
  | none => .error (.keyError key)

/-- A state vector `x` of shape `(N,)` with `N ≥ 3`: `x[:3]` and the remaining entries. -/
structure State (α : Type) where
  /-- `x[:3]` -/
  pos : V3 α
  /-- `x[3:]` -/
  rest : List α

/-- `point_mass_grav`, _general.py:40-42. -/
def point_mass_grav (_t : α) (x : State α) (args : Args α) : Except PyErr (V3 α) := do
  let mu ← args.get "mu"
  let mu_ := mu / V3.norm x.pos ^ 3
  return ⟨-mu_ * x.pos.x, -mu_ * x.pos.y, -mu_ * x.pos.z⟩

/-- `j2_acc`, _general.py:83-92 (`-1.5` is `-(3/2)`). -/
def j2_acc (_t : α) (x : State α) (args : Args α) : Except PyErr (V3 α) := do
  let mu ← args.get "mu"
  let J2 ← args.get "J2"
  let R_eq ← args.get "R_eq"
  let r := V3.norm x.pos
  let zsq_over_rsq := (x.pos.z / r) ^ 2
  let factor := -(ℓ 3 / ℓ 2) * mu * J2 * R_eq ^ 2 / r ^ 5
  let ax := factor * x.pos.x * (ℓ 1 - ℓ 5 * zsq_over_rsq)
  let ay := factor * x.pos.y * (ℓ 1 - ℓ 5 * zsq_over_rsq)
  let az := factor * x.pos.z * (ℓ 3 - ℓ 5 * zsq_over_rsq)
  return ⟨ax, ay, az⟩

/-- `j3_acc`, _general.py:136-145 (`-2.5` is `-(5/2)`, `0.6` is `3/5`). -/
def j3_acc (_t : α) (x : State α) (args : Args α) : Except PyErr (V3 α) := do
  let mu ← args.get "mu"
  let J3 ← args.get "J3"
  let R_eq ← args.get "R_eq"
  let r := V3.norm x.pos
  let z3_over_rsq := x.pos.z ^ 3 / r ^ 2
  let factor := -(ℓ 5 / ℓ 2) * mu * J3 * R_eq ^ 3 / r ^ 7
  let ax := factor * x.pos.x * (ℓ 3 * x.pos.z - ℓ 7 * z3_over_rsq)
  let ay := factor * x.pos.y * (ℓ 3 * x.pos.z - ℓ 7 * z3_over_rsq)
  let az := factor * (ℓ 6 * x.pos.z ^ 2 - ℓ 7 * z3_over_rsq * x.pos.z - ℓ 3 / ℓ 5 * r ^ 2)
  return ⟨ax, ay, az⟩

/-- `j4_acc`, _general.py:189-198 (`1.875` is `15/8`). -/
def j4_acc (_t : α) (x : State α) (args : Args α) : Except PyErr (V3 α) := do
  let mu ← args.get "mu"
  let J4 ← args.get "J4"
  let R_eq ← args.get "R_eq"
  let r := V3.norm x.pos
  let zsq_over_rsq := (x.pos.z / r) ^ 2
  let factor := ℓ 15 / ℓ 8 * mu * J4 * R_eq ^ 4 / r ^ 7
  let ax := factor * x.pos.x * (ℓ 1 - ℓ 14 * zsq_over_rsq + ℓ 21 * zsq_over_rsq ^ 2)
  let ay := factor * x.pos.y * (ℓ 1 - ℓ 14 * zsq_over_rsq + ℓ 21 * zsq_over_rsq ^ 2)
  let az := factor * x.pos.z * (ℓ 5 - ℓ 70 * zsq_over_rsq / ℓ 3 + ℓ 21 * zsq_over_rsq ^ 2)
  return ⟨ax, ay, az⟩

/-- `radius_islow`, events/radius.py:32-33. -/
def radius_islow (_t : α) (x : State α) (args : Args α) : Except PyErr α := do
  let rmin ← args.get "rmin"
  return V3.norm x.pos - rmin

end Adx
