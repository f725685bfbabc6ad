import Verif.Model.Cowell

/-! # The functions of `gravity/_general.py` and `events/radius.py` called without `args`

The dictionaries are the default values of the parameter `args` in the Python signatures. -/

namespace Adx
variable {α : Type} [Add α] [Sub α] [Neg α] [Mul α] [Div α] [Pow α ℕ] [NatCast α] [JFun α]

/-- The default `{"mu": 1.0, J: 0.0, "R_eq": 1.0}` of the zonal terms, _general.py:46, 96, 149. -/
def zonalDefaults (J : String) : Args α := fun k =>
  if k = "mu" then some (ℓ 1) else if k = J then some (ℓ 0) else if k = "R_eq" then some (ℓ 1) else none

/-- The default `{"rmin": 0.0}`, events/radius.py:9. -/
def rminDefaults : Args α := fun k => if k = "rmin" then some (ℓ 0) else none

/-- `point_mass_grav(t, x)`, _general.py:8-10; the default `{"mu": 1.0}` is also the one of `OrbDynx`. -/
def point_mass_grav0 (t : α) (x : State α) : Except PyErr (V3 α) := point_mass_grav t x defaultArgs

/-- `j2_acc(t, x)`, _general.py:45-47. -/
def j2_acc0 (t : α) (x : State α) : Except PyErr (V3 α) := j2_acc t x (zonalDefaults "J2")

/-- `j3_acc(t, x)`, _general.py:95-97. -/
def j3_acc0 (t : α) (x : State α) : Except PyErr (V3 α) := j3_acc t x (zonalDefaults "J3")

/-- `j4_acc(t, x)`, _general.py:148-150. -/
def j4_acc0 (t : α) (x : State α) : Except PyErr (V3 α) := j4_acc t x (zonalDefaults "J4")

/-- `radius_islow(t, x)`, events/radius.py:8-10. -/
def radius_islow0 (t : α) (x : State α) : Except PyErr α := radius_islow t x rminDefaults

end Adx
