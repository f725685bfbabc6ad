import Verif.Vec

/-! # Model of `src/astrodynx/utils/_rot_mat.py` (scalar angle) -/

namespace Adx
variable {α : Type} [Neg α] [NatCast α] [JFun α]

/-- `rotmat3dx`, _rot_mat.py:49-60. -/
def rotmat3dx (angle : α) : M3 α :=
  let c := JFun.cos angle
  let s := JFun.sin angle
  let z := ℓ 0
  let o := ℓ 1
  ⟨⟨o, z, z⟩, ⟨z, c, -s⟩, ⟨z, s, c⟩⟩

/-- `rotmat3dy`, _rot_mat.py:106-117. -/
def rotmat3dy (angle : α) : M3 α :=
  let c := JFun.cos angle
  let s := JFun.sin angle
  let z := ℓ 0
  let o := ℓ 1
  ⟨⟨c, z, s⟩, ⟨z, o, z⟩, ⟨-s, z, c⟩⟩

/-- `rotmat3dz`, _rot_mat.py:163-174. -/
def rotmat3dz (angle : α) : M3 α :=
  let c := JFun.cos angle
  let s := JFun.sin angle
  let z := ℓ 0
  let o := ℓ 1
  ⟨⟨c, -s, z⟩, ⟨s, c, z⟩, ⟨z, z, o⟩⟩

end Adx
