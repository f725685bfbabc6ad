import Verif.Num

/-!
# Three-vectors and 3×3 matrices

`(3,)` arrays are `V3 α`, `(3, 3)` arrays are `M3 α`. The operations are the `jax.numpy` ones the
library uses, spelled out on components.
-/

namespace Adx

/-- A `(3,)` array. -/
@[ext] structure V3 (α : Type) where
  /-- entry 0 -/
  x : α
  /-- entry 1 -/
  y : α
  /-- entry 2 -/
  z : α

namespace V3
variable {α : Type}

instance [Add α] : Add (V3 α) := ⟨fun a b => ⟨a.x + b.x, a.y + b.y, a.z + b.z⟩⟩
instance [Sub α] : Sub (V3 α) := ⟨fun a b => ⟨a.x - b.x, a.y - b.y, a.z - b.z⟩⟩
instance [Neg α] : Neg (V3 α) := ⟨fun a => ⟨-a.x, -a.y, -a.z⟩⟩
/-- scalar times vector, `k * v` -/
instance [Mul α] : SMul α (V3 α) := ⟨fun k a => ⟨k * a.x, k * a.y, k * a.z⟩⟩
/-- vector over scalar, `v / k` -/
instance [Div α] : HDiv (V3 α) α (V3 α) := ⟨fun a k => ⟨a.x / k, a.y / k, a.z / k⟩⟩

/-- `jnp.sum(a * b, axis=-1)` and `jnp.inner(a, b)` on `(3,)` arrays. -/
def dot [Add α] [Mul α] (a b : V3 α) : α := a.x * b.x + a.y * b.y + a.z * b.z

/-- `jnp.cross(a, b)` on `(3,)` arrays. -/
def cross [Sub α] [Mul α] (a b : V3 α) : V3 α :=
  ⟨a.y * b.z - a.z * b.y, a.z * b.x - a.x * b.z, a.x * b.y - a.y * b.x⟩

/-- `jnp.linalg.vector_norm(a)` on a `(3,)` array. -/
def norm [Add α] [Mul α] [JFun α] (a : V3 α) : α := JFun.sqrt (dot a a)

section simps
variable (a b : V3 α) (k : α)
@[simp] theorem add_x [Add α] : (a + b).x = a.x + b.x := rfl
@[simp] theorem add_y [Add α] : (a + b).y = a.y + b.y := rfl
@[simp] theorem add_z [Add α] : (a + b).z = a.z + b.z := rfl
@[simp] theorem sub_x [Sub α] : (a - b).x = a.x - b.x := rfl
@[simp] theorem sub_y [Sub α] : (a - b).y = a.y - b.y := rfl
@[simp] theorem sub_z [Sub α] : (a - b).z = a.z - b.z := rfl
@[simp] theorem neg_x [Neg α] : (-a).x = -a.x := rfl
@[simp] theorem neg_y [Neg α] : (-a).y = -a.y := rfl
@[simp] theorem neg_z [Neg α] : (-a).z = -a.z := rfl
@[simp] theorem smul_x [Mul α] : (k • a).x = k * a.x := rfl
@[simp] theorem smul_y [Mul α] : (k • a).y = k * a.y := rfl
@[simp] theorem smul_z [Mul α] : (k • a).z = k * a.z := rfl
@[simp] theorem div_x [Div α] : (a / k).x = a.x / k := rfl
@[simp] theorem div_y [Div α] : (a / k).y = a.y / k := rfl
@[simp] theorem div_z [Div α] : (a / k).z = a.z / k := rfl
@[simp] theorem cross_x [Sub α] [Mul α] : (cross a b).x = a.y * b.z - a.z * b.y := rfl
@[simp] theorem cross_y [Sub α] [Mul α] : (cross a b).y = a.z * b.x - a.x * b.z := rfl
@[simp] theorem cross_z [Sub α] [Mul α] : (cross a b).z = a.x * b.y - a.y * b.x := rfl
end simps
end V3

/-- A `(3, 3)` array, by rows. -/
@[ext] structure M3 (α : Type) where
  /-- row 0 -/
  r0 : V3 α
  /-- row 1 -/
  r1 : V3 α
  /-- row 2 -/
  r2 : V3 α

namespace M3
variable {α : Type}

instance [Add α] : Add (M3 α) := ⟨fun a b => ⟨a.r0 + b.r0, a.r1 + b.r1, a.r2 + b.r2⟩⟩
instance [Sub α] : Sub (M3 α) := ⟨fun a b => ⟨a.r0 - b.r0, a.r1 - b.r1, a.r2 - b.r2⟩⟩
instance [Neg α] : Neg (M3 α) := ⟨fun a => ⟨-a.r0, -a.r1, -a.r2⟩⟩
/-- scalar times matrix -/
instance [Mul α] : SMul α (M3 α) := ⟨fun k a => ⟨k • a.r0, k • a.r1, k • a.r2⟩⟩
/-- matrix over scalar -/
instance [Div α] : HDiv (M3 α) α (M3 α) := ⟨fun a k => ⟨a.r0 / k, a.r1 / k, a.r2 / k⟩⟩

/-- The transpose. -/
def transpose (a : M3 α) : M3 α :=
  ⟨⟨a.r0.x, a.r1.x, a.r2.x⟩, ⟨a.r0.y, a.r1.y, a.r2.y⟩, ⟨a.r0.z, a.r1.z, a.r2.z⟩⟩

/-- matrix times column vector: `m @ v` -/
def mulVec [Add α] [Mul α] (m : M3 α) (v : V3 α) : V3 α :=
  ⟨V3.dot m.r0 v, V3.dot m.r1 v, V3.dot m.r2 v⟩

/-- matrix times matrix: `a @ b` -/
def mul [Add α] [Mul α] (a b : M3 α) : M3 α :=
  let c := transpose b
  ⟨⟨V3.dot a.r0 c.r0, V3.dot a.r0 c.r1, V3.dot a.r0 c.r2⟩, ⟨V3.dot a.r1 c.r0, V3.dot a.r1 c.r1, V3.dot a.r1 c.r2⟩,
    ⟨V3.dot a.r2 c.r0, V3.dot a.r2 c.r1, V3.dot a.r2 c.r2⟩⟩

/-- `jnp.outer(a, b)` on `(3,)` arrays. -/
def outer [Mul α] (a b : V3 α) : M3 α := ⟨a.x • b, a.y • b, a.z • b⟩

/-- `jnp.eye(3)` -/
def eye [NatCast α] : M3 α :=
  ⟨⟨ℓ 1, ℓ 0, ℓ 0⟩, ⟨ℓ 0, ℓ 1, ℓ 0⟩, ⟨ℓ 0, ℓ 0, ℓ 1⟩⟩

/-- Determinant (used only in specifications). -/
def det [Add α] [Sub α] [Mul α] (a : M3 α) : α := V3.dot a.r0 (V3.cross a.r1 a.r2)

section simps
variable (a b : M3 α) (k : α)
@[simp] theorem add_r0 [Add α] : (a + b).r0 = a.r0 + b.r0 := rfl
@[simp] theorem add_r1 [Add α] : (a + b).r1 = a.r1 + b.r1 := rfl
@[simp] theorem add_r2 [Add α] : (a + b).r2 = a.r2 + b.r2 := rfl
@[simp] theorem sub_r0 [Sub α] : (a - b).r0 = a.r0 - b.r0 := rfl
@[simp] theorem sub_r1 [Sub α] : (a - b).r1 = a.r1 - b.r1 := rfl
@[simp] theorem sub_r2 [Sub α] : (a - b).r2 = a.r2 - b.r2 := rfl
@[simp] theorem neg_r0 [Neg α] : (-a).r0 = -a.r0 := rfl
@[simp] theorem neg_r1 [Neg α] : (-a).r1 = -a.r1 := rfl
@[simp] theorem neg_r2 [Neg α] : (-a).r2 = -a.r2 := rfl
@[simp] theorem smul_r0 [Mul α] : (k • a).r0 = k • a.r0 := rfl
@[simp] theorem smul_r1 [Mul α] : (k • a).r1 = k • a.r1 := rfl
@[simp] theorem smul_r2 [Mul α] : (k • a).r2 = k • a.r2 := rfl
@[simp] theorem div_r0 [Div α] : (a / k).r0 = a.r0 / k := rfl
@[simp] theorem div_r1 [Div α] : (a / k).r1 = a.r1 / k := rfl
@[simp] theorem div_r2 [Div α] : (a / k).r2 = a.r2 / k := rfl
end simps
end M3

end Adx
