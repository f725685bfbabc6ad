import Verif.Model.NDArray
import Verif.Model.OrbElements
import Verif.Model.Kepler

/-! # The vector functions on arrays of any shape

The other model files describe the vector functions for one orbit. Here the same functions are written with
the trailing axes the code carries (`(..., 3)` vectors, `keepdims=True`, `2:3` slices, `squeeze`,
`stack`, `@`), on arrays with any leading axes.
External code (jax.numpy): `jnp.stack`, `expand_dims`, `squeeze`, `sum`, `cross`, `matmul`, indexing; semantics
assumed from the NumPy documentation.
Simplification: `jnp.cross` also accepts vectors of length 2 and `@` also accepts 1-d operands; the library
does not use that and here it is an error. `jnp.where(x < 0, 2 * jnp.pi + x, x)`, in which all operands have the
shape of `x`, is one element-wise operation. -/

namespace Adx

/-- An index with an additional last axis. -/
def icons (j : ℕ) (idx : ℕ → ℕ) : ℕ → ℕ
  | 0 => j
  | k + 1 => idx k

/-- An index without its last axis. -/
def itail (idx : ℕ → ℕ) : ℕ → ℕ := fun k => idx (k + 1)

namespace Arr
variable {α : Type}

/-- `x[..., j]`. -/
def comp (j : ℕ) : Arr α → Arr α
  | .error e => .error e
  | .ok a =>
    match a.shape.getLast? with
    | some c => if j < c then .ok ⟨a.shape.dropLast, fun idx => a.get (icons j idx)⟩ else .error .badShape
    | none => .error .badShape

/-- `jnp.expand_dims(x, axis=-1)`. -/
def expandLast : Arr α → Arr α
  | .error e => .error e
  | .ok a => .ok ⟨a.shape ++ [1], fun idx => a.get (itail idx)⟩

/-- `jnp.squeeze(x, axis=-1)`; raises unless the last axis has length 1. -/
def squeezeLast : Arr α → Arr α
  | .error e => .error e
  | .ok a => if a.shape.getLast? = some 1 then .ok ⟨a.shape.dropLast, fun idx => a.get (icons 0 idx)⟩
    else .error .badShape

/-- `x[..., j:j+1]` for `j` inside the axis. -/
def slice1 (j : ℕ) (x : Arr α) : Arr α := expandLast (comp j x)

/-- `jnp.stack([x, y, z], axis=-1)`; raises unless the shapes are equal. -/
def stack3 : Arr α → Arr α → Arr α → Arr α
  | .ok a, .ok b, .ok c =>
    if a.shape = b.shape ∧ b.shape = c.shape then
      .ok ⟨a.shape ++ [3], fun idx =>
        match idx 0 with
        | 0 => a.get (itail idx)
        | 1 => b.get (itail idx)
        | _ => c.get (itail idx)⟩
    else .error .badShape
  | .error e, _, _ => .error e
  | _, .error e, _ => .error e
  | _, _, .error e => .error e

/-- `jnp.stack([x, y, z], axis=-2)` of arrays with at least one axis. -/
def stackRows3 : Arr α → Arr α → Arr α → Arr α
  | .ok a, .ok b, .ok c =>
    match a.shape.getLast? with
    | some n =>
      if a.shape = b.shape ∧ b.shape = c.shape then
        .ok ⟨a.shape.dropLast ++ [3, n], fun idx =>
          match idx 1 with
          | 0 => a.get (icons (idx 0) (itail (itail idx)))
          | 1 => b.get (icons (idx 0) (itail (itail idx)))
          | _ => c.get (icons (idx 0) (itail (itail idx)))⟩
      else .error .badShape
    | none => .error .badShape
  | .error e, _, _ => .error e
  | _, .error e, _ => .error e
  | _, _, .error e => .error e

/-- `f 0 + f 1 + ... + f n`, from the left. -/
def sumTo [Add α] (f : ℕ → α) : ℕ → α
  | 0 => f 0
  | n + 1 => sumTo f n + f (n + 1)

/-- The sum of `c` terms. -/
def sumN [Add α] [NatCast α] (f : ℕ → α) : ℕ → α
  | 0 => ℓ 0
  | n + 1 => sumTo f n

/-- `jnp.sum(x, axis=-1, keepdims=True)`. -/
def sumLast [Add α] [NatCast α] : Arr α → Arr α
  | .error e => .error e
  | .ok a =>
    match a.shape.getLast? with
    | some c => .ok ⟨a.shape.dropLast ++ [1], fun idx => sumN (fun j => a.get (icons j (itail idx))) c⟩
    | none => .error .badShape

/-- `vector_norm(x, axis=-1, keepdims=True)`. -/
def normLast [Add α] [Mul α] [NatCast α] [JFun α] (x : Arr α) : Arr α := un JFun.sqrt (sumLast (x * x))

/-- `jnp.cross(x, y)` along the last axes, both of length 3. -/
def cross [Sub α] [Mul α] : Arr α → Arr α → Arr α
  | .error e, _ => .error e
  | .ok _, .error e => .error e
  | .ok a, .ok b =>
    if a.shape.getLast? = some 3 ∧ b.shape.getLast? = some 3 then
      let x : Arr α := .ok a
      let y : Arr α := .ok b
      stack3 (comp 1 x * comp 2 y - comp 2 x * comp 1 y) (comp 2 x * comp 0 y - comp 0 x * comp 2 y)
        (comp 0 x * comp 1 y - comp 1 x * comp 0 y)
    else .error .badShape

/-- `x @ y` for operands with at least two axes. -/
def matmul [Add α] [Mul α] [NatCast α] : Arr α → Arr α → Arr α
  | .error e, _ => .error e
  | .ok _, .error e => .error e
  | .ok a, .ok b =>
    match a.shape.reverse, b.shape.reverse with
    | k :: m :: s, n :: k' :: t =>
      if k = k' then
        match bshape s.reverse t.reverse with
        | some u => .ok ⟨u ++ [m, n], fun idx =>
            sumN (fun j => a.get (icons j (icons (idx 1) (opIdx s.reverse (itail (itail idx)))))
              * b.get (icons (idx 0) (icons j (opIdx t.reverse (itail (itail idx)))))) k⟩
        | none => .error .incompatible
      else .error .badShape
    | _, _ => .error .badShape

/-- `jnp.zeros_like(x)`. -/
def zerosLike [NatCast α] (x : Arr α) : Arr α := un (fun _ => ℓ 0) x
/-- `jnp.ones_like(x)`. -/
def onesLike' [NatCast α] (x : Arr α) : Arr α := un (fun _ => ℓ 1) x

end Arr

open Arr
variable {α : Type} [Add α] [Sub α] [Neg α] [Mul α] [Div α] [Pow α ℕ] [NatCast α] [JFun α]

/-- `angular_momentum`, _orb_integrals.py:123. -/
def angular_momentumA (pos_vec vel_vec : Arr α) : Arr α := Arr.cross pos_vec vel_vec

/-- `eccentricity_vector`, _orb_integrals.py:216-219. -/
def eccentricity_vectorA (pos_vec vel_vec : Arr α) (mu : Arr α := ℓ 1) : Arr α :=
  let h := angular_momentumA pos_vec vel_vec
  Arr.cross vel_vec h / mu - pos_vec / normLast pos_vec

/-- `sigma_fn`, _uniformulas.py:50. -/
def sigma_fnA (pos_vec vel_vec : Arr α) (mu : Arr α := ℓ 1) : Arr α :=
  sumLast (pos_vec * vel_vec) / JFun.sqrt mu

/-- `inclination`, _orb_elements.py:29. -/
def inclinationA (h_vec : Arr α) : Arr α := JFun.arccos (slice1 2 h_vec / normLast h_vec)

/-- `true_anomaly`, _orb_elements.py:52-56. -/
def true_anomalyA (pos_vec e_vec : Arr α) : Arr α :=
  let true_anom := JFun.arctan2 (normLast (Arr.cross e_vec pos_vec)) (sumLast (e_vec * pos_vec))
  un wrapNeg true_anom

/-- `jnp.array([0, 0, 1])`. -/
def kHat : Arr α := .ok ⟨[3], fun idx => match idx 0 with
  | 0 => ℓ 0
  | 1 => ℓ 0
  | _ => ℓ 1⟩

/-- `node_vec`, _orb_elements.py:60. -/
def node_vecA (h_vec : Arr α) : Arr α := Arr.cross kHat h_vec

/-- `right_ascension`, _orb_elements.py:79-80. -/
def right_ascensionA (node_vec : Arr α) : Arr α :=
  let raan := JFun.arctan2 (slice1 1 node_vec) (slice1 0 node_vec)
  un wrapNeg raan

/-- `argument_of_periapsis`, _orb_elements.py:100-104. -/
def argument_of_periapsisA (node_vec e_vec : Arr α) : Arr α :=
  let argp := JFun.arctan2 (normLast (Arr.cross node_vec e_vec)) (sumLast (node_vec * e_vec))
  un wrapNeg argp

/-- All six arrays of `rv2coe`'s result, or the exception. -/
def coeResult (p e incl raan argp true_anom : Arr α) : Except BErr (COE (ND α)) :=
  match p, e, incl, raan, argp, true_anom with
  | .ok p, .ok e, .ok i, .ok r, .ok w, .ok f => .ok ⟨p, e, i, r, w, f⟩
  | .error x, _, _, _, _, _ => .error x
  | _, .error x, _, _, _, _ => .error x
  | _, _, .error x, _, _, _ => .error x
  | _, _, _, .error x, _, _ => .error x
  | _, _, _, _, .error x, _ => .error x
  | _, _, _, _, _, .error x => .error x

/-- `rv2coe`, _orb_elements.py:164-181. -/
def rv2coeA (pos_vec vel_vec : Arr α) (mu : Arr α := ℓ 1) : Except BErr (COE (ND α)) :=
  let h_vec := angular_momentumA pos_vec vel_vec
  let h_mag := normLast h_vec
  let e_vec := eccentricity_vectorA pos_vec vel_vec mu
  let e_mag := normLast e_vec
  let p := semiparameter h_mag mu
  let incl := inclinationA h_vec
  let N := node_vecA h_vec
  let raan := right_ascensionA N
  let argp := argument_of_periapsisA N e_vec
  let true_anom := true_anomalyA pos_vec e_vec
  coeResult (squeezeLast p) (squeezeLast e_mag) (squeezeLast incl) (squeezeLast raan) (squeezeLast argp)
    (squeezeLast true_anom)

/-- `rotmat3dx`, _rot_mat.py:49-60. -/
def rotmat3dxA (angle : Arr α) : Arr α :=
  let c := JFun.cos angle
  let s := JFun.sin angle
  let z := zerosLike angle
  let o := onesLike' angle
  stackRows3 (stack3 o z z) (stack3 z c (-s)) (stack3 z s c)

/-- `rotmat3dy`, _rot_mat.py:106-117. -/
def rotmat3dyA (angle : Arr α) : Arr α :=
  let c := JFun.cos angle
  let s := JFun.sin angle
  let z := zerosLike angle
  let o := onesLike' angle
  stackRows3 (stack3 c z s) (stack3 z o z) (stack3 (-s) z c)

/-- `rotmat3dz`, _rot_mat.py:163-174. -/
def rotmat3dzA (angle : Arr α) : Arr α :=
  let c := JFun.cos angle
  let s := JFun.sin angle
  let z := zerosLike angle
  let o := onesLike' angle
  stackRows3 (stack3 c (-s) z) (stack3 s c z) (stack3 z z o)

/-- `coe2rv`, _orb_elements.py:258-269. -/
def coe2rvA (p e incl raan argp true_anom : Arr α) (mu : Arr α := ℓ 1) : Arr α × Arr α :=
  let r_pf := expandLast (p / (ℓ 1 + e * JFun.cos true_anom))
    * stack3 (JFun.cos true_anom) (JFun.sin true_anom) (zerosLike true_anom)
  let v_pf := expandLast (JFun.sqrt (mu / p))
    * stack3 (-JFun.sin true_anom) (e + JFun.cos true_anom) (zerosLike true_anom)
  let rotmat := matmul (matmul (rotmat3dzA raan) (rotmat3dxA incl)) (rotmat3dzA argp)
  let r_ijk := matmul rotmat (expandLast r_pf)
  let v_ijk := matmul rotmat (expandLast v_pf)
  (squeezeLast r_ijk, squeezeLast v_ijk)

/-- `_lagrange_prop`, _kepler.py:46, on arrays. -/
def lagrange_propA (F G Ft Gt r0_vec v0_vec : Arr α) : Arr α × Arr α :=
  (F * r0_vec + G * v0_vec, Ft * r0_vec + Gt * v0_vec)

/-- `kepler` after the root search, _kepler.py:102-122, for the array `chi` and with the shapes the code has:
`alpha` and `r0` are scalars, `sigma0` has shape `(1,)`, `F` etc. are turned into columns. -/
def keplerPostA (chi alpha r0 sigma0 mu r0_vec v0_vec : Arr α) : Arr α × Arr α :=
  let F := lagrange_F (ufunc2 chi alpha) r0
  let G := lagrange_G (ufunc1 chi alpha) (ufunc2 chi alpha) sigma0 r0 mu
  let r := equ_of_orb_uvi (ufunc0 chi alpha) (ufunc1 chi alpha) (ufunc2 chi alpha) r0 sigma0
  let Ft := lagrange_Ft (ufunc1 chi alpha) r r0 mu
  let Gt := lagrange_Gt (ufunc2 chi alpha) r
  lagrange_propA (expandLast F) (expandLast G) (expandLast Ft) (expandLast Gt) r0_vec v0_vec

end Adx
