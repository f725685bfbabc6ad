import Verif.Model.OrbIntegrals
import Verif.Model.RotMat

/-! # Model of `src/astrodynx/twobody/_orb_elements.py` (single orbit, shape `(3,)`)

Simplification: the code carries a trailing axis of length one (`keepdims=True`, slices `2:3`) and
squeezes it at the end; here these are scalars. The array version is in `Model/NDVec`. -/

namespace Adx
variable {α : Type} [Add α] [Sub α] [Neg α] [Mul α] [Div α] [Pow α ℕ] [NatCast α] [JFun α]

/-- `jnp.where(x < 0, 2 * jnp.pi + x, x)`, _orb_elements.py:56, 80, 104. -/
def wrapNeg (x : α) : α := if JFun.lt x (ℓ 0) then ℓ 2 * JFun.pi + x else x

/-- `inclination`, _orb_elements.py:29: `jnp.arccos(h_vec[2] / vector_norm(h_vec))`. -/
def inclination (h_vec : V3 α) : α := JFun.arccos (h_vec.z / V3.norm h_vec)

/-- `true_anomaly`, _orb_elements.py:52-56. -/
def true_anomaly (pos_vec e_vec : V3 α) : α :=
  let true_anom := JFun.arctan2 (V3.norm (V3.cross e_vec pos_vec)) (V3.dot e_vec pos_vec)
  wrapNeg true_anom

/-- `node_vec`, _orb_elements.py:60: `jnp.cross(jnp.array([0, 0, 1]), h_vec)`. -/
def node_vec (h_vec : V3 α) : V3 α := V3.cross ⟨ℓ 0, ℓ 0, ℓ 1⟩ h_vec

/-- `right_ascension`, _orb_elements.py:79-80. -/
def right_ascension (node_vec : V3 α) : α :=
  let raan := JFun.arctan2 node_vec.y node_vec.x
  wrapNeg raan

/-- `argument_of_periapsis`, _orb_elements.py:100-104. -/
def argument_of_periapsis (node_vec e_vec : V3 α) : α :=
  let argp := JFun.arctan2 (V3.norm (V3.cross node_vec e_vec)) (V3.dot node_vec e_vec)
  wrapNeg argp

/-- The returned tuple of `rv2coe`, _orb_elements.py:174-181. -/
@[ext] structure COE (α : Type) where
  /-- semiparameter -/
  p : α
  /-- eccentricity -/
  e : α
  /-- inclination -/
  incl : α
  /-- right ascension of the ascending node -/
  raan : α
  /-- argument of periapsis -/
  argp : α
  /-- true anomaly -/
  true_anom : α

/-- `rv2coe`, _orb_elements.py:164-181. -/
def rv2coe (pos_vec vel_vec : V3 α) (mu : α := ℓ 1) : COE α :=
  let h_vec := angular_momentum pos_vec vel_vec
  let h_mag := V3.norm h_vec
  let e_vec := eccentricity_vector pos_vec vel_vec mu
  let e_mag := V3.norm e_vec
  let p := semiparameter h_mag mu
  let incl := inclination h_vec
  let N := node_vec h_vec
  let raan := right_ascension N
  let argp := argument_of_periapsis N e_vec
  let true_anom := true_anomaly pos_vec e_vec
  ⟨p, e_mag, incl, raan, argp, true_anom⟩

/-- `r_pf`, _orb_elements.py:258-260: position in the perifocal frame. -/
def perifocalPos (p e true_anom : α) : V3 α :=
  (p / (ℓ 1 + e * JFun.cos true_anom)) • (⟨JFun.cos true_anom, JFun.sin true_anom, ℓ 0⟩ : V3 α)

/-- `v_pf`, _orb_elements.py:261-264: velocity in the perifocal frame. -/
def perifocalVel (p e true_anom mu : α) : V3 α :=
  JFun.sqrt (mu / p) • (⟨-JFun.sin true_anom, e + JFun.cos true_anom, ℓ 0⟩ : V3 α)

/-- `rotmat`, _orb_elements.py:266: `rotmat3dz(raan) @ rotmat3dx(incl) @ rotmat3dz(argp)`. -/
def perifocalToInertial (incl raan argp : α) : M3 α :=
  M3.mul (M3.mul (rotmat3dz raan) (rotmat3dx incl)) (rotmat3dz argp)

/-- `coe2rv`, _orb_elements.py:258-269. -/
def coe2rv (p e incl raan argp true_anom : α) (mu : α := ℓ 1) : V3 α × V3 α :=
  let r_pf := perifocalPos p e true_anom
  let v_pf := perifocalVel p e true_anom mu
  let rotmat := perifocalToInertial incl raan argp
  (M3.mulVec rotmat r_pf, M3.mulVec rotmat v_pf)

end Adx
