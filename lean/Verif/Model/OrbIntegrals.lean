import Verif.Vec

/-! # Model of `src/astrodynx/twobody/_orb_integrals.py` -/

namespace Adx
variable {α : Type} [Add α] [Sub α] [Neg α] [Mul α] [Div α] [Pow α ℕ] [NatCast α] [JFun α]

/-- `orb_period`, _orb_integrals.py:46: `2 * jnp.pi * jnp.sqrt(a**3 / mu)`. -/
def orb_period (a : α) (mu : α := ℓ 1) : α := ℓ 2 * JFun.pi * JFun.sqrt (a ^ 3 / mu)

/-- `a_from_period`, _orb_integrals.py:83: `jnp.cbrt(orbperiod**2 * mu / 4 / jnp.pi**2)`.
(The docstring at :63 says square root; the code takes the cube root.) -/
def a_from_period (orbperiod : α) (mu : α := ℓ 1) : α :=
  JFun.cbrt (orbperiod ^ 2 * mu / ℓ 4 / JFun.pi ^ 2)

/-- `angular_momentum`, _orb_integrals.py:125: `jnp.cross(pos_vec, vel_vec)`. -/
def angular_momentum (pos_vec vel_vec : V3 α) : V3 α := V3.cross pos_vec vel_vec

/-- `semimajor_axis`, _orb_integrals.py:169: `1 / (2 / r_mag - v_mag**2 / mu)`. -/
def semimajor_axis (r_mag v_mag : α) (mu : α := ℓ 1) : α := ℓ 1 / (ℓ 2 / r_mag - v_mag ^ 2 / mu)

/-- `eccentricity_vector`, _orb_integrals.py:216-219:
`jnp.cross(vel_vec, h) / mu - pos_vec / vector_norm(pos_vec)`. -/
def eccentricity_vector (pos_vec vel_vec : V3 α) (mu : α := ℓ 1) : V3 α :=
  let h := angular_momentum pos_vec vel_vec
  V3.cross vel_vec h / mu - pos_vec / V3.norm pos_vec

/-- `semiparameter`, _orb_integrals.py:260: `h_mag**2 / mu`. -/
def semiparameter (h_mag : α) (mu : α := ℓ 1) : α := h_mag ^ 2 / mu

/-- `mean_motion`, _orb_integrals.py:298: `2 * jnp.pi / P`. -/
def mean_motion (P : α) : α := ℓ 2 * JFun.pi / P

/-- `equ_of_orbit`, _orb_integrals.py:342: `p / (1 + e * jnp.cos(f))`. -/
def equ_of_orbit (p e f : α) : α := p / (ℓ 1 + e * JFun.cos f)

/-- `equ_of_orb_uvi`, _orb_integrals.py:393: `r0 * U0 + sigma0 * U1 + U2`. -/
def equ_of_orb_uvi (U0 U1 U2 r0 sigma0 : α) : α := r0 * U0 + sigma0 * U1 + U2

/-- `radius_periapsis`, _orb_integrals.py:434: `p / (1 + e)`. -/
def radius_periapsis (p e : α) : α := p / (ℓ 1 + e)

/-- `radius_apoapsis`, _orb_integrals.py:475: `p / (1 - e)`. -/
def radius_apoapsis (p e : α) : α := p / (ℓ 1 - e)

/-- `semipara_from_ae`, _orb_integrals.py:516: `a * (1 - e**2)`. -/
def semipara_from_ae (a e : α) : α := a * (ℓ 1 - e ^ 2)

/-- `a_from_pe`, _orb_integrals.py:557: `p / (1 - e**2)`. -/
def a_from_pe (p e : α) : α := p / (ℓ 1 - e ^ 2)

end Adx
