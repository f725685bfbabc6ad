import Verif.Vec

/-! # Model of `src/astrodynx/twobody/_lagrange.py` -/

namespace Adx
variable {α : Type} [Add α] [Sub α] [Neg α] [Mul α] [Div α] [Pow α ℕ] [NatCast α] [JFun α]

/-- `lagrange_F`, _lagrange.py:45: `1 - U2 / r0_mag`. -/
def lagrange_F (U2 : α) (r0_mag : α := ℓ 1) : α := ℓ 1 - U2 / r0_mag

/-- `lagrange_G`, _lagrange.py:100: `(r0_mag * U1 + sigma0 * U2) / jnp.sqrt(mu)`. -/
def lagrange_G (U1 U2 : α) (sigma0 : α := ℓ 0) (r0_mag : α := ℓ 1) (mu : α := ℓ 1) : α :=
  (r0_mag * U1 + sigma0 * U2) / JFun.sqrt mu

/-- `lagrange_Ft`, _lagrange.py:148: `-jnp.sqrt(mu) / r_mag * U1 / r0_mag`. -/
def lagrange_Ft (U1 r_mag : α) (r0_mag : α := ℓ 1) (mu : α := ℓ 1) : α :=
  -JFun.sqrt mu / r_mag * U1 / r0_mag

/-- `lagrange_Gt`, _lagrange.py:188: `1 - U2 / r_mag`. -/
def lagrange_Gt (U2 r_mag : α) : α := ℓ 1 - U2 / r_mag

end Adx
