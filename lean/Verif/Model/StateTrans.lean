import Verif.Model.KepEqu
import Verif.Model.Lagrange

/-! # Model of `src/astrodynx/twobody/_state_trans.py` -/

namespace Adx
variable {α : Type} [Add α] [Sub α] [Neg α] [Mul α] [Div α] [Pow α ℕ] [NatCast α] [JFun α]

/-- `C_func`, _state_trans.py:43:
`(3 * U5 - chi * U4 - jnp.sqrt(mu) * deltat * U2) / jnp.sqrt(mu)`. -/
def C_func (chi U2 U4 U5 : α) (deltat : α := (ℓ 314) / (ℓ 100)) (mu : α := ℓ 1) : α :=
  (ℓ 3 * U5 - chi * U4 - JFun.sqrt mu * deltat * U2) / JFun.sqrt mu

/-- `prpr0`, _state_trans.py:83-89. -/
def prpr0 (r_vec v_vec r0_vec v0_vec : V3 α) (F C : α) (mu : α := ℓ 1) : M3 α :=
  let r0_mag := V3.norm r0_vec;
  (V3.norm r_vec / mu) • M3.outer (v_vec - v0_vec) (v_vec - v0_vec)
    + (ℓ 1 - F) • M3.outer (r_vec / r0_mag) (r0_vec / r0_mag)
    + (C / r0_mag ^ 2) • M3.outer v_vec (r0_vec / r0_mag)
    + F • (M3.eye : M3 α)

/-- `prpv0`, _state_trans.py:130-137. -/
def prpv0 (r_vec v_vec r0_vec v0_vec : V3 α) (F G C : α) (mu : α := ℓ 1) : M3 α :=
  (V3.norm r0_vec / mu * (ℓ 1 - F))
      • (M3.outer (r_vec - r0_vec) v0_vec - M3.outer (v_vec - v0_vec) r0_vec)
    + (C / mu) • M3.outer v_vec v0_vec
    + G • (M3.eye : M3 α)

/-- `pvpr0`, _state_trans.py:182-196. (`/` and `@` associate to the left:
`(outer - outer) / mu @ outer`.) -/
def pvpr0 (r_vec v_vec r0_vec v0_vec : V3 α) (Ft C : α) (mu : α := ℓ 1) : M3 α :=
  let r0_mag := V3.norm r0_vec
  let r_mag := V3.norm r_vec;
  -(M3.outer (v_vec - v0_vec) (r0_vec / r0_mag ^ 2))
    - M3.outer (r_vec / r_mag ^ 2) (v_vec - v0_vec)
    + Ft • ((M3.eye : M3 α)
        - M3.outer (r_vec / r_mag) (r_vec / r_mag)
        + M3.mul ((M3.outer r_vec v_vec - M3.outer v_vec r_vec) / mu)
            (M3.outer (r_vec / r_mag) (v_vec - v0_vec)))
    - (mu / r_mag ^ 2 * C / r0_mag ^ 2) • M3.outer (r_vec / r_mag) (r0_vec / r0_mag)

/-- `pvpv0`, _state_trans.py:233-240. (The docstring at :229 writes `1/r0^3`; the code divides by
`r_mag^3`.) The code's `(1 - F) * outer * r0_mag / r_mag` is `((1 - F) * outer) * r0_mag / r_mag`
element by element. -/
def pvpv0 (r_vec v_vec r0_vec v0_vec : V3 α) (F Gt C : α) (mu : α := ℓ 1) : M3 α :=
  let r0_mag := V3.norm r0_vec
  let r_mag := V3.norm r_vec;
  (r0_mag / mu) • M3.outer (v_vec - v0_vec) (v_vec - v0_vec)
    + (r0_mag • ((ℓ 1 - F) • M3.outer (r_vec / r_mag) (r0_vec / r_mag))) / r_mag
    - (C / r_mag ^ 2) • M3.outer (r_vec / r_mag) v0_vec
    + Gt • (M3.eye : M3 α)

/-- A `(6, 6)` array built by `jnp.block` from four `(3, 3)` blocks. -/
@[ext] structure B6 (α : Type) where
  /-- upper left: d r / d r0 -/
  rr : M3 α
  /-- upper right: d r / d v0 -/
  rv : M3 α
  /-- lower left: d v / d r0 -/
  vr : M3 α
  /-- lower right: d v / d v0 -/
  vv : M3 α

/-- `dxdx0`, _state_trans.py:298-327. -/
def dxdx0 (r_vec v_vec r0_vec v0_vec : V3 α) (deltat : α := ℓ 314 / ℓ 100) (mu : α := ℓ 1) : B6 α :=
  let r0_mag := V3.norm r0_vec
  let r_mag := V3.norm r_vec
  let alpha := ℓ 1 / semimajor_axis r0_mag (V3.norm v0_vec) mu
  let chi := generalized_anomaly alpha (sigma_fn r_vec v_vec mu) (sigma_fn r0_vec v0_vec mu)
    deltat mu
  let C := C_func chi (ufunc2 chi alpha) (ufunc4 chi alpha) (ufunc5 chi alpha) deltat mu
  let F := lagrange_F (ufunc2 chi alpha) r0_mag
  let G := lagrange_G (ufunc1 chi alpha) (ufunc2 chi alpha) (sigma_fn r0_vec v0_vec mu) r0_mag mu
  let Ft := lagrange_Ft (ufunc1 chi alpha) r_mag r0_mag mu
  let Gt := lagrange_Gt (ufunc2 chi alpha) r_mag
  ⟨prpr0 r_vec v_vec r0_vec v0_vec F C mu, prpv0 r_vec v_vec r0_vec v0_vec F G C mu,
   pvpr0 r_vec v_vec r0_vec v0_vec Ft C mu, pvpv0 r_vec v_vec r0_vec v0_vec F Gt C mu⟩

end Adx
