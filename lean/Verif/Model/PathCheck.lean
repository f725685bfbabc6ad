import Verif.Model.OrbIntegrals

/-! # Model of `src/astrodynx/twobody/_path_check.py` -/

namespace Adx
variable {α : Type} [Add α] [Sub α] [Neg α] [Mul α] [Div α] [Pow α ℕ] [NatCast α] [JFun α]

/-- `nmax_by_periapsis`, _path_check.py:54-55 (the literal `0.5` is `1/2`). -/
def nmax_by_periapsis (rp_min : α := ℓ 97 / ℓ 100) (r1 : α := ℓ 1) (r2 : α := ℓ 1)
    (tof : α := JFun.pi) (mu : α := ℓ 1) : α :=
  let amin := ℓ 1 / ℓ 2 * (JFun.maximum r1 r2 + rp_min)
  JFun.floor (tof / (ℓ 2 * JFun.pi) * JFun.sqrt (mu / amin ^ 3))

/-- `is_short_way`, _path_check.py:86. -/
def is_short_way (r1 v1 r2 : V3 α) : Bool :=
  JFun.lt (ℓ 0) (V3.dot (V3.cross r1 v1) (V3.cross r1 r2))

/-- `pass_perigee`, _path_check.py:130-133. -/
def pass_perigee (r1 v1 r2 : V3 α) (mu : α := ℓ 1) : Bool :=
  let e := eccentricity_vector r1 v1 mu
  let b1 := JFun.lt (ℓ 0) (V3.dot (V3.cross r1 r2) (V3.cross r1 e))
  let b2 := JFun.lt (ℓ 0) (V3.dot (V3.cross r1 r2) (V3.cross e r2))
  (b1 && b2) == is_short_way r1 v1 r2

/-- `rp_islower_rmin`, _path_check.py:161-163. -/
def rp_islower_rmin (rmin : α) (r v : V3 α) (mu : α := ℓ 1) : Bool :=
  let p := semiparameter (V3.norm (angular_momentum r v)) mu
  let e := V3.norm (eccentricity_vector r v mu)
  JFun.lt (radius_periapsis p e) rmin

end Adx
