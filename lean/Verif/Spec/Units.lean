import Verif.Vec

/-! # Change of units (specification, independent of the model)

A new unit of length and of time multiplies the numbers of a position by `L`, of a time by `T`, of a velocity by
`L / T`, and of a gravitational parameter by `L³ / T²`. -/

namespace Adx.Spec

/-- Conversion factors. -/
structure Units where
  /-- numbers of lengths are multiplied by this -/
  L : ℝ
  /-- numbers of times are multiplied by this -/
  T : ℝ
  L_pos : 0 < L
  T_pos : 0 < T

namespace Units
variable (u : Units)

/-- A position in the new units. -/
def pos (r : V3 ℝ) : V3 ℝ := ⟨u.L * r.x, u.L * r.y, u.L * r.z⟩
/-- A velocity in the new units. -/
noncomputable def vel (v : V3 ℝ) : V3 ℝ := ⟨u.L / u.T * v.x, u.L / u.T * v.y, u.L / u.T * v.z⟩
/-- A gravitational parameter in the new units. -/
noncomputable def grav (mu : ℝ) : ℝ := u.L ^ 3 / u.T ^ 2 * mu
/-- A time in the new units. -/
def time (t : ℝ) : ℝ := u.T * t

end Units
end Adx.Spec
