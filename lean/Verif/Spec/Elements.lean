import Verif.Vec

/-! # Geometry of the classical elements, independent of the library's code

The frame of an orbital plane with inclination `i` and ascending node at longitude `Ω`: the direction of the
node, the direction 90° ahead of it in the plane, and the pole. -/

namespace Adx.Spec
open Adx

/-- Direction of the ascending node. -/
noncomputable def nodeDir (Ω : ℝ) : V3 ℝ := ⟨Real.cos Ω, Real.sin Ω, 0⟩
/-- The in-plane direction 90° ahead of the node. -/
noncomputable def aheadDir (i Ω : ℝ) : V3 ℝ :=
  ⟨-Real.sin Ω * Real.cos i, Real.cos Ω * Real.cos i, Real.sin i⟩
/-- The pole of the plane: at angle `i` from the z axis. -/
noncomputable def poleDir (i Ω : ℝ) : V3 ℝ :=
  ⟨Real.sin Ω * Real.sin i, -Real.cos Ω * Real.sin i, Real.cos i⟩
/-- The unit vector of the plane at angle `u` from the node, in the direction of motion. -/
noncomputable def inPlane (i Ω u : ℝ) : V3 ℝ := Real.cos u • nodeDir Ω + Real.sin u • aheadDir i Ω

end Adx.Spec
