import Verif.Vec
import Mathlib.Data.Real.Basic

/-! # Specification for C73: distance of states (independent of the model) -/

namespace Adx.Spec

/-- Two states agree to within `δ` in each of the six components. -/
def Near (δ : ℝ) (p q : V3 ℝ × V3 ℝ) : Prop :=
  |p.1.x - q.1.x| ≤ δ ∧ |p.1.y - q.1.y| ≤ δ ∧ |p.1.z - q.1.z| ≤ δ ∧
  |p.2.x - q.2.x| ≤ δ ∧ |p.2.y - q.2.y| ≤ δ ∧ |p.2.z - q.2.z| ≤ δ

end Adx.Spec
