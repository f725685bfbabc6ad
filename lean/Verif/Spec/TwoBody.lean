import Verif.Spec.Calculus

/-! # Specification of the two-body problem (independent of the model) -/

namespace Adx.Spec

/-- `(q, w)` moves under the attraction of a point mass at the origin at every time in `s`:
`q' = w`, `w' = -mu q / |q|³`. -/
def TwoBodyOn (mu : ℝ) (s : Set ℝ) (q w : ℝ → V3 ℝ) : Prop :=
  ∀ t ∈ s, q t ≠ ⟨0, 0, 0⟩ ∧ HasDerivV q (w t) t ∧
    HasDerivV w ((-mu / Real.sqrt ((q t).x ^ 2 + (q t).y ^ 2 + (q t).z ^ 2) ^ 3) • q t) t

end Adx.Spec
