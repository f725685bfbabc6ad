import Verif.Spec.Calculus

/-! # Specification of the zonal gravity field (independent of the model)

Textbook definitions: Legendre polynomials by Bonnet's recursion, the zonal term of degree `n` of the
geopotential, and the central term. Accelerations are gradients of these. -/

namespace Adx.Spec

/-- Legendre polynomials: `P₀ = 1`, `P₁ = u`, `(n+2) P_{n+2} = (2n+3) u P_{n+1} - (n+1) P_n`. -/
noncomputable def legendre : ℕ → ℝ → ℝ
  | 0, _ => 1
  | 1, u => u
  | n + 2, u => ((2 * n + 3) * u * legendre (n + 1) u - (n + 1) * legendre n u) / (n + 2)

/-- Euclidean distance from the origin. -/
noncomputable def radius (p : V3 ℝ) : ℝ := Real.sqrt (p.x ^ 2 + p.y ^ 2 + p.z ^ 2)

/-- The central potential `mu / r`. -/
noncomputable def centralPotential (mu : ℝ) (p : V3 ℝ) : ℝ := mu / radius p

/-- The zonal potential of degree `n`: `-(mu/r) J_n (R/r)^n P_n(z/r)`. -/
noncomputable def zonalPotential (n : ℕ) (mu J R : ℝ) (p : V3 ℝ) : ℝ :=
  -(mu / radius p) * J * (R / radius p) ^ n * legendre n (p.z / radius p)

/-- `f` is the gradient of `V` at `p`: along every differentiable curve through `p`, the derivative of
`V` is the scalar product of `f` with the velocity. -/
def IsGradientAt (V : V3 ℝ → ℝ) (f p : V3 ℝ) : Prop :=
  ∀ (c : ℝ → V3 ℝ) (c' : V3 ℝ) (s : ℝ), c s = p → HasDerivV c c' s →
    HasDerivAt (fun s => V (c s)) (f.x * c'.x + f.y * c'.y + f.z * c'.z) s

end Adx.Spec
