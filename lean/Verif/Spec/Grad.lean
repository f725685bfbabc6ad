import Verif.Vec
import Verif.Model.Rev
import Mathlib.Analysis.Calculus.Deriv.Basic

/-! # What a correct gradient is

`IsGrad F x r`: the traced value `r` carries the value of `F` at `x`, and its pullback sends a cotangent `ct` to
`ct` times the gradient of `F` at `x`. -/

namespace Adx
namespace Spec
variable {ι : Type} [Fintype ι]

/-- The point `x + s w`. -/
def line (x w : ι → ℝ) (s : ℝ) : ι → ℝ := fun i => x i + s * w i

/-- The pullback as a function: a constant pulls back to 0. -/
def pullback (r : Rev ι ℝ) (ct : ℝ) (i : ι) : ℝ := match r.adj with
  | some b => b ct i
  | none => 0

/-- `r` is the value of `F` at `x` together with the gradient of `F` at `x`. -/
structure IsGrad (F : (ι → ℝ) → ℝ) (x : ι → ℝ) (r : Rev ι ℝ) : Prop where
  /-- the value -/
  val : r.val = F x
  /-- the pullback is multiplication by the gradient -/
  pull : ∀ ct i, pullback r ct i = ct * r.grad i
  /-- the gradient gives the derivative in every direction -/
  deriv : ∀ w, HasDerivAt (fun s => F (line x w s)) (∑ i, r.grad i * w i) 0

/-- The same for vectors, entry by entry (the rows of a Jacobian). -/
structure IsGradV (F : (ι → ℝ) → V3 ℝ) (x₀ : ι → ℝ) (r : V3 (Rev ι ℝ)) : Prop where
  /-- entry 0 -/
  x : IsGrad (fun u => (F u).x) x₀ r.x
  /-- entry 1 -/
  y : IsGrad (fun u => (F u).y) x₀ r.y
  /-- entry 2 -/
  z : IsGrad (fun u => (F u).z) x₀ r.z

/-- The same for matrices, row by row. -/
structure IsGradM (F : (ι → ℝ) → M3 ℝ) (x : ι → ℝ) (r : M3 (Rev ι ℝ)) : Prop where
  /-- row 0 -/
  r0 : IsGradV (fun u => (F u).r0) x r.r0
  /-- row 1 -/
  r1 : IsGradV (fun u => (F u).r1) x r.r1
  /-- row 2 -/
  r2 : IsGradV (fun u => (F u).r2) x r.r2

end Spec
end Adx
