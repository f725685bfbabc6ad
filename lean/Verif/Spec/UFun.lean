import Mathlib.Analysis.SpecialFunctions.Exponential

/-!
# Specification of the universal functions: one power series for all conics

Independent of the model: `U n χ α = χⁿ · Σ_k (-αχ²)^k / (n + 2k)!` (Battin's definition).
-/

namespace Adx.Spec
open Nat

/-- `c_n(z) = Σ_k z^k / (n + 2k)!` (Stumpff's series). -/
noncomputable def stumpff (n : ℕ) (z : ℝ) : ℝ := ∑' k : ℕ, z ^ k / ((n + 2 * k)! : ℝ)

/-- The universal function `U_n(χ; α)` by its power series. -/
noncomputable def U (n : ℕ) (χ α : ℝ) : ℝ := χ ^ n * stumpff n (-(α * χ ^ 2))

end Adx.Spec
