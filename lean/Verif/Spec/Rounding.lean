import Verif.Rnd
import Mathlib.Analysis.SpecialFunctions.Log.Basic

/-! # What a rounding error bound is

The standard model of floating-point arithmetic and Higham's constant `γ_k`. -/

namespace Adx.Spec

/-- `γ_k = k u / (1 - k u)`: the usual bound for `k` accumulated rounding errors of size `u`. -/
noncomputable def gam (u k : ℝ) : ℝ := k * u / (1 - k * u)

/-- `a` is `x` up to a factor between `(1 - u)^k` and `(1 - u)^(-k)`. -/
def Within (u k a x : ℝ) : Prop := ∃ θ, |θ| ≤ k * -Real.log (1 - u) ∧ a = x * Real.exp θ

/-- The standard model: every rounding has a relative error of at most `u`, integers up to 1000 are exact, and the
elementary functions are off by at most `L` roundings (`L = 1`: correctly rounded). -/
structure StdModel (F : Fp) (u L : ℝ) : Prop where
  u_pos : 0 < u
  u_small : u ≤ 1 / 1000
  one_le : 1 ≤ L
  le_hundred : L ≤ 100
  rd : ∀ x, |F.rd x - x| ≤ u * |x|
  lit : ∀ n : ℕ, n ≤ 1000 → F.rd n = n
  sin : ∀ x, Within u L (F.sin x) (Real.sin x)
  cos : ∀ x, Within u L (F.cos x) (Real.cos x)
  sinh : ∀ x, Within u L (F.sinh x) (Real.sinh x)
  cosh : ∀ x, Within u L (F.cosh x) (Real.cosh x)
  log : ∀ x, Within u L (F.log x) (Real.log x)
  cbrt : ∀ x, Within u L (F.cbrt x) (realCbrt x)
  arccos : ∀ x, Within u L (F.arccos x) (Real.arccos x)
  arctan2 : ∀ y x, Within u L (F.arctan2 y x) (Complex.arg ⟨x, y⟩)

end Adx.Spec
