import Verif.Spec.Rounding

/-! # What floating-point arithmetic with underflow is

Numbers of magnitude at least `ν` (the smallest normal number) are rounded with a relative error of at most `u`, smaller ones
with an absolute error of at most `η`: `η = ν u` with gradual underflow (IEEE 754), `η = ν` if they are flushed to zero. -/

namespace Adx.Spec

/-- A library function `g` for the exact function `f`: at most `L` roundings off, and a number of the format. -/
def LibFun (F : Fp) (u L ν η : ℝ) (g f : ℝ → ℝ) : Prop :=
  ∀ x, (ν ≤ |f x| → Within u L (g x) (f x)) ∧ (|f x| < ν → |g x - f x| ≤ L * η) ∧ F.rd (g x) = g x

/-- Floating-point arithmetic with underflow. -/
structure UModel (F : Fp) (u L ν η : ℝ) : Prop where
  u_pos : 0 < u
  u_small : u ≤ 1 / 1000
  one_le : 1 ≤ L
  le_hundred : L ≤ 100
  nu_pos : 0 < ν
  nu_small : ν ≤ 1 / 1000
  eta_nonneg : 0 ≤ η
  eta_le : η ≤ ν
  rd : ∀ x, ν ≤ |x| → |F.rd x - x| ≤ u * |x|
  tiny : ∀ x, |x| < ν → |F.rd x - x| ≤ η
  nonneg : ∀ x, 0 ≤ x → 0 ≤ F.rd x
  neg : ∀ x, F.rd (-x) = -F.rd x
  idem : ∀ x, F.rd (F.rd x) = F.rd x
  /-- two different numbers of the format differ by a unit in the last place of the smaller one -/
  gap : ∀ x y, F.rd x = x → F.rd y = y → x ≠ y → u * min |x| |y| ≤ |x - y|
  lit : ∀ n : ℕ, n ≤ 1000 → F.rd n = n
  sin : LibFun F u L ν η F.sin Real.sin
  cos : LibFun F u L ν η F.cos Real.cos
  sinh : LibFun F u L ν η F.sinh Real.sinh
  cosh : LibFun F u L ν η F.cosh Real.cosh
  log : LibFun F u L ν η F.log Real.log
  cbrt : LibFun F u L ν η F.cbrt realCbrt
  arccos : LibFun F u L ν η F.arccos Real.arccos
  arctan2 : ∀ y, LibFun F u L ν η (F.arctan2 y) (fun x => Complex.arg ⟨x, y⟩)

end Adx.Spec
