import Verif.Model.OrbElements
import Verif.Lemmas.Orbit

/-! # `arctan2` facts -/

namespace Adx
open V3 Real

theorem cos_arctan2 (y x : ℝ) : Real.sqrt (x ^ 2 + y ^ 2) * Real.cos (Complex.arg ⟨x, y⟩) = x := by
  have hn : ‖(⟨x, y⟩ : ℂ)‖ = Real.sqrt (x ^ 2 + y ^ 2) := by
    rw [Complex.norm_def, Complex.normSq_mk]; congr 1; ring
  rw [← hn]; exact Complex.norm_mul_cos_arg _

theorem sin_arctan2 (y x : ℝ) : Real.sqrt (x ^ 2 + y ^ 2) * Real.sin (Complex.arg ⟨x, y⟩) = y := by
  have hn : ‖(⟨x, y⟩ : ℂ)‖ = Real.sqrt (x ^ 2 + y ^ 2) := by
    rw [Complex.norm_def, Complex.normSq_mk]; congr 1; ring
  rw [← hn]; exact Complex.norm_mul_sin_arg _

/-- The value of `arctan2` is determined by its range and direction. -/
theorem arctan2_eq {ρ θ : ℝ} (hρ : 0 < ρ) (h1 : -π < θ) (h2 : θ ≤ π) :
    Complex.arg ⟨ρ * Real.cos θ, ρ * Real.sin θ⟩ = θ := by
  have := Complex.arg_mul_cos_add_sin_mul_I hρ (θ := θ) ⟨h1, h2⟩
  convert this using 2
  apply Complex.ext <;> simp [Complex.cos_ofReal_re, Complex.sin_ofReal_re]

theorem wrapNeg_of_nonneg {x : ℝ} (h : 0 ≤ x) : wrapNeg x = x := by
  simp [wrapNeg, not_lt.2 h]

theorem wrapNeg_of_neg {x : ℝ} (h : x < 0) : wrapNeg x = 2 * π + x := by
  simp [wrapNeg, h]

theorem cos_wrapNeg (x : ℝ) : Real.cos (wrapNeg x) = Real.cos x := by
  rcases lt_or_ge x 0 with h | h
  · rw [wrapNeg_of_neg h, add_comm, Real.cos_add_two_pi]
  · rw [wrapNeg_of_nonneg h]

theorem sin_wrapNeg (x : ℝ) : Real.sin (wrapNeg x) = Real.sin x := by
  rcases lt_or_ge x 0 with h | h
  · rw [wrapNeg_of_neg h, add_comm, Real.sin_add_two_pi]
  · rw [wrapNeg_of_nonneg h]

theorem wrapNeg_arg_range (z : ℂ) : 0 ≤ wrapNeg z.arg ∧ wrapNeg z.arg < 2 * π := by
  have h1 := Complex.neg_pi_lt_arg z
  have h2 := Complex.arg_le_pi z
  have hp := Real.pi_pos
  rcases lt_or_ge z.arg 0 with h | h
  · rw [wrapNeg_of_neg h]; constructor <;> linarith
  · rw [wrapNeg_of_nonneg h]; constructor <;> linarith

/-- `arctan2(|a × b|, a·b)` is the unsigned angle between `a` and `b`. -/
theorem cos_angle (a b : V3 ℝ) :
    norm a * norm b * Real.cos (Complex.arg ⟨dot a b, norm (cross a b)⟩) = dot a b := by
  have h := cos_arctan2 (norm (cross a b)) (dot a b)
  rw [norm_cross_sq, show dot a b ^ 2 + (norm a ^ 2 * norm b ^ 2 - dot a b ^ 2)
    = (norm a * norm b) ^ 2 by ring,
    Real.sqrt_sq (mul_nonneg (norm_nonneg a) (norm_nonneg b))] at h
  exact h

theorem sin_angle (a b : V3 ℝ) :
    norm a * norm b * Real.sin (Complex.arg ⟨dot a b, norm (cross a b)⟩) = norm (cross a b) := by
  have h := sin_arctan2 (norm (cross a b)) (dot a b)
  rw [norm_cross_sq, show dot a b ^ 2 + (norm a ^ 2 * norm b ^ 2 - dot a b ^ 2)
    = (norm a * norm b) ^ 2 by ring,
    Real.sqrt_sq (mul_nonneg (norm_nonneg a) (norm_nonneg b))] at h
  exact h

end Adx
