import Verif.Vec

/-! # Facts about real three-vectors and the real cube root -/

namespace Adx

theorem realCbrt_pow_three (x : ℝ) : realCbrt x ^ 3 = x := by
  unfold realCbrt
  split_ifs with h
  · rw [← Real.rpow_natCast, ← Real.rpow_mul h]; norm_num
  · have h' : 0 ≤ -x := by linarith
    have : ((-x) ^ (1 / 3 : ℝ)) ^ 3 = -x := by
      rw [← Real.rpow_natCast, ← Real.rpow_mul h']; norm_num
    rw [neg_pow, this]; ring

theorem realCbrt_nonneg {x : ℝ} (h : 0 ≤ x) : 0 ≤ realCbrt x := by
  unfold realCbrt; rw [if_pos h]; exact Real.rpow_nonneg h _

theorem realCbrt_of_pow_three {x : ℝ} (h : 0 ≤ x) : realCbrt (x ^ 3) = x := by
  have h1 := realCbrt_pow_three (x ^ 3)
  have h2 := realCbrt_nonneg (x := x ^ 3) (by positivity)
  exact (pow_left_inj₀ h2 h (by norm_num)).1 h1

namespace V3
variable (a b c : V3 ℝ)

theorem dot_self_nonneg : 0 ≤ dot a a := by
  unfold dot; nlinarith [mul_self_nonneg a.x, mul_self_nonneg a.y, mul_self_nonneg a.z]

theorem norm_nonneg : 0 ≤ norm a := Real.sqrt_nonneg _

theorem norm_sq : norm a ^ 2 = dot a a := by
  simp only [norm, sqrt_real]; exact Real.sq_sqrt (dot_self_nonneg a)

theorem norm_mul_self : norm a * norm a = dot a a := by rw [← norm_sq]; ring

theorem dot_self_eq_zero : dot a a = 0 ↔ a = ⟨0, 0, 0⟩ := by
  constructor
  · intro h
    unfold dot at h
    have hx := mul_self_nonneg a.x
    have hy := mul_self_nonneg a.y
    have hz := mul_self_nonneg a.z
    ext
    · exact mul_self_eq_zero.1 (by linarith)
    · exact mul_self_eq_zero.1 (by linarith)
    · exact mul_self_eq_zero.1 (by linarith)
  · rintro rfl; simp [dot]

theorem norm_eq_zero : norm a = 0 ↔ a = ⟨0, 0, 0⟩ := by
  rw [← dot_self_eq_zero, ← norm_sq]; simp

theorem norm_pos : 0 < norm a ↔ a ≠ ⟨0, 0, 0⟩ := by
  rw [ne_eq, ← (norm_eq_zero a).not]
  exact ⟨fun h => h.ne', fun h => lt_of_le_of_ne (norm_nonneg a) (Ne.symm h)⟩

theorem dot_self_pos : 0 < dot a a ↔ a ≠ ⟨0, 0, 0⟩ := by
  rw [← norm_pos, ← norm_sq]
  exact ⟨fun h => lt_of_le_of_ne (norm_nonneg a) (by rintro h0; rw [← h0] at h; simp at h),
    fun h => by positivity⟩

theorem dot_comm : dot a b = dot b a := by unfold dot; ring

/-- Lagrange's identity. -/
theorem dot_cross_self : dot (cross a b) (cross a b) = dot a a * dot b b - dot a b ^ 2 := by
  simp only [dot, cross]; ring

theorem norm_smul (k : ℝ) : norm (k • a) = |k| * norm a := by
  simp only [norm, sqrt_real]
  rw [show dot (k • a) (k • a) = k ^ 2 * dot a a by simp only [dot, smul_x, smul_y, smul_z]; ring,
    Real.sqrt_mul (sq_nonneg k), Real.sqrt_sq_eq_abs]

theorem abs_dot_le : |dot a b| ≤ norm a * norm b := by
  have h := dot_self_nonneg (cross a b)
  rw [dot_cross_self, ← norm_sq, ← norm_sq] at h
  apply abs_le_of_sq_le_sq
  · nlinarith
  · exact mul_nonneg (norm_nonneg a) (norm_nonneg b)

theorem norm_cross_sq : norm (cross a b) ^ 2 = norm a ^ 2 * norm b ^ 2 - dot a b ^ 2 := by
  rw [norm_sq, norm_sq, norm_sq, dot_cross_self]

end V3
end Adx
