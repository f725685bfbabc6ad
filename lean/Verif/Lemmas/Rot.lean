import Verif.Props.C47
import Verif.Lemmas.Orbit

/-! # How rotations act on dot products, cross products and norms -/

namespace Adx
open V3

/-- The cofactor identities: each row is the cross product of the other two. -/
theorem IsRotation.rows {R : M3 ℝ} (h : IsRotation R) :
    R.r0 = cross R.r1 R.r2 ∧ R.r1 = cross R.r2 R.r0 ∧ R.r2 = cross R.r0 R.r1 := by
  obtain ⟨⟨a, b, c⟩, ⟨d, e, f⟩, ⟨g, i, j⟩⟩ := R
  have ho := h.orth
  have hd := h.det_one
  simp only [M3.mul, M3.transpose, M3.mulVec, M3.eye, dot, M3.ext_iff, V3.ext_iff, Nat.cast_one,
    Nat.cast_zero, M3.det, cross] at ho hd ⊢
  obtain ⟨⟨h1, h2, h3⟩, ⟨h4, h5, h6⟩, ⟨h7, h8, h9⟩⟩ := ho
  refine ⟨⟨?_, ?_, ?_⟩, ⟨?_, ?_, ?_⟩, ⟨?_, ?_, ?_⟩⟩
  · linear_combination -a * hd + (e * j - f * i) * h1 + (f * g - d * j) * h2 + (d * i - e * g) * h3
  · linear_combination -b * hd + (e * j - f * i) * h4 + (f * g - d * j) * h5 + (d * i - e * g) * h6
  · linear_combination -c * hd + (e * j - f * i) * h7 + (f * g - d * j) * h8 + (d * i - e * g) * h9
  · linear_combination -d * hd + (c * i - b * j) * h1 + (a * j - c * g) * h2 + (b * g - a * i) * h3
  · linear_combination -e * hd + (c * i - b * j) * h4 + (a * j - c * g) * h5 + (b * g - a * i) * h6
  · linear_combination -f * hd + (c * i - b * j) * h7 + (a * j - c * g) * h8 + (b * g - a * i) * h9
  · linear_combination -g * hd + (b * f - c * e) * h1 + (c * d - a * f) * h2 + (a * e - b * d) * h3
  · linear_combination -i * hd + (b * f - c * e) * h4 + (c * d - a * f) * h5 + (a * e - b * d) * h6
  · linear_combination -j * hd + (b * f - c * e) * h7 + (c * d - a * f) * h8 + (a * e - b * d) * h9

theorem mulVec_add (R : M3 ℝ) (a b : V3 ℝ) : M3.mulVec R (a + b) = M3.mulVec R a + M3.mulVec R b := by
  ext <;> simp only [M3.mulVec, dot, add_x, add_y, add_z] <;> ring

theorem mulVec_sub (R : M3 ℝ) (a b : V3 ℝ) : M3.mulVec R (a - b) = M3.mulVec R a - M3.mulVec R b := by
  ext <;> simp only [M3.mulVec, dot, sub_x, sub_y, sub_z] <;> ring

theorem mulVec_smul (R : M3 ℝ) (k : ℝ) (a : V3 ℝ) : M3.mulVec R (k • a) = k • M3.mulVec R a := by
  ext <;> simp only [M3.mulVec, dot, smul_x, smul_y, smul_z] <;> ring

theorem mulVec_mul (A B : M3 ℝ) (a : V3 ℝ) : M3.mulVec (M3.mul A B) a = M3.mulVec A (M3.mulVec B a) := by
  ext <;> simp only [M3.mulVec, M3.mul, M3.transpose, dot] <;> ring

section
variable {R : M3 ℝ} (h : IsRotation R) (a b : V3 ℝ)
include h

theorem IsRotation.dot : dot (M3.mulVec R a) (M3.mulVec R b) = V3.dot a b := by
  obtain ⟨⟨A, B, C⟩, ⟨d, e, f⟩, ⟨g, i, j⟩⟩ := R
  have ho := h.orth
  simp only [M3.mul, M3.transpose, M3.mulVec, M3.eye, V3.dot, M3.ext_iff, V3.ext_iff, Nat.cast_one,
    Nat.cast_zero] at ho ⊢
  obtain ⟨⟨h1, h2, h3⟩, ⟨h4, h5, h6⟩, ⟨h7, h8, h9⟩⟩ := ho
  linear_combination a.x * b.x * h1 + a.x * b.y * h2 + a.x * b.z * h3 + a.y * b.x * h4 + a.y * b.y * h5
    + a.y * b.z * h6 + a.z * b.x * h7 + a.z * b.y * h8 + a.z * b.z * h9

theorem IsRotation.norm : norm (M3.mulVec R a) = V3.norm a := by simp only [V3.norm, h.dot]

theorem IsRotation.cross : cross (M3.mulVec R a) (M3.mulVec R b) = M3.mulVec R (V3.cross a b) := by
  obtain ⟨e0, e1, e2⟩ := h.rows
  have key : ∀ p q : V3 ℝ, V3.dot p a * V3.dot q b - V3.dot q a * V3.dot p b
      = V3.dot (V3.cross p q) (V3.cross a b) := by
    intro p q; simp only [V3.dot, V3.cross]; ring
  ext
  · simp only [M3.mulVec, cross_x, key, ← e0]
  · simp only [M3.mulVec, cross_y, key, ← e1]
  · simp only [M3.mulVec, cross_z, key, ← e2]

theorem IsRotation.eq_zero : M3.mulVec R a = ⟨0, 0, 0⟩ ↔ a = ⟨0, 0, 0⟩ := by
  rw [← norm_eq_zero, h.norm, norm_eq_zero]

theorem IsRotation.ecc (mu : ℝ) :
    eccentricity_vector (M3.mulVec R a) (M3.mulVec R b) mu = M3.mulVec R (eccentricity_vector a b mu) := by
  rw [ecc_eq, ecc_eq, h.dot, h.dot, h.norm, mulVec_sub, mulVec_smul, mulVec_smul]

end
end Adx
