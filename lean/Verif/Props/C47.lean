import Verif.Model.OrbElements
import Verif.Lemmas.RealVec

/-! # C47: the rotation matrices are rotations -/

namespace Adx
open V3

/-- The specification of a rotation: `RᵀR = I` and `det R = 1`. -/
structure IsRotation (R : M3 ℝ) : Prop where
  /-- columns are orthonormal -/
  orth : M3.mul (M3.transpose R) R = M3.eye
  /-- orientation is kept -/
  det_one : M3.det R = 1

/-- The inverse order also holds (`RRᵀ = I`), from the adjugate. -/
theorem IsRotation.mul_transpose {R : M3 ℝ} (h : IsRotation R) :
    M3.mul R (M3.transpose R) = M3.eye := by
  obtain ⟨⟨a, b, c⟩, ⟨d, e, f⟩, ⟨g, i, j⟩⟩ := R
  have ho := h.orth
  have hd := h.det_one
  simp only [M3.mul, M3.transpose, M3.eye, dot, M3.ext_iff, V3.ext_iff, Nat.cast_one,
    Nat.cast_zero, M3.det, cross] at ho hd ⊢
  obtain ⟨⟨h1, h2, h3⟩, ⟨h4, h5, h6⟩, ⟨h7, h8, h9⟩⟩ := ho
  -- rows are the cross products of the columns' cofactors
  have ka : a = e * j - f * i := by
    linear_combination -a * hd + (e * j - f * i) * h1 + (f * g - d * j) * h2 + (d * i - e * g) * h3
  have kb : b = f * g - d * j := by
    linear_combination -b * hd + (e * j - f * i) * h4 + (f * g - d * j) * h5 + (d * i - e * g) * h6
  have kc : c = d * i - e * g := by
    linear_combination -c * hd + (e * j - f * i) * h7 + (f * g - d * j) * h8 + (d * i - e * g) * h9
  have kd : d = c * i - b * j := by
    linear_combination -d * hd + (c * i - b * j) * h1 + (a * j - c * g) * h2 + (b * g - a * i) * h3
  have ke : e = a * j - c * g := by
    linear_combination -e * hd + (c * i - b * j) * h4 + (a * j - c * g) * h5 + (b * g - a * i) * h6
  have kf : f = b * g - a * i := by
    linear_combination -f * hd + (c * i - b * j) * h7 + (a * j - c * g) * h8 + (b * g - a * i) * h9
  have kg : g = b * f - c * e := by
    linear_combination -g * hd + (b * f - c * e) * h1 + (c * d - a * f) * h2 + (a * e - b * d) * h3
  have ki : i = c * d - a * f := by
    linear_combination -i * hd + (b * f - c * e) * h4 + (c * d - a * f) * h5 + (a * e - b * d) * h6
  have kj : j = a * e - b * d := by
    linear_combination -j * hd + (b * f - c * e) * h7 + (c * d - a * f) * h8 + (a * e - b * d) * h9
  refine ⟨⟨?_, ?_, ?_⟩, ⟨?_, ?_, ?_⟩, ⟨?_, ?_, ?_⟩⟩
  · linear_combination hd + a * ka + b * kb + c * kc
  · linear_combination a * kd + b * ke + c * kf
  · linear_combination a * kg + b * ki + c * kj
  · linear_combination d * ka + e * kb + f * kc
  · linear_combination hd + d * kd + e * ke + f * kf
  · linear_combination d * kg + e * ki + f * kj
  · linear_combination g * ka + i * kb + j * kc
  · linear_combination g * kd + i * ke + j * kf
  · linear_combination hd + g * kg + i * ki + j * kj

theorem IsRotation.mul {A B : M3 ℝ} (ha : IsRotation A) (hb : IsRotation B) :
    IsRotation (M3.mul A B) := by
  constructor
  · have h1 : M3.mul (M3.transpose (M3.mul A B)) (M3.mul A B)
        = M3.mul (M3.transpose B) (M3.mul (M3.mul (M3.transpose A) A) B) := by
      ext <;> simp only [M3.mul, M3.transpose, dot] <;> ring
    have h2 : ∀ X : M3 ℝ, M3.mul M3.eye X = X := by
      intro X; ext <;> simp [M3.mul, M3.transpose, M3.mulVec, dot, M3.eye]
    rw [h1, ha.orth, h2, hb.orth]
  · have : M3.det (M3.mul A B) = M3.det A * M3.det B := by
      simp only [M3.det, M3.mul, M3.transpose, M3.mulVec, dot, cross]; ring
    rw [this, ha.det_one, hb.det_one, one_mul]

/-- C47: all three functions return rotations, for every angle. -/
theorem C47_isRotation (a : ℝ) :
    IsRotation (rotmat3dx a) ∧ IsRotation (rotmat3dy a) ∧ IsRotation (rotmat3dz a) := by
  have h := Real.sin_sq_add_cos_sq a
  refine ⟨⟨?_, ?_⟩, ⟨?_, ?_⟩, ⟨?_, ?_⟩⟩
  all_goals
    simp only [rotmat3dx, rotmat3dy, rotmat3dz, M3.mul, M3.transpose, M3.mulVec, M3.eye, M3.det, dot,
      cross, M3.ext_iff, V3.ext_iff, sin_real, cos_real, Nat.cast_one, Nat.cast_zero]
  · refine ⟨⟨?_, ?_, ?_⟩, ⟨?_, ?_, ?_⟩, ⟨?_, ?_, ?_⟩⟩ <;> first | ring1 | linear_combination h
  · linear_combination h
  · refine ⟨⟨?_, ?_, ?_⟩, ⟨?_, ?_, ?_⟩, ⟨?_, ?_, ?_⟩⟩ <;> first | ring1 | linear_combination h
  · linear_combination h
  · refine ⟨⟨?_, ?_, ?_⟩, ⟨?_, ?_, ?_⟩, ⟨?_, ?_, ?_⟩⟩ <;> first | ring1 | linear_combination h
  · linear_combination h

/-- C47: each matrix fixes its axis. -/
theorem C47_axis (a : ℝ) :
    M3.mulVec (rotmat3dx a) ⟨1, 0, 0⟩ = ⟨1, 0, 0⟩ ∧ M3.mulVec (rotmat3dy a) ⟨0, 1, 0⟩ = ⟨0, 1, 0⟩ ∧
      M3.mulVec (rotmat3dz a) ⟨0, 0, 1⟩ = ⟨0, 0, 1⟩ := by
  refine ⟨?_, ?_, ?_⟩ <;> ext <;> simp [rotmat3dx, rotmat3dy, rotmat3dz, M3.mulVec, dot]

/-- C47: counterclockwise rotation of the plane orthogonal to the axis, seen from its positive end:
the first axis of the plane at angle `b` goes to angle `a + b`. -/
theorem C47_counterclockwise (a b : ℝ) :
    M3.mulVec (rotmat3dx a) ⟨0, Real.cos b, Real.sin b⟩ = ⟨0, Real.cos (a + b), Real.sin (a + b)⟩ ∧
    M3.mulVec (rotmat3dy a) ⟨Real.sin b, 0, Real.cos b⟩ = ⟨Real.sin (a + b), 0, Real.cos (a + b)⟩ ∧
    M3.mulVec (rotmat3dz a) ⟨Real.cos b, Real.sin b, 0⟩ = ⟨Real.cos (a + b), Real.sin (a + b), 0⟩ := by
  refine ⟨?_, ?_, ?_⟩ <;> ext <;>
    simp only [rotmat3dx, rotmat3dy, rotmat3dz, M3.mulVec, dot, Real.cos_add, Real.sin_add, sin_real,
      cos_real, Nat.cast_one, Nat.cast_zero] <;> ring

/-- C47: rotations about one axis compose by adding angles. -/
theorem C47_group (a b : ℝ) :
    M3.mul (rotmat3dx a) (rotmat3dx b) = rotmat3dx (a + b) ∧
    M3.mul (rotmat3dy a) (rotmat3dy b) = rotmat3dy (a + b) ∧
    M3.mul (rotmat3dz a) (rotmat3dz b) = rotmat3dz (a + b) := by
  refine ⟨?_, ?_, ?_⟩ <;> ext <;>
    simp only [rotmat3dx, rotmat3dy, rotmat3dz, M3.mul, M3.transpose, M3.mulVec, dot, Real.cos_add,
      Real.sin_add, sin_real, cos_real, Nat.cast_one, Nat.cast_zero] <;> ring

/-- C47: `R(0) = I`, `R(-a) = R(a)ᵀ`, `R(a + 2π) = R(a)`. -/
theorem C47_zero_neg_period (a : ℝ) :
    (rotmat3dx (0 : ℝ) = M3.eye ∧ rotmat3dy (0 : ℝ) = M3.eye ∧ rotmat3dz (0 : ℝ) = M3.eye) ∧
    (rotmat3dx (-a) = M3.transpose (rotmat3dx a) ∧ rotmat3dy (-a) = M3.transpose (rotmat3dy a) ∧
      rotmat3dz (-a) = M3.transpose (rotmat3dz a)) ∧
    (rotmat3dx (a + 2 * Real.pi) = rotmat3dx a ∧ rotmat3dy (a + 2 * Real.pi) = rotmat3dy a ∧
      rotmat3dz (a + 2 * Real.pi) = rotmat3dz a) := by
  refine ⟨⟨?_, ?_, ?_⟩, ⟨?_, ?_, ?_⟩, ⟨?_, ?_, ?_⟩⟩ <;> ext <;>
    simp [rotmat3dx, rotmat3dy, rotmat3dz, M3.eye, M3.transpose]

/-- C47: the perifocal-to-inertial matrix of `coe2rv` is a rotation. -/
theorem C47_perifocal (incl raan argp : ℝ) : IsRotation (perifocalToInertial incl raan argp) :=
  ((C47_isRotation raan).2.2.mul (C47_isRotation incl).1).mul (C47_isRotation argp).2.2

/-- Non-vacuity: a quarter turn about z sends x to y and is not the identity. -/
example : M3.mulVec (rotmat3dz (Real.pi / 2)) ⟨1, 0, 0⟩ = ⟨0, 1, 0⟩ := by
  ext <;> simp [rotmat3dz, M3.mulVec, dot]

end Adx
