import Verif.Spec.Elements
import Verif.Lemmas.Rot
import Verif.Lemmas.Angle

/-! # Lemmas on classical elements -/

namespace Adx
open V3 Spec

theorem perifocal_inPlane (i Ω ω f ρ : ℝ) :
    M3.mulVec (perifocalToInertial i Ω ω) (ρ • (⟨Real.cos f, Real.sin f, 0⟩ : V3 ℝ)) = ρ • inPlane i Ω (ω + f) := by
  ext <;> simp only [M3.mulVec, perifocalToInertial, M3.mul, M3.transpose, rotmat3dx, rotmat3dz, dot, inPlane,
    nodeDir, aheadDir, add_x, add_y, add_z, smul_x, smul_y, smul_z, sin_real, cos_real, Nat.cast_zero, Nat.cast_one,
    Real.cos_add, Real.sin_add] <;> ring

theorem perifocal_pole (i Ω ω k : ℝ) :
    M3.mulVec (perifocalToInertial i Ω ω) (⟨0, 0, k⟩ : V3 ℝ) = k • poleDir i Ω := by
  ext <;> simp only [M3.mulVec, perifocalToInertial, M3.mul, M3.transpose, rotmat3dx, rotmat3dz, dot,
    poleDir, smul_x, smul_y, smul_z, sin_real, cos_real, Nat.cast_zero, Nat.cast_one] <;> ring

theorem dot_inPlane (i Ω u w : ℝ) : dot (inPlane i Ω u) (inPlane i Ω w) = Real.cos (w - u) := by
  have h1 := Real.sin_sq_add_cos_sq Ω
  have h2 := Real.sin_sq_add_cos_sq i
  rw [Real.cos_sub]
  simp only [dot, inPlane, nodeDir, aheadDir, add_x, add_y, add_z, smul_x, smul_y, smul_z]
  linear_combination (Real.cos u * Real.cos w + Real.sin u * Real.sin w * Real.cos i ^ 2) * h1
    + (Real.sin u * Real.sin w) * h2

theorem cross_inPlane (i Ω u w : ℝ) :
    cross (inPlane i Ω u) (inPlane i Ω w) = Real.sin (w - u) • poleDir i Ω := by
  have h1 := Real.sin_sq_add_cos_sq Ω
  rw [Real.sin_sub]
  ext <;> simp only [cross, inPlane, nodeDir, aheadDir, poleDir, add_x, add_y, add_z, smul_x, smul_y, smul_z]
  · ring
  · ring
  · linear_combination (Real.cos u * Real.sin w - Real.sin u * Real.cos w) * Real.cos i * h1

theorem dot_pole_self (i Ω : ℝ) : dot (poleDir i Ω) (poleDir i Ω) = 1 := by
  have h1 := Real.sin_sq_add_cos_sq Ω
  have h2 := Real.sin_sq_add_cos_sq i
  simp only [dot, poleDir]
  linear_combination Real.sin i ^ 2 * h1 + h2

theorem norm_pole (i Ω : ℝ) : V3.norm (poleDir i Ω) = 1 := by
  simp only [V3.norm, dot_pole_self, sqrt_real, Real.sqrt_one]

theorem norm_inPlane (i Ω u : ℝ) : V3.norm (inPlane i Ω u) = 1 := by
  simp only [V3.norm, dot_inPlane, sub_self, Real.cos_zero, sqrt_real, Real.sqrt_one]

/-- Position in the perifocal frame over its radius. -/
theorem perifocalPos_eq (p e f : ℝ) :
    perifocalPos p e f = (p / (1 + e * Real.cos f)) • (⟨Real.cos f, Real.sin f, 0⟩ : V3 ℝ) := by
  simp [perifocalPos]

theorem perifocalVel_eq (p e f mu : ℝ) :
    perifocalVel p e f mu = Real.sqrt (mu / p) • (⟨-Real.sin f, e + Real.cos f, 0⟩ : V3 ℝ) := by
  simp [perifocalVel]

section
variable {p e f mu : ℝ} (hp : 0 < p) (hmu : 0 < mu) (hf : 0 < 1 + e * Real.cos f)
include hp hmu hf

theorem perifocal_h : cross (perifocalPos p e f) (perifocalVel p e f mu) = ⟨0, 0, Real.sqrt (mu * p)⟩ := by
  have h1 := Real.sin_sq_add_cos_sq f
  have hs : p * Real.sqrt (mu / p) = Real.sqrt (mu * p) := by
    rw [show mu * p = p ^ 2 * (mu / p) by field_simp, Real.sqrt_mul (sq_nonneg p), Real.sqrt_sq hp.le]
  rw [perifocalPos_eq, perifocalVel_eq, ← hs]
  ext <;> simp only [cross, smul_x, smul_y, smul_z]
  · ring
  · ring
  · field_simp; linear_combination h1

omit hmu in
theorem perifocal_norm : V3.norm (perifocalPos p e f) = p / (1 + e * Real.cos f) := by
  have h1 := Real.sin_sq_add_cos_sq f
  have : dot (perifocalPos p e f) (perifocalPos p e f) = (p / (1 + e * Real.cos f)) ^ 2 := by
    rw [perifocalPos_eq]
    simp only [dot, smul_x, smul_y, smul_z]
    linear_combination (p / (1 + e * Real.cos f)) ^ 2 * h1
  rw [V3.norm, this, sqrt_real, Real.sqrt_sq (by positivity)]

theorem perifocal_ecc : eccentricity_vector (perifocalPos p e f) (perifocalVel p e f mu) mu = ⟨e, 0, 0⟩ := by
  have h1 := Real.sin_sq_add_cos_sq f
  have hw : Real.sqrt (mu / p) ^ 2 = mu / p := Real.sq_sqrt (by positivity)
  rw [ecc_eq, perifocal_norm hp hf]
  have hvv : dot (perifocalVel p e f mu) (perifocalVel p e f mu) = mu / p * (1 + e ^ 2 + 2 * e * Real.cos f) := by
    rw [perifocalVel_eq]; simp only [dot, smul_x, smul_y, smul_z]
    linear_combination Real.sqrt (mu / p) ^ 2 * h1 + (1 + e ^ 2 + 2 * e * Real.cos f) * hw
  have hrv : dot (perifocalPos p e f) (perifocalVel p e f mu)
      = p / (1 + e * Real.cos f) * Real.sqrt (mu / p) * (e * Real.sin f) := by
    rw [perifocalVel_eq, perifocalPos_eq]; simp only [dot, smul_x, smul_y, smul_z]; ring
  rw [hvv, hrv, perifocalPos_eq, perifocalVel_eq]
  set w := Real.sqrt (mu / p)
  have hw' : p * w ^ 2 = mu := by rw [hw]; field_simp
  ext <;> simp only [sub_x, sub_y, sub_z, smul_x, smul_y, smul_z]
  · field_simp; linear_combination (e * Real.sin f ^ 2) * hw' + mu * e * h1
  · field_simp; linear_combination (-(e * Real.sin f * (e + Real.cos f))) * hw'
  · ring

end

/-- The state is determined by angular momentum, eccentricity vector and direction. -/
theorem vel_from_h_ecc {r v : V3 ℝ} {mu : ℝ} (hmu : mu ≠ 0) (hh : cross r v ≠ ⟨0, 0, 0⟩) :
    v = (mu / dot (cross r v) (cross r v)) • cross (cross r v)
      (eccentricity_vector r v mu + (1 / V3.norm r) • r) := by
  have hr : r ≠ ⟨0, 0, 0⟩ := by rintro rfl; apply hh; ext <;> simp [cross]
  have hd : dot (cross r v) (cross r v) ≠ 0 := by rwa [ne_eq, dot_self_eq_zero]
  have e1 : eccentricity_vector r v mu + (1 / V3.norm r) • r = (1 / mu) • cross v (cross r v) := by
    rw [ecc_eq, cross_cross]
    ext <;> simp only [add_x, add_y, add_z, sub_x, sub_y, sub_z, smul_x, smul_y, smul_z] <;> ring
  have e2 : cross (cross r v) (cross v (cross r v)) = dot (cross r v) (cross r v) • v := by
    ext <;> simp only [cross, dot, smul_x, smul_y, smul_z] <;> ring
  have e3 : ∀ (k : ℝ) (a b : V3 ℝ), cross a (k • b) = k • cross a b := by
    intro k a b; ext <;> simp only [cross, smul_x, smul_y, smul_z] <;> ring
  rw [e1, e3, e2]
  ext <;> simp only [smul_x, smul_y, smul_z] <;> field_simp

/-- The angle folded to `[0, π]`. -/
theorem arg_fold {k : ℝ} (hk : 0 < k) (f : ℝ) :
    Complex.arg ⟨k * Real.cos f, k * |Real.sin f|⟩ = Real.arccos (Real.cos f) := by
  have h := arctan2_eq hk (θ := Real.arccos (Real.cos f))
    (by linarith [Real.arccos_nonneg (Real.cos f), Real.pi_pos]) (Real.arccos_le_pi _)
  rw [Real.cos_arccos (Real.neg_one_le_cos f) (Real.cos_le_one f), Real.sin_arccos, ← Real.abs_sin_eq_sqrt_one_sub_cos_sq]
    at h
  exact h

/-- Every pair of reals has polar coordinates with angle in `[0, 2π)`. -/
theorem exists_angle (x y : ℝ) :
    ∃ θ, 0 ≤ θ ∧ θ < 2 * Real.pi ∧ x = Real.sqrt (x ^ 2 + y ^ 2) * Real.cos θ ∧
      y = Real.sqrt (x ^ 2 + y ^ 2) * Real.sin θ := by
  refine ⟨wrapNeg (Complex.arg ⟨x, y⟩), (wrapNeg_arg_range _).1, (wrapNeg_arg_range _).2, ?_, ?_⟩
  · rw [cos_wrapNeg, cos_arctan2]
  · rw [sin_wrapNeg, sin_arctan2]

/-- A vector orthogonal to the pole is at some angle in the plane. -/
theorem exists_inPlane (i Ω : ℝ) {x : V3 ℝ} (hx : dot x (poleDir i Ω) = 0) :
    ∃ u, 0 ≤ u ∧ u < 2 * Real.pi ∧ x = V3.norm x • inPlane i Ω u := by
  -- coordinates in the node frame
  set a := dot x (nodeDir Ω) with ha
  set b := dot x (aheadDir i Ω) with hb
  have h1 := Real.sin_sq_add_cos_sq Ω
  have h2 := Real.sin_sq_add_cos_sq i
  have hdec : x = a • nodeDir Ω + b • aheadDir i Ω := by
    simp only [dot, poleDir] at hx
    ext
    · simp only [ha, hb, dot, nodeDir, aheadDir, add_x, smul_x]
      linear_combination (-(x.x)) * h1 + (-(x.x * Real.sin Ω ^ 2) + x.y * Real.sin Ω * Real.cos Ω) * h2
        + Real.sin Ω * Real.sin i * hx
    · simp only [ha, hb, dot, nodeDir, aheadDir, add_y, smul_y]
      linear_combination (-(x.y)) * h1 + (-(x.y * Real.cos Ω ^ 2) + x.x * Real.sin Ω * Real.cos Ω) * h2
        - Real.cos Ω * Real.sin i * hx
    · simp only [ha, hb, dot, nodeDir, aheadDir, add_z, smul_z]
      linear_combination (-(x.z)) * h2 + Real.cos i * hx
  have hn : V3.norm x = Real.sqrt (a ^ 2 + b ^ 2) := by
    have : dot x x = a ^ 2 + b ^ 2 := by
      conv_lhs => rw [hdec]
      simp only [dot, nodeDir, aheadDir, add_x, add_y, add_z, smul_x, smul_y, smul_z]
      linear_combination (a ^ 2 + b ^ 2 * Real.cos i ^ 2) * h1 + b ^ 2 * h2
    rw [V3.norm, this, sqrt_real]
  obtain ⟨u, hu0, hu1, hua, hub⟩ := exists_angle a b
  refine ⟨u, hu0, hu1, ?_⟩
  rw [hn]
  refine hdec.trans ?_
  ext <;> simp only [inPlane, add_x, add_y, add_z, smul_x, smul_y, smul_z]
  · linear_combination (nodeDir Ω).x * hua + (aheadDir i Ω).x * hub
  · linear_combination (nodeDir Ω).y * hua + (aheadDir i Ω).y * hub
  · linear_combination (nodeDir Ω).z * hua + (aheadDir i Ω).z * hub

end Adx
