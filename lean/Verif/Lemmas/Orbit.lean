import Verif.Model.OrbIntegrals
import Verif.Model.UniFormulas
import Verif.Lemmas.RealVec

/-! # Vector identities behind the two-body integrals (real arithmetic) -/

namespace Adx
open V3

/-- Twice the negative specific energy over mu: `2/|r| - |v|²/mu`, the reciprocal semimajor axis. -/
noncomputable def invA (r v : V3 ℝ) (mu : ℝ) : ℝ := 2 / norm r - dot v v / mu

theorem inv_semimajor_axis (r v : V3 ℝ) (mu : ℝ) :
    1 / semimajor_axis (norm r) (norm v) mu = invA r v mu := by
  simp only [semimajor_axis, invA, norm_sq, Nat.cast_one, Nat.cast_ofNat, one_div_one_div]

variable {r v : V3 ℝ} {mu : ℝ}

theorem dot_cross_left (a b : V3 ℝ) : dot a (cross a b) = 0 := by
  simp only [dot, cross]; ring

theorem dot_cross_right (a b : V3 ℝ) : dot b (cross a b) = 0 := by
  simp only [dot, cross]; ring

/-- `v × (r × v) = (v·v) r - (r·v) v` -/
theorem cross_cross (r v : V3 ℝ) : cross v (cross r v) = dot v v • r - dot r v • v := by
  ext <;> simp only [dot, cross, sub_x, sub_y, sub_z, smul_x, smul_y, smul_z] <;> ring

/-- The eccentricity vector expanded on `r` and `v`. -/
theorem ecc_eq (r v : V3 ℝ) (mu : ℝ) :
    eccentricity_vector r v mu
      = (dot v v / mu - 1 / norm r) • r - (dot r v / mu) • v := by
  simp only [eccentricity_vector, angular_momentum, cross_cross]
  ext <;> simp only [sub_x, sub_y, sub_z, smul_x, smul_y, smul_z, div_x, div_y, div_z] <;> ring

/-- `e·r + |r| = h²/mu` -/
theorem ecc_dot_pos (hr : r ≠ ⟨0, 0, 0⟩) (hmu : mu ≠ 0) :
    dot (eccentricity_vector r v mu) r + norm r = dot (cross r v) (cross r v) / mu := by
  have hn : norm r ≠ 0 := ((norm_pos r).2 hr).ne'
  have h2 := norm_sq r
  rw [ecc_eq, dot_cross_self,
    show dot ((dot v v / mu - 1 / norm r) • r - (dot r v / mu) • v) r
      = (dot v v / mu - 1 / norm r) * dot r r - dot r v / mu * dot r v by
        simp only [dot, sub_x, sub_y, sub_z, smul_x, smul_y, smul_z]; ring, ← h2]
  field_simp; ring

/-- `|e|² = 1 - (h²/mu) (2/r - v²/mu)` -/
theorem ecc_norm_sq (hr : r ≠ ⟨0, 0, 0⟩) (hmu : mu ≠ 0) :
    dot (eccentricity_vector r v mu) (eccentricity_vector r v mu)
      = 1 - dot (cross r v) (cross r v) / mu * invA r v mu := by
  have hn : norm r ≠ 0 := ((norm_pos r).2 hr).ne'
  have h2 := norm_sq r
  rw [ecc_eq, dot_cross_self, invA,
    show ∀ x y : ℝ, dot (x • r - y • v) (x • r - y • v)
      = x ^ 2 * dot r r - 2 * x * y * dot r v + y ^ 2 * dot v v by
        intro x y; simp only [dot, sub_x, sub_y, sub_z, smul_x, smul_y, smul_z]; ring, ← h2]
  field_simp; ring

theorem ecc_dot_h (r v : V3 ℝ) (mu : ℝ) : dot (eccentricity_vector r v mu) (cross r v) = 0 := by
  rw [ecc_eq]
  simp only [dot, cross, sub_x, sub_y, sub_z, smul_x, smul_y, smul_z]; ring

theorem semiparameter_eq (r v : V3 ℝ) (mu : ℝ) :
    semiparameter (norm (angular_momentum r v)) mu = dot (cross r v) (cross r v) / mu := by
  simp only [semiparameter, angular_momentum, norm_sq]

end Adx
