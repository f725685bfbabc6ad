import Verif.Lemmas.Angle
import Verif.Props.C04

/-! # C05, C35: a state satisfies its own orbit equation; ranges of the elements -/

namespace Adx
open V3

variable {r v : V3 ℝ} {mu : ℝ}

/-- C05: with `p`, the eccentricity vector and the true anomaly all taken from the library, the orbit
equation returns the distance of the state. -/
theorem C05_orbit_equation (hh : cross r v ≠ ⟨0, 0, 0⟩) (hmu : 0 < mu) :
    equ_of_orbit (pOf r v mu) (eOf r v mu) (true_anomaly r (eccentricity_vector r v mu)) = norm r := by
  have hr : r ≠ ⟨0, 0, 0⟩ := by rintro rfl; apply hh; ext <;> simp [cross]
  have hn := (norm_pos r).2 hr
  have h := ecc_dot_pos (v := v) hr hmu.ne'
  have hc := cos_angle (eccentricity_vector r v mu) r
  have hp := pOf_pos hh hmu
  rw [pOf, semiparameter_eq, ← h] at *
  simp only [equ_of_orbit, true_anomaly, arctan2_real, cos_real, cos_wrapNeg, Nat.cast_one, eOf]
  set c := Real.cos (Complex.arg ⟨dot (eccentricity_vector r v mu) r,
    norm (cross (eccentricity_vector r v mu) r)⟩)
  have hd : (1 + norm (eccentricity_vector r v mu) * c) * norm r
      = dot (eccentricity_vector r v mu) r + norm r := by rw [← hc]; ring
  have hne : 1 + norm (eccentricity_vector r v mu) * c ≠ 0 := by
    intro h0; rw [h0, zero_mul] at hd; linarith
  rw [div_eq_iff hne, ← hd]; ring

/-- C05: position, velocity and eccentricity vector are perpendicular to the angular momentum. -/
theorem C05_plane (r v : V3 ℝ) (mu : ℝ) :
    dot r (angular_momentum r v) = 0 ∧ dot v (angular_momentum r v) = 0 ∧
      dot (eccentricity_vector r v mu) (angular_momentum r v) = 0 :=
  ⟨dot_cross_left r v, dot_cross_right r v, ecc_dot_h r v mu⟩

/-- C35: ranges of the six elements, for every state whatsoever. The last two lie in `[0, π]`, not in
`[0, 2π)`: the wrap-around branch `jnp.where(angle < 0, ...)` in `true_anomaly` and
`argument_of_periapsis` can never be taken. -/
theorem C35_ranges (r v : V3 ℝ) (hmu : 0 ≤ mu) :
    0 ≤ (rv2coe r v mu).p ∧ 0 ≤ (rv2coe r v mu).e ∧
    (0 ≤ (rv2coe r v mu).incl ∧ (rv2coe r v mu).incl ≤ Real.pi) ∧
    (0 ≤ (rv2coe r v mu).raan ∧ (rv2coe r v mu).raan < 2 * Real.pi) ∧
    (0 ≤ (rv2coe r v mu).argp ∧ (rv2coe r v mu).argp ≤ Real.pi) ∧
    (0 ≤ (rv2coe r v mu).true_anom ∧ (rv2coe r v mu).true_anom ≤ Real.pi) := by
  have key : ∀ x y : ℝ, 0 ≤ y → 0 ≤ wrapNeg (Complex.arg ⟨x, y⟩) ∧
      wrapNeg (Complex.arg ⟨x, y⟩) ≤ Real.pi := by
    intro x y hy
    have h : 0 ≤ Complex.arg ⟨x, y⟩ := Complex.arg_nonneg_iff.2 hy
    rw [wrapNeg_of_nonneg h]
    exact ⟨h, Complex.arg_le_pi _⟩
  refine ⟨?_, norm_nonneg _, ⟨Real.arccos_nonneg _, Real.arccos_le_pi _⟩,
    wrapNeg_arg_range _, key _ _ (norm_nonneg _), key _ _ (norm_nonneg _)⟩
  simp only [rv2coe, semiparameter]
  positivity

/-- C35: the wrap-around branch of the true anomaly and of the argument of periapsis is dead code. -/
theorem C35_wrap_is_dead (a b : V3 ℝ) :
    ¬ JFun.arctan2 (norm (cross a b)) (dot a b) < (0 : ℝ) :=
  not_lt.2 (Complex.arg_nonneg_iff.2 (norm_nonneg _))

/-- Non-vacuity of C05: an inclined state with nonzero angular momentum. -/
example : cross (⟨1, 0, 0⟩ : V3 ℝ) ⟨1 / 2, 1, 1⟩ ≠ ⟨0, 0, 0⟩ := by simp [V3.ext_iff, cross]

end Adx
