import Verif.Lemmas.Orbit

/-! # C04, C06: the integrals of a state are mutually consistent; radius bounds -/

namespace Adx
open V3

/-- The semiparameter the library computes for a state. -/
noncomputable def pOf (r v : V3 ℝ) (mu : ℝ) : ℝ := semiparameter (norm (angular_momentum r v)) mu
/-- The eccentricity the library computes for a state. -/
noncomputable def eOf (r v : V3 ℝ) (mu : ℝ) : ℝ := norm (eccentricity_vector r v mu)
/-- The semimajor axis the library computes for a state. -/
noncomputable def aOf (r v : V3 ℝ) (mu : ℝ) : ℝ := semimajor_axis (norm r) (norm v) mu

variable {r v : V3 ℝ} {mu : ℝ}

theorem pOf_pos (hh : cross r v ≠ ⟨0, 0, 0⟩) (hmu : 0 < mu) : 0 < pOf r v mu := by
  unfold pOf; rw [semiparameter_eq]
  exact div_pos ((dot_self_pos _).2 hh) hmu

/-- C04: `1 - e² = p / a` on every state, in the form that includes parabolas
(`1/a = 2/r - v²/mu`). -/
theorem C04_shape_size (hr : r ≠ ⟨0, 0, 0⟩) (hmu : 0 < mu) :
    1 - eOf r v mu ^ 2 = pOf r v mu * (2 / norm r - norm v ^ 2 / mu) := by
  unfold eOf pOf
  rw [norm_sq, ecc_norm_sq hr hmu.ne', semiparameter_eq, invA, norm_sq]; ring

/-- C04: off the parabola the three library functions agree: `p = semipara_from_ae(a, e)`. -/
theorem C04_semiparameter_consistent (hr : r ≠ ⟨0, 0, 0⟩) (hmu : 0 < mu)
    (hpar : 2 / norm r - norm v ^ 2 / mu ≠ 0) :
    pOf r v mu = semipara_from_ae (aOf r v mu) (eOf r v mu) := by
  have h := C04_shape_size (v := v) hr hmu
  simp only [semipara_from_ae, Nat.cast_one, h, aOf, semimajor_axis, Nat.cast_ofNat]
  rw [mul_comm, mul_assoc, mul_one_div_cancel hpar, mul_one]

/-- C04: off the parabola the sign of the semimajor axis classifies the conic. (On a parabola the code
divides by zero; see `Verif/Props/C48.lean` for what it returns there.) -/
theorem C04_conic_classification (hr : r ≠ ⟨0, 0, 0⟩) (hmu : 0 < mu) (hh : cross r v ≠ ⟨0, 0, 0⟩)
    (_hpar : 2 / norm r - norm v ^ 2 / mu ≠ 0) :
    (0 < aOf r v mu ↔ eOf r v mu < 1) ∧ (aOf r v mu < 0 ↔ 1 < eOf r v mu) := by
  have h := C04_shape_size (v := v) hr hmu
  have hp := pOf_pos hh hmu
  have he : 0 ≤ eOf r v mu := norm_nonneg _
  set w := 2 / norm r - norm v ^ 2 / mu with hw
  have ha : aOf r v mu = 1 / w := by simp [aOf, semimajor_axis, hw]
  rw [ha, one_div_pos, one_div_neg]
  refine ⟨⟨fun hw => ?_, fun he1 => ?_⟩, ⟨fun hw => ?_, fun he1 => ?_⟩⟩
  · nlinarith [mul_pos hp hw]
  · by_contra hc; push Not at hc; nlinarith
  · nlinarith
  · by_contra hc; push Not at hc; nlinarith

/-- C04: eccentricity one is zero orbital energy. -/
theorem C04_parabola (hr : r ≠ ⟨0, 0, 0⟩) (hmu : 0 < mu) (hh : cross r v ≠ ⟨0, 0, 0⟩) :
    norm v ^ 2 / 2 - mu / norm r = 0 ↔ eOf r v mu = 1 := by
  have h := C04_shape_size (v := v) hr hmu
  have hp := pOf_pos hh hmu
  have he : 0 ≤ eOf r v mu := norm_nonneg _
  have hn := (norm_pos r).2 hr
  set w := 2 / norm r - norm v ^ 2 / mu with hw
  have hE : norm v ^ 2 / 2 - mu / norm r = -(mu / 2) * w := by rw [hw]; field_simp; ring
  rw [hE]
  refine ⟨fun hw => ?_, fun he1 => ?_⟩
  · have : w = 0 := by
      rcases mul_eq_zero.1 hw with h | h
      · linarith
      · exact h
    rw [this] at h; nlinarith
  · rw [he1] at h
    have : pOf r v mu * w = 0 := by linarith
    rcases mul_eq_zero.1 this with h | h
    · exact absurd h hp.ne'
    · rw [h]; ring

/-- C06: no point of an orbit is below its periapsis radius. -/
theorem C06_periapsis_le_radius (hr : r ≠ ⟨0, 0, 0⟩) (hmu : 0 < mu) :
    radius_periapsis (pOf r v mu) (eOf r v mu) ≤ norm r := by
  have h := ecc_dot_pos (v := v) hr hmu.ne'
  have h1 := abs_le.1 (abs_dot_le (eccentricity_vector r v mu) r)
  have he : 0 ≤ eOf r v mu := norm_nonneg _
  simp only [radius_periapsis, Nat.cast_one]
  rw [div_le_iff₀ (by linarith), pOf, semiparameter_eq, ← h]
  unfold eOf at *
  nlinarith [h1.2]

/-- C06: no point of an elliptic orbit is above its apoapsis radius. -/
theorem C06_radius_le_apoapsis (hr : r ≠ ⟨0, 0, 0⟩) (hmu : 0 < mu) (he1 : eOf r v mu < 1) :
    norm r ≤ radius_apoapsis (pOf r v mu) (eOf r v mu) := by
  have h := ecc_dot_pos (v := v) hr hmu.ne'
  have h1 := abs_le.1 (abs_dot_le (eccentricity_vector r v mu) r)
  simp only [radius_apoapsis, Nat.cast_one]
  rw [le_div_iff₀ (by linarith), pOf, semiparameter_eq, ← h]
  unfold eOf at *
  nlinarith [h1.1]

/-- Non-vacuity: r = (1,0,0), v = (0, 6/5, 0), mu = 1 is an ellipse with e = 11/25. -/
example : (⟨1, 0, 0⟩ : V3 ℝ) ≠ ⟨0, 0, 0⟩ ∧ cross (⟨1, 0, 0⟩ : V3 ℝ) ⟨0, 6 / 5, 0⟩ ≠ ⟨0, 0, 0⟩ ∧
    eOf ⟨1, 0, 0⟩ ⟨0, 6 / 5, 0⟩ 1 = 11 / 25 ∧ pOf ⟨1, 0, 0⟩ ⟨0, 6 / 5, 0⟩ 1 = 36 / 25 := by
  have h1 : norm (⟨1, 0, 0⟩ : V3 ℝ) = 1 := by simp [V3.norm, dot]
  refine ⟨by simp [V3.ext_iff], by simp [V3.ext_iff, cross], ?_, ?_⟩
  · have : eccentricity_vector (⟨1, 0, 0⟩ : V3 ℝ) ⟨0, 6 / 5, 0⟩ 1 = ⟨11 / 25, 0, 0⟩ := by
      rw [ecc_eq, h1]
      ext <;> norm_num [dot]
    rw [eOf, this]
    simp only [V3.norm, dot, sqrt_real]
    rw [show (11 / 25 : ℝ) * (11 / 25) + 0 * 0 + 0 * 0 = (11 / 25) ^ 2 by ring]
    exact Real.sqrt_sq (by norm_num)
  · rw [pOf, semiparameter_eq]; simp [dot, cross]; norm_num

end Adx
