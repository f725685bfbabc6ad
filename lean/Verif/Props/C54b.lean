import Verif.Props.C53
import Verif.Props.C54
import Verif.Props.C10
import Verif.Props.C04

/-! # C54, radius and radial velocity: on a non-circular ellipse they alone repeat only after whole periods -/

namespace Adx
open V3 Spec

variable {r v : V3 ℝ} {mu : ℝ}

/-- C54: on a non-circular ellipse radius and `r·v` at time `t` are the initial ones iff `t` is a whole
number of `orb_period`s. -/
theorem C54_radius_return (hmu : 0 < mu) (hh : angular_momentum r v ≠ ⟨0, 0, 0⟩) (ha : 0 < aOf r v mu)
    (he : eOf r v mu ≠ 0) (t : ℝ) :
    (V3.norm (exactProp r v mu t).1 = V3.norm r ∧
      V3.dot (exactProp r v mu t).1 (exactProp r v mu t).2 = V3.dot r v) ↔
    ∃ k : ℤ, t = k * orb_period (aOf r v mu) mu := by
  constructor
  · rintro ⟨h1, h2⟩
    obtain ⟨E0, -, -, hE0⟩ := C53_eccentric_exists hmu hh ha
    have he1 : eOf r v mu < 1 := by
      have h1 := pOf_alpha hmu hh
      have hp := pOf_pos hh hmu
      have hα : 0 < alphaOf r v mu := one_div_pos.2 ha
      nlinarith [mul_pos hp hα]
    obtain ⟨E, hE, -⟩ := C10_existsUnique (e := eOf r v mu) (norm_nonneg _) he1
      (E0 - eOf r v mu * Real.sin E0 + mean_anomaly_elps (aOf r v mu) t mu)
    obtain ⟨⟨h5, h5'⟩, -⟩ := C53_elliptic_motion hmu hh ha hE0 hE
    have h6 : IsEccentric mu (aOf r v mu) (eOf r v mu) r v E := by
      refine ⟨?_, ?_⟩
      · rw [← norm_unfold] at h5 ⊢
        rw [← h1, h5]
      · rw [← h5']
        simpa only [V3.dot] using h2.symm
    obtain ⟨k, hk⟩ := C53_eccentric_unique hmu ha he hE0 h6
    refine ⟨k, ?_⟩
    have hsin : Real.sin E = Real.sin E0 := by
      rw [hk, mul_comm (2 * Real.pi), Real.sin_add_int_mul_two_pi]
    simp only [kepler_equ_elps, mean_anomaly_elps, sin_real, sqrt_real, hsin] at hE
    simp only [orb_period, Nat.cast_ofNat, pi_real, sqrt_real]
    have hq : Real.sqrt (mu / aOf r v mu ^ 3) * Real.sqrt (aOf r v mu ^ 3 / mu) = 1 := by
      rw [← Real.sqrt_mul (by positivity), div_mul_div_comm, mul_comm mu, div_self (by positivity), Real.sqrt_one]
    have h7 : Real.sqrt (mu / aOf r v mu ^ 3) * t = 2 * Real.pi * k := by linarith
    calc t = t * (Real.sqrt (mu / aOf r v mu ^ 3) * Real.sqrt (aOf r v mu ^ 3 / mu)) := by rw [hq, mul_one]
      _ = (Real.sqrt (mu / aOf r v mu ^ 3) * t) * Real.sqrt (aOf r v mu ^ 3 / mu) := by ring
      _ = _ := by rw [h7]; ring
  · intro h
    rw [((C54_elliptic_return hmu hh ha t).2).2 h]
    exact ⟨rfl, rfl⟩

/-- C54: so at any two times of a non-circular elliptic motion. -/
theorem C54_radius_least_period (hmu : 0 < mu) (hh : angular_momentum r v ≠ ⟨0, 0, 0⟩) (ha : 0 < aOf r v mu)
    (he : eOf r v mu ≠ 0) (t1 t2 : ℝ) :
    (V3.norm (exactProp r v mu t2).1 = V3.norm (exactProp r v mu t1).1 ∧
      V3.dot (exactProp r v mu t2).1 (exactProp r v mu t2).2
        = V3.dot (exactProp r v mu t1).1 (exactProp r v mu t1).2) ↔
    ∃ k : ℤ, t2 - t1 = k * orb_period (aOf r v mu) mu := by
  obtain ⟨h1, h2⟩ := exactProp_shift hmu hh t1 t2
  have h3 := step_aOf hmu hh t1
  have h4 := (exactProp_pe hmu hh t1).2
  have := C54_radius_return hmu h1 (by rw [h3]; exact ha) (by rw [h4]; exact he) (t2 - t1)
  rwa [h2, h3] at this

/-- The premise `e ≠ 0` is needed: on a circle radius and `r·v` are constant, at half a period too. -/
theorem C54_circle_radius (hmu : 0 < mu) (hh : angular_momentum r v ≠ ⟨0, 0, 0⟩) (ha : 0 < aOf r v mu)
    (he : eOf r v mu = 0) (t : ℝ) :
    V3.norm (exactProp r v mu t).1 = V3.norm r ∧
      V3.dot (exactProp r v mu t).1 (exactProp r v mu t).2 = V3.dot r v := by
  obtain ⟨E0, -, -, hE0⟩ := C53_eccentric_exists hmu hh ha
  obtain ⟨E, hE, -⟩ := C10_existsUnique (e := eOf r v mu) (norm_nonneg _) (by rw [he]; norm_num)
      (E0 - eOf r v mu * Real.sin E0 + mean_anomaly_elps (aOf r v mu) t mu)
  obtain ⟨⟨h5, h5'⟩, -⟩ := C53_elliptic_motion hmu hh ha hE0 hE
  obtain ⟨h6, h6'⟩ := hE0
  rw [← norm_unfold, he] at h5 h6
  rw [he] at h5' h6'
  simp only [V3.dot]
  exact ⟨by rw [h5, h6]; ring, by rw [h5', h6']; ring⟩

/-- The hypotheses are met: an ellipse of eccentricity 1/2. -/
example : (0 : ℝ) < aOf ⟨1, 0, 0⟩ ⟨0, 1, 0⟩ 2 ∧ eOf (⟨1, 0, 0⟩ : V3 ℝ) ⟨0, 1, 0⟩ 2 ≠ 0 ∧
    angular_momentum (⟨1, 0, 0⟩ : V3 ℝ) ⟨0, 1, 0⟩ ≠ ⟨0, 0, 0⟩ := by
  have h1 : V3.norm (⟨1, 0, 0⟩ : V3 ℝ) = 1 := by rw [norm_unfold]; norm_num
  have h2 : V3.norm (⟨0, 1, 0⟩ : V3 ℝ) = 1 := by rw [norm_unfold]; norm_num
  have hh : angular_momentum (⟨1, 0, 0⟩ : V3 ℝ) ⟨0, 1, 0⟩ ≠ ⟨0, 0, 0⟩ := by
    intro h; have := congrArg V3.z h; simp [angular_momentum, V3.cross] at this
  refine ⟨by rw [aOf, semimajor_axis, h1, h2]; norm_num, ?_, hh⟩
  intro he
  have h3 := pOf_inv (r := ⟨1, 0, 0⟩) (v := ⟨0, 1, 0⟩) (mu := 2) (by norm_num) hh
  have h4 := pOf_alpha (r := ⟨1, 0, 0⟩) (v := ⟨0, 1, 0⟩) (mu := 2) (by norm_num) hh
  have h5 : alphaOf (⟨1, 0, 0⟩ : V3 ℝ) ⟨0, 1, 0⟩ 2 = 3 / 2 := by rw [alphaOf, semimajor_axis, h1, h2]; norm_num
  have h6 : sigma_fn (⟨1, 0, 0⟩ : V3 ℝ) ⟨0, 1, 0⟩ 2 = 0 := by simp [sigma_fn, V3.dot]
  rw [h5, h6, h1] at h3
  rw [← h3, h5, he] at h4
  norm_num at h4

end Adx
