import Verif.Model.OrbIntegrals
import Verif.Lemmas.RealVec

/-! # C01, C02: period, semimajor axis, mean motion, mean anomaly -/

namespace Adx

/-- C01: Kepler's third law. -/
theorem C01_third_law {a mu : ℝ} (ha : 0 ≤ a) (hmu : 0 < mu) :
    orb_period a mu ^ 2 * mu = 4 * Real.pi ^ 2 * a ^ 3 := by
  simp only [orb_period, pi_real, sqrt_real, mul_pow]
  rw [Real.sq_sqrt (by positivity)]
  push_cast
  field_simp; ring

/-- C01: the semimajor axis is recovered from the period. -/
theorem C01_a_from_period_orb_period {a mu : ℝ} (ha : 0 ≤ a) (hmu : 0 < mu) :
    a_from_period (orb_period a mu) mu = a := by
  have h3 := C01_third_law ha hmu
  simp only [a_from_period, cbrt_real, pi_real]
  rw [h3, show 4 * Real.pi ^ 2 * a ^ 3 / ((4 : ℕ) : ℝ) / Real.pi ^ 2 = a ^ 3 by
    push_cast; field_simp]
  exact realCbrt_of_pow_three ha

/-- C01: the period is recovered from the semimajor axis. -/
theorem C01_orb_period_a_from_period {P mu : ℝ} (hP : 0 ≤ P) (hmu : 0 < mu) :
    orb_period (a_from_period P mu) mu = P := by
  simp only [orb_period, a_from_period, pi_real, sqrt_real, cbrt_real]
  rw [realCbrt_pow_three,
    show P ^ 2 * mu / ((4 : ℕ) : ℝ) / Real.pi ^ 2 / mu = (P / (2 * Real.pi)) ^ 2 by
      push_cast; field_simp; ring,
    Real.sqrt_sq (by positivity)]
  push_cast
  field_simp

/-- C01: larger orbits take strictly longer. -/
theorem C01_orb_period_strictMono {a b mu : ℝ} (ha : 0 ≤ a) (hab : a < b) (hmu : 0 < mu) :
    orb_period a mu < orb_period b mu := by
  simp only [orb_period, pi_real, sqrt_real]
  have : Real.sqrt (a ^ 3 / mu) < Real.sqrt (b ^ 3 / mu) := by
    apply Real.sqrt_lt_sqrt (by positivity)
    gcongr
  have hp := Real.pi_pos
  push_cast
  gcongr

/-- Non-vacuity and scale: the unit orbit has period 2π and is found back from it. -/
example : orb_period (1 : ℝ) 1 = 2 * Real.pi ∧ a_from_period (2 * Real.pi) 1 = 1 := by
  have h : orb_period (1 : ℝ) 1 = 2 * Real.pi := by simp [orb_period]
  exact ⟨h, by rw [← h]; exact C01_a_from_period_orb_period (by norm_num) (by norm_num)⟩

end Adx
