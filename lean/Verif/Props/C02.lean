import Verif.Model.KepEqu
import Verif.Props.C01

/-! # C02: mean motion, period and mean anomaly agree -/

namespace Adx

theorem orb_period_pos {a mu : ℝ} (ha : 0 < a) (hmu : 0 < mu) : 0 < orb_period a mu := by
  have hp := Real.pi_pos
  simp only [orb_period, pi_real, sqrt_real]
  push_cast
  positivity

/-- C02: one period advances the phase by 2π. -/
theorem C02_mean_motion_mul_period {a mu : ℝ} (ha : 0 < a) (hmu : 0 < mu) :
    mean_motion (orb_period a mu) * orb_period a mu = 2 * Real.pi := by
  have := orb_period_pos ha hmu
  simp only [mean_motion, pi_real]
  push_cast
  field_simp

/-- C02: the elliptic mean anomaly is mean motion times time. -/
theorem C02_mean_anomaly_elps {a mu : ℝ} (t : ℝ) (ha : 0 < a) (hmu : 0 < mu) :
    mean_anomaly_elps a t mu = mean_motion (orb_period a mu) * t := by
  have hp := Real.pi_pos
  simp only [mean_anomaly_elps, mean_motion, orb_period, pi_real, sqrt_real]
  have h : Real.sqrt (mu / a ^ 3) = (Real.sqrt (a ^ 3 / mu))⁻¹ := by
    rw [← Real.sqrt_inv, inv_div]
  rw [h]
  have : 0 < Real.sqrt (a ^ 3 / mu) := by positivity
  push_cast
  field_simp

/-- C02: after one period the mean anomaly has grown by exactly 2π. -/
theorem C02_mean_anomaly_period {a mu : ℝ} (t : ℝ) (ha : 0 < a) (hmu : 0 < mu) :
    mean_anomaly_elps a (t + orb_period a mu) mu = mean_anomaly_elps a t mu + 2 * Real.pi := by
  rw [C02_mean_anomaly_elps _ ha hmu, C02_mean_anomaly_elps _ ha hmu, mul_add,
    C02_mean_motion_mul_period ha hmu]

/-- C02: the hyperbolic mean anomaly is the elliptic formula at `-a`. -/
theorem C02_mean_anomaly_hypb (a t mu : ℝ) :
    mean_anomaly_hypb a t mu = mean_anomaly_elps (-a) t mu := by
  simp only [mean_anomaly_hypb, mean_anomaly_elps, sqrt_real]
  congr 3; ring

/-- C02: and on hyperbolas it satisfies `N² (-a)³ = mu t²` with the sign of `t`. -/
theorem C02_mean_anomaly_hypb_sq {a t mu : ℝ} (ha : a < 0) (hmu : 0 < mu) :
    mean_anomaly_hypb a t mu ^ 2 * (-a) ^ 3 = mu * t ^ 2 ∧
      (0 < t → 0 < mean_anomaly_hypb a t mu) := by
  have h3 : 0 < -a ^ 3 := by
    have : 0 < (-a) ^ 3 := pow_pos (by linarith) 3
    nlinarith [this]
  have hpos : 0 < mu / -a ^ 3 := by positivity
  simp only [mean_anomaly_hypb, sqrt_real, mul_pow]
  rw [Real.sq_sqrt hpos.le]
  refine ⟨?_, fun ht => by positivity⟩
  have : a ≠ 0 := ha.ne
  field_simp

/-- Non-vacuity: a = 4, mu = 1, a quarter period. -/
example : mean_anomaly_elps (4 : ℝ) (4 * Real.pi) 1 = Real.pi / 2 := by
  have h := C02_mean_anomaly_elps (a := 4) (mu := 1) (4 * Real.pi) (by norm_num) (by norm_num)
  have h8 : Real.sqrt ((4 : ℝ) ^ 3 / 1) = 8 := by
    rw [show (4 : ℝ) ^ 3 / 1 = 8 ^ 2 by norm_num]; exact Real.sqrt_sq (by norm_num)
  rw [h]
  simp only [mean_motion, orb_period, pi_real, sqrt_real, Nat.cast_ofNat, h8]
  have := Real.pi_pos
  field_simp; norm_num

end Adx
