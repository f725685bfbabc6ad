import Verif.Spec.Units
import Verif.Props.C55
import Verif.Model.StateTrans
import Verif.Model.PathCheck
import Verif.Model.OrbElements

/-! # C57: independence of the units

Every function commutes with a change of the units of length and time; the Newton solvers do so if the tolerance
is converted too. `kepler` has a fixed tolerance, in units of length to the power 3/2, and does not. -/

namespace Adx
open Spec

variable (u : Units)

theorem Units.sqrt_pos : 0 < Real.sqrt u.L := Real.sqrt_pos.2 u.L_pos
theorem Units.sqrt_sq : Real.sqrt u.L ^ 2 = u.L := Real.sq_sqrt u.L_pos.le

theorem units_pos_eq (r : V3 ℝ) : u.pos r = u.L • r := rfl
theorem units_vel_eq (v : V3 ℝ) : u.vel v = (u.L / u.T) • v := rfl

theorem units_norm_pos (r : V3 ℝ) : V3.norm (u.pos r) = u.L * V3.norm r := by
  rw [units_pos_eq, V3.norm_smul, abs_of_pos u.L_pos]
theorem units_norm_vel (v : V3 ℝ) : V3.norm (u.vel v) = u.L / u.T * V3.norm v := by
  rw [units_vel_eq, V3.norm_smul, abs_of_pos (div_pos u.L_pos u.T_pos)]

theorem units_sqrt_grav (mu : ℝ) : Real.sqrt (u.grav mu) = Real.sqrt u.L ^ 3 / u.T * Real.sqrt mu := by
  have h : u.grav mu = (Real.sqrt u.L ^ 3 / u.T) ^ 2 * mu := by
    rw [Units.grav, div_pow, ← pow_mul, mul_comm 3 2, pow_mul, Units.sqrt_sq]
  rw [h, Real.sqrt_mul (sq_nonneg _), Real.sqrt_sq (div_nonneg (pow_nonneg (Real.sqrt_nonneg _) 3) u.T_pos.le)]

theorem U_scale (n : ℕ) (χ α : ℝ) : U n (Real.sqrt u.L * χ) (α / u.L) = Real.sqrt u.L ^ n * U n χ α := by
  have h : α / u.L * (Real.sqrt u.L * χ) ^ 2 = α * χ ^ 2 := by
    rw [mul_pow, Units.sqrt_sq]; field_simp [u.L_pos.ne']
  rw [U, U, h, mul_pow, mul_assoc]

/-! ### formulas -/

/-- C57: sizes and rates of an orbit. -/
theorem C57_integrals (a P mu r v p e f : ℝ) :
    orb_period (u.L * a) (u.grav mu) = u.T * orb_period a mu ∧
    a_from_period (u.time P) (u.grav mu) = u.L * a_from_period P mu ∧
    semimajor_axis (u.L * r) (u.L / u.T * v) (u.grav mu) = u.L * semimajor_axis r v mu ∧
    mean_motion (u.time P) = mean_motion P / u.T ∧
    equ_of_orbit (u.L * p) e f = u.L * equ_of_orbit p e f ∧
    radius_periapsis (u.L * p) e = u.L * radius_periapsis p e ∧
    radius_apoapsis (u.L * p) e = u.L * radius_apoapsis p e ∧
    semipara_from_ae (u.L * a) e = u.L * semipara_from_ae a e ∧
    a_from_pe (u.L * p) e = u.L * a_from_pe p e := by
  have hL := u.L_pos
  have hT := u.T_pos
  have hL' := hL.ne'
  have hT' := hT.ne'
  refine ⟨?_, ?_, ?_, ?_, ?_, ?_, ?_, ?_, ?_⟩
  · have h : (u.L * a) ^ 3 / u.grav mu = u.T ^ 2 * (a ^ 3 / mu) := by
      rw [Units.grav]; field_simp
    simp only [orb_period, sqrt_real, h]
    rw [Real.sqrt_mul (sq_nonneg _), Real.sqrt_sq hT.le]; ring
  · have h : u.time P ^ 2 * u.grav mu / ((4 : ℕ) : ℝ) / JFun.pi ^ 2 = u.L ^ 3 * (P ^ 2 * mu / ((4 : ℕ) : ℝ) / JFun.pi ^ 2) := by
      rw [Units.grav, Units.time]; field_simp
    simp only [a_from_period, h, cbrt_real]
    have hc : ∀ x : ℝ, realCbrt (u.L ^ 3 * x) = u.L * realCbrt x := by
      intro x
      have h1 := realCbrt_pow_three (u.L ^ 3 * x)
      have h2 := realCbrt_pow_three x
      have h3 : realCbrt (u.L ^ 3 * x) ^ 3 = (u.L * realCbrt x) ^ 3 := by rw [h1, mul_pow, h2]
      exact (Odd.strictMono_pow (by decide : Odd 3)).injective h3
    exact hc _
  · simp only [semimajor_axis, Units.grav, Nat.cast_ofNat, Nat.cast_one]
    rw [show 2 / (u.L * r) - (u.L / u.T * v) ^ 2 / (u.L ^ 3 / u.T ^ 2 * mu) = (2 / r - v ^ 2 / mu) / u.L by
      rcases eq_or_ne r 0 with rfl | hr <;> rcases eq_or_ne mu 0 with rfl | hm <;> field_simp <;> simp]
    rw [one_div_div, mul_one_div]
  · simp only [mean_motion, Units.time]; rw [div_div, mul_comm P]
  · simp only [equ_of_orbit]; rw [mul_div_assoc]
  · simp only [radius_periapsis]; rw [mul_div_assoc]
  · simp only [radius_apoapsis]; rw [mul_div_assoc]
  · simp only [semipara_from_ae]; rw [mul_assoc]
  · simp only [a_from_pe]; rw [mul_div_assoc]

theorem units_alpha (r v : V3 ℝ) (mu : ℝ) : alphaOf (u.pos r) (u.vel v) (u.grav mu) = alphaOf r v mu / u.L := by
  simp only [alphaOf, units_norm_pos, units_norm_vel, (C57_integrals u 0 0 mu (V3.norm r) (V3.norm v) 0 0 0).2.2.1]
  rw [div_div, mul_comm u.L]

theorem units_sigma (r v : V3 ℝ) (mu : ℝ) :
    sigma_fn (u.pos r) (u.vel v) (u.grav mu) = Real.sqrt u.L * sigma_fn r v mu := by
  have hb := Units.sqrt_pos u
  have hT := u.T_pos.ne'
  have hd : V3.dot (u.pos r) (u.vel v) = u.L ^ 2 / u.T * V3.dot r v := by
    simp only [V3.dot, Units.pos, Units.vel]; ring
  simp only [sigma_fn, sqrt_real, units_sqrt_grav, hd]
  rw [show u.L ^ 2 = Real.sqrt u.L * Real.sqrt u.L ^ 3 by rw [← Units.sqrt_sq u, Real.sqrt_sq hb.le]; ring]
  rcases eq_or_ne (Real.sqrt mu) 0 with h | h
  · simp [h]
  · field_simp

/-- C57: vectors of a state. -/
theorem C57_vectors (r v : V3 ℝ) (mu : ℝ) :
    angular_momentum (u.pos r) (u.vel v) = (u.L ^ 2 / u.T) • angular_momentum r v ∧
    eccentricity_vector (u.pos r) (u.vel v) (u.grav mu) = eccentricity_vector r v mu ∧
    semiparameter (u.L ^ 2 / u.T * V3.norm (angular_momentum r v)) (u.grav mu)
      = u.L * semiparameter (V3.norm (angular_momentum r v)) mu ∧
    sigma_fn (u.pos r) (u.vel v) (u.grav mu) = Real.sqrt u.L * sigma_fn r v mu := by
  have hL := u.L_pos.ne'
  have hT := u.T_pos.ne'
  refine ⟨?_, ?_, ?_, units_sigma u r v mu⟩
  · ext <;> simp [angular_momentum, Units.pos, Units.vel] <;> field_simp
  · have hx : ∀ x n : ℝ, u.L * x / (u.L * n) = x / n := fun x n => mul_div_mul_left x n hL
    have hy : ∀ a b c d e f : ℝ, (u.L / u.T * a * (u.L * b * (u.L / u.T * c) - u.L * d * (u.L / u.T * e)) -
        u.L / u.T * f * (0 : ℝ)) = u.L ^ 3 / u.T ^ 2 * (a * (b * c - d * e)) := by
      intros; field_simp; ring
    have hz : ∀ x : ℝ, u.L ^ 3 / u.T ^ 2 * x / u.grav mu = x / mu := fun x => by
      rw [Units.grav]; exact mul_div_mul_left _ _ (by positivity)
    have hc : V3.cross (u.vel v) (angular_momentum (u.pos r) (u.vel v))
        = (u.L ^ 3 / u.T ^ 2) • V3.cross v (angular_momentum r v) := by
      ext <;> simp [angular_momentum, Units.pos, Units.vel] <;> field_simp
    simp only [eccentricity_vector, hc, units_norm_pos]
    ext <;> simp only [V3.sub_x, V3.sub_y, V3.sub_z, V3.div_x, V3.div_y, V3.div_z, V3.smul_x, V3.smul_y, V3.smul_z,
      hz, Units.pos, hx]
  · simp only [semiparameter, Units.grav]
    rcases eq_or_ne mu 0 with rfl | hm
    · simp
    · field_simp

/-- C57: universal functions. -/
theorem C57_ufunc (χ α : ℝ) :
    ufunc0 (Real.sqrt u.L * χ) (α / u.L) = ufunc0 χ α ∧
    ufunc1 (Real.sqrt u.L * χ) (α / u.L) = Real.sqrt u.L * ufunc1 χ α ∧
    ufunc2 (Real.sqrt u.L * χ) (α / u.L) = Real.sqrt u.L ^ 2 * ufunc2 χ α ∧
    ufunc3 (Real.sqrt u.L * χ) (α / u.L) = Real.sqrt u.L ^ 3 * ufunc3 χ α ∧
    ufunc4 (Real.sqrt u.L * χ) (α / u.L) = Real.sqrt u.L ^ 4 * ufunc4 χ α ∧
    ufunc5 (Real.sqrt u.L * χ) (α / u.L) = Real.sqrt u.L ^ 5 * ufunc5 χ α := by
  simp only [C07_ufunc0, C07_ufunc1, C07_ufunc2, C07_ufunc3, C07_ufunc4, C07_ufunc5, U_scale, pow_zero, one_mul, pow_one]
  simp

theorem units_kep (χ α r0 σ0 t mu : ℝ) :
    kepler_equ_uni (Real.sqrt u.L * χ) (α / u.L) (u.L * r0) (Real.sqrt u.L * σ0) (u.time t) (u.grav mu)
      = Real.sqrt u.L ^ 3 * kepler_equ_uni χ α r0 σ0 t mu := by
  obtain ⟨-, h1, h2, h3, -⟩ := C57_ufunc u χ α
  have hT := u.T_pos.ne'
  simp only [kepler_equ_uni, h1, h2, h3, sqrt_real, units_sqrt_grav, Units.time]
  rw [← Units.sqrt_sq u, Real.sqrt_sq (Units.sqrt_pos u).le]
  field_simp

theorem units_dchi (χ α r0 σ0 : ℝ) :
    dchi (Real.sqrt u.L * χ) (α / u.L) (u.L * r0) (Real.sqrt u.L * σ0) = u.L * dchi χ α r0 σ0 := by
  obtain ⟨h0, h1, h2, -⟩ := C57_ufunc u χ α
  simp only [dchi, equ_of_orb_uvi, h0, h1, h2]
  linear_combination (σ0 * ufunc1 χ α + ufunc2 χ α) * Units.sqrt_sq u

/-- C57: Kepler equations, mean anomalies, generalized anomaly. -/
theorem C57_kepler_equations (χ α r0 σ σ0 t mu a : ℝ) :
    kepler_equ_uni (Real.sqrt u.L * χ) (α / u.L) (u.L * r0) (Real.sqrt u.L * σ0) (u.time t) (u.grav mu)
      = Real.sqrt u.L ^ 3 * kepler_equ_uni χ α r0 σ0 t mu ∧
    dchi (Real.sqrt u.L * χ) (α / u.L) (u.L * r0) (Real.sqrt u.L * σ0) = u.L * dchi χ α r0 σ0 ∧
    mean_anomaly_elps (u.L * a) (u.time t) (u.grav mu) = mean_anomaly_elps a t mu ∧
    mean_anomaly_hypb (u.L * a) (u.time t) (u.grav mu) = mean_anomaly_hypb a t mu ∧
    generalized_anomaly (α / u.L) (Real.sqrt u.L * σ) (Real.sqrt u.L * σ0) (u.time t) (u.grav mu)
      = Real.sqrt u.L * generalized_anomaly α σ σ0 t mu := by
  have hL := u.L_pos.ne'
  have hT := u.T_pos.ne'
  have hb := (Units.sqrt_pos u).ne'
  refine ⟨units_kep u .., units_dchi u .., ?_, ?_, ?_⟩
  · simp only [mean_anomaly_elps, sqrt_real, Units.time]
    rw [show u.grav mu / (u.L * a) ^ 3 = (1 / u.T) ^ 2 * (mu / a ^ 3) by rw [Units.grav]; field_simp,
      Real.sqrt_mul (sq_nonneg _), Real.sqrt_sq (by have := u.T_pos; positivity)]
    field_simp
  · simp only [mean_anomaly_hypb, sqrt_real, Units.time]
    rw [show u.grav mu / -((u.L * a) ^ 3) = (1 / u.T) ^ 2 * (mu / -a ^ 3) by rw [Units.grav]; field_simp,
      Real.sqrt_mul (sq_nonneg _), Real.sqrt_sq (by have := u.T_pos; positivity)]
    field_simp
  · simp only [generalized_anomaly, sqrt_real, units_sqrt_grav, Units.time]
    have h : α / u.L * (Real.sqrt u.L ^ 3 / u.T * Real.sqrt mu) * (u.T * t) = Real.sqrt u.L * (α * Real.sqrt mu * t) := by
      rw [show Real.sqrt u.L ^ 3 = Real.sqrt u.L * u.L by rw [pow_succ', Units.sqrt_sq]]
      field_simp
    rw [h]; ring

end Adx
