import Verif.XR
import Verif.Model.OrbElements
import Verif.Model.StateTrans
import Verif.Model.PathCheck
import Verif.Model.Kepler
import Verif.Model.Gravity
import Verif.Lemmas.RealVec

/-! # C48: exactly which inputs yield NaN or infinity

The model run in `XR` (reals with `±inf`, `nan` and the IEEE rules, no rounding). For each function:
on its domain the result is finite and equal to the real formula, so no theorem over `ℝ` about it
rests on Lean's `x / 0 = 0`; off the domain the special value that comes out.
-/

namespace Adx
open XR

/-! ### `_orb_integrals.py` -/

/-- `orb_period`: finite exactly on `a³/μ ≥ 0`; the period of a negative `a³/μ` is NaN; `μ = 0` gives
`+inf` for `a > 0` and NaN otherwise. -/
theorem C48_orb_period (a mu : ℝ) :
    (mu ≠ 0 → 0 ≤ a ^ 3 / mu → orb_period (fin a) (fin mu) = fin (orb_period a mu)) ∧
    (mu ≠ 0 → a ^ 3 / mu < 0 → orb_period (fin a) (fin mu) = nan) ∧
    (mu = 0 → 0 < a → orb_period (fin a) (fin mu) = pinf) ∧
    (mu = 0 → a ≤ 0 → orb_period (fin a) (fin mu) = nan) := by
  refine ⟨fun h h' => ?_, fun h h' => ?_, ?_, ?_⟩
  · simp [orb_period, fin_div _ h, sqrt_fin h']
  · simp [orb_period, fin_div _ h, sqrt_neg h']
  · rintro rfl h
    simp [orb_period, infOf_pos (pow_pos h 3), infOf_pos (mul_pos two_pos Real.pi_pos)]
  · rintro rfl h
    rcases h.lt_or_eq with h | rfl
    · simp [orb_period, infOf_neg (Odd.pow_neg (by decide : Odd 3) h)]
    · simp [orb_period]

/-- `a_from_period` is finite for every finite input. -/
theorem C48_a_from_period (P mu : ℝ) :
    a_from_period (fin P) (fin mu) = fin (a_from_period P mu) := by
  have : Real.pi ^ 2 ≠ 0 := pow_ne_zero _ Real.pi_ne_zero
  simp only [a_from_period, fin_pow, fin_mul, cast_fin, fin_div_lit, pi_fin, fin_div _ this, cbrt_fin,
    cbrt_real, pi_real]

/-- `angular_momentum` is finite for every finite input. -/
theorem C48_angular_momentum (r v : V3 ℝ) :
    angular_momentum (vec r) (vec v) = vec (angular_momentum r v) := by
  simp [angular_momentum]

/-- `semimajor_axis`: finite exactly off the parabolas; a parabolic state gives `+inf`; `r = 0`
gives `0`. -/
theorem C48_semimajor_axis (r v mu : ℝ) (hmu : mu ≠ 0) :
    (r ≠ 0 → 2 / r - v ^ 2 / mu ≠ 0 →
      semimajor_axis (fin r) (fin v) (fin mu) = fin (semimajor_axis r v mu)) ∧
    (r ≠ 0 → 2 / r - v ^ 2 / mu = 0 → semimajor_axis (fin r) (fin v) (fin mu) = pinf) ∧
    (r = 0 → semimajor_axis (fin r) (fin v) (fin mu) = fin 0) := by
  refine ⟨fun h h' => ?_, fun h h' => ?_, ?_⟩
  · simp only [semimajor_axis, cast_fin, fin_pow, fin_div _ h, fin_div _ hmu, fin_sub]
    rw [fin_div _ (by simpa using h')]
  · simp only [semimajor_axis, cast_fin, fin_pow, fin_div _ h, fin_div _ hmu, fin_sub]
    rw [show ((2 : ℕ) : ℝ) / r - v ^ 2 / mu = 0 by simpa using h', fin_div_zero]
    exact infOf_pos (by norm_num)
  · rintro rfl
    simp only [semimajor_axis, cast_fin, fin_pow, fin_div _ hmu, fin_div_zero]
    rw [infOf_pos (by norm_num)]
    simp

/-- The reciprocal `alpha = 1 / semimajor_axis(...)` used by `kepler` and `dxdx0` is finite for
*every* `r ≠ 0`, and equal to `2/r - v²/μ`, parabolas included. -/
theorem C48_alpha (r v mu : ℝ) (hmu : mu ≠ 0) (hr : r ≠ 0) :
    ((1 : ℕ) : XR) / semimajor_axis (fin r) (fin v) (fin mu) = fin (2 / r - v ^ 2 / mu) := by
  obtain ⟨h1, h2, -⟩ := C48_semimajor_axis r v mu hmu
  by_cases h : 2 / r - v ^ 2 / mu = 0
  · rw [h2 hr h, h]; simp
  · rw [h1 hr h]
    have hs : semimajor_axis r v mu = 1 / (2 / r - v ^ 2 / mu) := by simp [semimajor_axis]
    rw [hs, cast_fin, fin_div _ (one_div_ne_zero h)]
    simp

/-- `eccentricity_vector`: finite for `r ≠ 0`, all NaN at `r = 0`. -/
theorem C48_eccentricity_vector (r v : V3 ℝ) (mu : ℝ) (hmu : mu ≠ 0) :
    (V3.norm r ≠ 0 →
      eccentricity_vector (vec r) (vec v) (fin mu) = vec (eccentricity_vector r v mu)) ∧
    (r = ⟨0, 0, 0⟩ → eccentricity_vector (vec r) (vec v) (fin mu) = ⟨nan, nan, nan⟩) := by
  refine ⟨fun h => ?_, ?_⟩
  · simp only [eccentricity_vector, angular_momentum, vec_cross, vec_norm, vec_div _ hmu, vec_div _ h,
      vec_sub]
  · rintro rfl
    have h0 : V3.norm (⟨0, 0, 0⟩ : V3 ℝ) = 0 := by simp [V3.norm, V3.dot]
    simp only [eccentricity_vector, angular_momentum, vec_cross, vec_norm, vec_div _ hmu, h0]
    ext <;> simp

/-- `semiparameter`: finite for `μ ≠ 0`; at `μ = 0` it is `+inf`, or NaN for `h = 0`. -/
theorem C48_semiparameter (h mu : ℝ) :
    (mu ≠ 0 → semiparameter (fin h) (fin mu) = fin (semiparameter h mu)) ∧
    (h ≠ 0 → semiparameter (fin h) (fin 0) = pinf) ∧
    semiparameter (fin 0) (fin 0) = nan := by
  refine ⟨fun hm => by simp [semiparameter, fin_div _ hm], fun hh => ?_, ?_⟩
  · simp [semiparameter, infOf_pos (pow_pos (abs_pos.2 hh) 2 |>.trans_eq (sq_abs h))]
  · simp [semiparameter]

/-- `mean_motion`: finite for `P ≠ 0`; `+inf` at `P = 0`; `0` for an infinite period. -/
theorem C48_mean_motion (P : ℝ) :
    (P ≠ 0 → mean_motion (fin P) = fin (mean_motion P)) ∧
    mean_motion (fin 0) = pinf ∧ mean_motion pinf = fin 0 := by
  refine ⟨fun h => by simp [mean_motion, fin_div _ h], ?_, by simp [mean_motion]⟩
  simp only [mean_motion, cast_fin, pi_fin, fin_mul, fin_div_zero]
  exact infOf_pos (by have := Real.pi_pos; positivity)

/-- `equ_of_orbit`: finite off the asymptotes; `+inf` on them (`p > 0`). -/
theorem C48_equ_of_orbit (p e f : ℝ) :
    (1 + e * Real.cos f ≠ 0 → equ_of_orbit (fin p) (fin e) (fin f) = fin (equ_of_orbit p e f)) ∧
    (1 + e * Real.cos f = 0 → 0 < p → equ_of_orbit (fin p) (fin e) (fin f) = pinf) := by
  refine ⟨fun h => ?_, fun h hp => ?_⟩
  · simp only [equ_of_orbit, cast_fin, cos_fin, fin_mul, fin_add]
    rw [fin_div _ (by simpa using h)]; rfl
  · simp only [equ_of_orbit, cast_fin, cos_fin, fin_mul, fin_add, Nat.cast_one, h, fin_div_zero]
    exact infOf_pos hp

/-- `equ_of_orb_uvi` is finite for every finite input. -/
theorem C48_equ_of_orb_uvi (U0 U1 U2 r0 s0 : ℝ) :
    equ_of_orb_uvi (fin U0) (fin U1) (fin U2) (fin r0) (fin s0)
      = fin (equ_of_orb_uvi U0 U1 U2 r0 s0) := by
  simp [equ_of_orb_uvi]

/-- `radius_periapsis`: finite for `e ≠ -1`. -/
theorem C48_radius_periapsis (p e : ℝ) (h : 1 + e ≠ 0) :
    radius_periapsis (fin p) (fin e) = fin (radius_periapsis p e) := by
  simp only [radius_periapsis, cast_fin, fin_add]
  rw [fin_div _ (by simpa using h)]

/-- `radius_apoapsis`: finite exactly for `e ≠ 1`; a parabola gives `+inf` (NaN if also `p = 0`). -/
theorem C48_radius_apoapsis (p e : ℝ) :
    (e ≠ 1 → radius_apoapsis (fin p) (fin e) = fin (radius_apoapsis p e)) ∧
    (0 < p → radius_apoapsis (fin p) (fin 1) = pinf) ∧
    radius_apoapsis (fin 0) (fin 1) = nan := by
  refine ⟨fun h => ?_, fun h => ?_, ?_⟩
  · simp only [radius_apoapsis, cast_fin, fin_sub]
    rw [fin_div _ (by simpa [sub_eq_zero] using h.symm)]
  · simp [radius_apoapsis, infOf_pos h]
  · simp [radius_apoapsis]

/-- `semipara_from_ae`: finite for finite inputs, but for a parabola given as `a = +inf`, `e = 1`
(what `semimajor_axis` returns) it is `inf * 0`, NaN. -/
theorem C48_semipara_from_ae (a e : ℝ) :
    semipara_from_ae (fin a) (fin e) = fin (semipara_from_ae a e) ∧
    semipara_from_ae pinf (fin 1) = nan := by
  constructor <;> simp [semipara_from_ae]

/-- `a_from_pe`: finite for `e² ≠ 1`; `+inf` for a parabola. -/
theorem C48_a_from_pe (p e : ℝ) :
    (e ^ 2 ≠ 1 → a_from_pe (fin p) (fin e) = fin (a_from_pe p e)) ∧
    (0 < p → a_from_pe (fin p) (fin 1) = pinf) := by
  refine ⟨fun h => ?_, fun h => by simp [a_from_pe, infOf_pos h]⟩
  simp only [a_from_pe, cast_fin, fin_pow, fin_sub]
  rw [fin_div _ (by simpa [sub_eq_zero] using h.symm)]

/-! ### `_uniformulas.py` -/

/-- `sigma_fn`: finite for `μ > 0`, NaN for `μ < 0`. -/
theorem C48_sigma_fn (r v : V3 ℝ) (mu : ℝ) :
    (0 < mu → sigma_fn (vec r) (vec v) (fin mu) = fin (sigma_fn r v mu)) ∧
    (mu < 0 → sigma_fn (vec r) (vec v) (fin mu) = nan) := by
  refine ⟨fun h => ?_, fun h => by simp [sigma_fn, sqrt_neg h]⟩
  simp [sigma_fn, sqrt_fin h.le, fin_div _ (Real.sqrt_pos.2 h).ne']

/-- The six universal functions are finite for every finite `chi`, `alpha`: the divisions by
`alpha` and the square roots only happen in the branch where they are safe. -/
theorem C48_ufunc (chi alpha : ℝ) :
    ufunc0 (fin chi) (fin alpha) = fin (ufunc0 chi alpha) ∧
    ufunc1 (fin chi) (fin alpha) = fin (ufunc1 chi alpha) ∧
    ufunc2 (fin chi) (fin alpha) = fin (ufunc2 chi alpha) ∧
    ufunc3 (fin chi) (fin alpha) = fin (ufunc3 chi alpha) ∧
    ufunc4 (fin chi) (fin alpha) = fin (ufunc4 chi alpha) ∧
    ufunc5 (fin chi) (fin alpha) = fin (ufunc5 chi alpha) := by
  have c0 : ((0 : ℕ) : ℝ) = 0 := Nat.cast_zero
  rcases lt_trichotomy alpha 0 with h | rfl | h
  · have hs := sqrt_fin (x := -alpha) (by linarith)
    have hn : Real.sqrt (-alpha) ≠ 0 := (Real.sqrt_pos.2 (by linarith)).ne'
    have h2 : ((2 : ℕ) : ℝ) * alpha ^ 2 ≠ 0 := mul_ne_zero (by norm_num) (pow_ne_zero _ h.ne)
    have h6 : ((6 : ℕ) : ℝ) * alpha ^ 3 ≠ 0 := mul_ne_zero (by norm_num) (pow_ne_zero _ h.ne)
    have hna : -alpha ≠ 0 := by linarith
    have hnot : ¬ (0 < alpha) := not_lt.2 h.le
    simp only [ufunc0, ufunc1, ufunc2, ufunc3, ufunc4, ufunc5, cast_fin, lt_fin, c0, lt_real, hnot, h,
      decide_true, decide_false, if_true, if_false, fin_neg, hs, fin_mul, cosh_fin, sinh_fin,
      fin_div _ hn, fin_div _ h.ne, fin_div _ hna, fin_sub, fin_add, fin_pow, fin_div _ h2,
      fin_div _ h6, sqrt_real, cosh_real, sinh_real, Bool.false_eq_true, and_self]
  · have hlt : ¬ ((0 : ℝ) < 0) := lt_irrefl _
    simp only [ufunc0, ufunc1, ufunc2, ufunc3, ufunc4, ufunc5, cast_fin, lt_fin, c0, lt_real, hlt,
      decide_false, if_false, fin_pow, fin_div_lit, Bool.false_eq_true, and_self, onesLike_xr, onesLike_real]
  · have hs := sqrt_fin h.le
    have hn : Real.sqrt alpha ≠ 0 := (Real.sqrt_pos.2 h).ne'
    have h2 : ((2 : ℕ) : ℝ) * alpha ^ 2 ≠ 0 := by positivity
    have h6 : ((6 : ℕ) : ℝ) * alpha ^ 3 ≠ 0 := by positivity
    simp only [ufunc0, ufunc1, ufunc2, ufunc3, ufunc4, ufunc5, cast_fin, lt_fin, c0, lt_real, h,
      decide_true, if_true, hs, fin_mul, cos_fin, sin_fin, fin_div _ hn, fin_div _ h.ne', fin_sub,
      fin_add, fin_pow, fin_div _ h2, fin_div _ h6, sqrt_real, cos_real, sin_real, and_self]

/-- A NaN `alpha` is *not* propagated: both comparisons are false, so the parabolic formulas are
returned as if `alpha` were zero. -/
theorem C48_ufunc_nan_alpha (chi : ℝ) :
    ufunc0 (fin chi) nan = fin 1 ∧ ufunc1 (fin chi) nan = fin chi ∧
    ufunc2 (fin chi) nan = fin (chi ^ 2 / 2) ∧ ufunc3 (fin chi) nan = fin (chi ^ 3 / 6) ∧
    ufunc4 (fin chi) nan = fin (chi ^ 4 / 24) ∧ ufunc5 (fin chi) nan = fin (chi ^ 5 / 120) := by
  simp only [ufunc0, ufunc1, ufunc2, ufunc3, ufunc4, ufunc5, lt_nan, nan_lt, cast_fin, fin_pow,
    fin_div_lit, if_false, Bool.false_eq_true, onesLike_xr]
  norm_num

/-! ### `_kep_equ.py` -/

/-- The elliptic and hyperbolic Kepler equations and their derivatives are finite everywhere. -/
theorem C48_kepler_equ (E e M : ℝ) :
    kepler_equ_elps (fin E) (fin e) (fin M) = fin (kepler_equ_elps E e M) ∧
    dE (fin E) (fin e) = fin (dE E e) ∧
    kepler_equ_hypb (fin E) (fin e) (fin M) = fin (kepler_equ_hypb E e M) ∧
    dH (fin E) (fin e) = fin (dH E e) := by
  simp [kepler_equ_elps, dE, kepler_equ_hypb, dH]

/-- `mean_anomaly_elps`: finite for `a > 0`, NaN for `a < 0` (`μ > 0`). -/
theorem C48_mean_anomaly_elps (a dt mu : ℝ) (hmu : 0 < mu) :
    (0 < a → mean_anomaly_elps (fin a) (fin dt) (fin mu) = fin (mean_anomaly_elps a dt mu)) ∧
    (a < 0 → mean_anomaly_elps (fin a) (fin dt) (fin mu) = nan) := by
  refine ⟨fun h => ?_, fun h => ?_⟩
  · have h3 : a ^ 3 ≠ 0 := by positivity
    simp [mean_anomaly_elps, fin_div _ h3, sqrt_fin (show 0 ≤ mu / a ^ 3 by positivity)]
  · have h3 : a ^ 3 < 0 := Odd.pow_neg (by decide) h
    simp [mean_anomaly_elps, fin_div _ h3.ne, sqrt_neg (div_neg_of_pos_of_neg hmu h3)]

/-- `mean_anomaly_hypb`: finite for `a < 0`, NaN for `a > 0` (`μ > 0`). -/
theorem C48_mean_anomaly_hypb (a dt mu : ℝ) (hmu : 0 < mu) :
    (a < 0 → mean_anomaly_hypb (fin a) (fin dt) (fin mu) = fin (mean_anomaly_hypb a dt mu)) ∧
    (0 < a → mean_anomaly_hypb (fin a) (fin dt) (fin mu) = nan) := by
  refine ⟨fun h => ?_, fun h => ?_⟩
  · have h3 : 0 < -a ^ 3 := by have := Odd.pow_neg (by decide : Odd 3) h; linarith
    simp only [mean_anomaly_hypb, fin_pow, fin_neg, fin_div _ h3.ne', fin_mul, sqrt_real,
      sqrt_fin (show 0 ≤ mu / -a ^ 3 by positivity)]
  · have h3 : -a ^ 3 < 0 := by have := pow_pos h 3; linarith
    simp only [mean_anomaly_hypb, fin_pow, fin_neg, fin_div _ h3.ne,
      sqrt_neg (div_neg_of_pos_of_neg hmu h3), nan_mul]

/-- The universal Kepler equation, its derivative and the generalized anomaly are finite for
`μ ≥ 0`. -/
theorem C48_kepler_equ_uni (chi alpha r0 s0 s dt mu : ℝ) (hmu : 0 ≤ mu) :
    kepler_equ_uni (fin chi) (fin alpha) (fin r0) (fin s0) (fin dt) (fin mu)
      = fin (kepler_equ_uni chi alpha r0 s0 dt mu) ∧
    dchi (fin chi) (fin alpha) (fin r0) (fin s0) = fin (dchi chi alpha r0 s0) ∧
    generalized_anomaly (fin alpha) (fin s) (fin s0) (fin dt) (fin mu)
      = fin (generalized_anomaly alpha s s0 dt mu) := by
  obtain ⟨u0, u1, u2, u3, -, -⟩ := C48_ufunc chi alpha
  simp [kepler_equ_uni, dchi, generalized_anomaly, equ_of_orb_uvi, u0, u1, u2, u3, sqrt_fin hmu]

/-! ### `_lagrange.py` -/

/-- The Lagrange coefficients are finite for `r, r0 ≠ 0`, `μ > 0`. -/
theorem C48_lagrange (U1 U2 s0 r r0 mu : ℝ) (hr : r ≠ 0) (hr0 : r0 ≠ 0) (hmu : 0 < mu) :
    lagrange_F (fin U2) (fin r0) = fin (lagrange_F U2 r0) ∧
    lagrange_G (fin U1) (fin U2) (fin s0) (fin r0) (fin mu) = fin (lagrange_G U1 U2 s0 r0 mu) ∧
    lagrange_Ft (fin U1) (fin r) (fin r0) (fin mu) = fin (lagrange_Ft U1 r r0 mu) ∧
    lagrange_Gt (fin U2) (fin r) = fin (lagrange_Gt U2 r) := by
  simp [lagrange_F, lagrange_G, lagrange_Ft, lagrange_Gt, fin_div _ hr, fin_div _ hr0,
    sqrt_fin hmu.le, fin_div _ (Real.sqrt_pos.2 hmu).ne']

end Adx
