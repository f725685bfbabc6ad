import Verif.Props.C48b

/-!
# C48 — the boundary cases left over

Together with `C48.lean` and `C48b.lean` these cover every finite argument of the scalar formulas. `infOf s` is the infinity with
the sign of `s`, and NaN for `s = 0`: the value of `s / 0`.
-/

namespace Adx
open XR

/-- `semimajor_axis` with `mu = 0`: zero for a moving body away from the centre, NaN otherwise. -/
theorem C48_semimajor_axis_mu0 (r v : ℝ) :
    (r ≠ 0 → v ≠ 0 → semimajor_axis (fin r) (fin v) (fin 0) = fin 0) ∧
    (r = 0 ∨ v = 0 → semimajor_axis (fin r) (fin v) (fin 0) = nan) := by
  constructor
  · intro hr hv
    simp [semimajor_axis, fin_div _ hr, infOf_pos (show 0 < v ^ 2 by positivity)]
  · intro h
    by_cases hv : v = 0
    · subst hv; simp [semimajor_axis]
    · obtain rfl : r = 0 := h.resolve_right hv
      simp [semimajor_axis, infOf_pos (show 0 < v ^ 2 by positivity), infOf_pos (two_pos : (0 : ℝ) < 2)]
      rfl

/-- `equ_of_orbit` in the direction of an asymptote, for every `p`. -/
theorem C48_equ_of_orbit_asymptote (p e f : ℝ) (h : 1 + e * Real.cos f = 0) :
    equ_of_orbit (fin p) (fin e) (fin f) = infOf p := by
  simp [equ_of_orbit, h]

/-- The radii and the axis at the eccentricities where the denominator vanishes, for every `p`. -/
theorem C48_radii_zero (p e : ℝ) :
    (e = -1 → radius_periapsis (fin p) (fin e) = infOf p) ∧ (e = 1 → radius_apoapsis (fin p) (fin e) = infOf p) ∧
    (e ^ 2 = 1 → a_from_pe (fin p) (fin e) = infOf p) := by
  refine ⟨?_, ?_, ?_⟩
  · rintro rfl; simp [radius_periapsis]
  · rintro rfl; simp [radius_apoapsis]
  · intro h; simp [a_from_pe, h]

/-- `sigma_fn` with `mu = 0`. -/
theorem C48_sigma_fn_mu0 (r v : V3 ℝ) : sigma_fn (vec r) (vec v) (fin 0) = infOf (V3.dot r v) := by
  have h : V3.dot (vec r) (vec v) = fin (V3.dot r v) := by simp [V3.dot]
  simp [sigma_fn, h, sqrt_fin]

/-- The mean anomalies at `a = 0`, and for a negative `mu` with `a` of the other sign than on the domain. -/
theorem C48_mean_anomaly_boundary (a dt mu : ℝ) :
    (0 < mu → mean_anomaly_elps (fin 0) (fin dt) (fin mu) = infOf dt ∧
      mean_anomaly_hypb (fin 0) (fin dt) (fin mu) = infOf dt) ∧
    (mu ≤ 0 → mean_anomaly_elps (fin 0) (fin dt) (fin mu) = nan ∧ mean_anomaly_hypb (fin 0) (fin dt) (fin mu) = nan) ∧
    (mu < 0 → 0 < a → mean_anomaly_elps (fin a) (fin dt) (fin mu) = nan ∧
      mean_anomaly_hypb (fin a) (fin dt) (fin mu) = fin (mean_anomaly_hypb a dt mu)) ∧
    (mu < 0 → a < 0 → mean_anomaly_elps (fin a) (fin dt) (fin mu) = fin (mean_anomaly_elps a dt mu) ∧
      mean_anomaly_hypb (fin a) (fin dt) (fin mu) = nan) ∧
    (mu = 0 → a ≠ 0 → mean_anomaly_elps (fin a) (fin dt) (fin mu) = fin 0 ∧
      mean_anomaly_hypb (fin a) (fin dt) (fin mu) = fin 0) := by
  refine ⟨?_, ?_, ?_, ?_, ?_⟩
  · intro h; simp [mean_anomaly_elps, mean_anomaly_hypb, infOf_pos h]
  · intro h
    rcases h.lt_or_eq with h | rfl
    · simp [mean_anomaly_elps, mean_anomaly_hypb, infOf_neg h]
    · simp [mean_anomaly_elps, mean_anomaly_hypb]
  · intro h ha
    have h3 : 0 < a ^ 3 := by positivity
    have hn : -(a ^ 3) ≠ 0 := neg_ne_zero.2 h3.ne'
    constructor
    · simp [mean_anomaly_elps, fin_div _ h3.ne', sqrt_neg (div_neg_of_neg_of_pos h h3)]
    · simp only [mean_anomaly_hypb, fin_pow, fin_neg, fin_div _ hn,
        sqrt_fin (div_nonneg_of_nonpos h.le (by linarith : -(a ^ 3) ≤ 0)), fin_mul, sqrt_real]
  · intro h ha
    have h3 : a ^ 3 < 0 := Odd.pow_neg (by decide) ha
    have hn : 0 < -(a ^ 3) := by linarith
    constructor
    · simp only [mean_anomaly_elps, fin_pow, fin_div _ h3.ne, sqrt_fin (div_nonneg_of_nonpos h.le h3.le), fin_mul, sqrt_real]
    · simp [mean_anomaly_hypb, fin_div _ hn.ne', sqrt_neg (div_neg_of_neg_of_pos h hn)]
  · rintro rfl ha
    have h3 : a ^ 3 ≠ 0 := pow_ne_zero 3 ha
    constructor
    · simp [mean_anomaly_elps, fin_div _ h3, sqrt_fin]
    · simp [mean_anomaly_hypb, fin_div _ (neg_ne_zero.2 h3), sqrt_fin]

/-- A negative `mu` in the universal Kepler equation and in the generalized anomaly. -/
theorem C48_uni_mu_neg (chi alpha r0 s s0 dt mu : ℝ) (h : mu < 0) :
    kepler_equ_uni (fin chi) (fin alpha) (fin r0) (fin s0) (fin dt) (fin mu) = nan ∧
    generalized_anomaly (fin alpha) (fin s) (fin s0) (fin dt) (fin mu) = nan := by
  simp [kepler_equ_uni, generalized_anomaly, sqrt_neg h]

/-- The Lagrange coefficients on their boundary: zero radius, and `mu` zero or negative. -/
theorem C48_lagrange_boundary (U1 U2 s0 r r0 mu : ℝ) :
    lagrange_F (fin U2) (fin 0) = fin 1 - infOf U2 ∧ lagrange_Gt (fin U2) (fin 0) = fin 1 - infOf U2 ∧
    (mu < 0 → lagrange_G (fin U1) (fin U2) (fin s0) (fin r0) (fin mu) = nan ∧
      lagrange_Ft (fin U1) (fin r) (fin r0) (fin mu) = nan) ∧
    lagrange_G (fin U1) (fin U2) (fin s0) (fin r0) (fin 0) = infOf (r0 * U1 + s0 * U2) := by
  refine ⟨?_, ?_, ?_, ?_⟩
  · simp [lagrange_F]
  · simp [lagrange_Gt]
  · intro h; simp [lagrange_G, lagrange_Ft, sqrt_neg h]
  · simp [lagrange_G, sqrt_fin]

/-- `lagrange_Ft` on its boundary: `mu` zero, or one of the radii. -/
theorem C48_lagrange_Ft_boundary (U1 r r0 mu : ℝ) :
    (r ≠ 0 → r0 ≠ 0 → lagrange_Ft (fin U1) (fin r) (fin r0) (fin 0) = fin 0) ∧
    (r = 0 ∨ r0 = 0 → lagrange_Ft (fin U1) (fin r) (fin r0) (fin 0) = nan) ∧
    (0 < mu → 0 ≤ r0 → lagrange_Ft (fin U1) (fin 0) (fin r0) (fin mu) = infOf (-U1)) ∧
    (0 < mu → r0 < 0 → lagrange_Ft (fin U1) (fin 0) (fin r0) (fin mu) = infOf U1) ∧
    (0 < mu → r ≠ 0 → lagrange_Ft (fin U1) (fin r) (fin 0) (fin mu) = infOf (-(U1 / r))) := by
  have hi : ∀ c x : ℝ, 0 < c → infOf (c * x) = infOf x := by
    intro c x hc
    rcases lt_trichotomy x 0 with h | rfl | h
    · rw [infOf_neg h, infOf_neg (mul_neg_of_pos_of_neg hc h)]
    · rw [mul_zero]
    · rw [infOf_pos h, infOf_pos (mul_pos hc h)]
  refine ⟨?_, ?_, ?_, ?_, ?_⟩
  · intro hr hr0
    simp [lagrange_Ft, sqrt_fin, fin_div _ hr, fin_div _ hr0]
  · intro h
    by_cases hr : r = 0
    · subst hr; simp [lagrange_Ft, sqrt_fin]
    · obtain rfl : r0 = 0 := h.resolve_left hr
      simp [lagrange_Ft, sqrt_fin, fin_div _ hr]
  · intro hm h0
    have hs : -Real.sqrt mu < 0 := neg_lt_zero.2 (Real.sqrt_pos.2 hm)
    simp only [lagrange_Ft, sqrt_fin hm.le, fin_neg, fin_div_zero, infOf_neg hs, ninf_mul_fin]
    rcases lt_trichotomy (-U1) 0 with h | h | h
    · rw [infOf_neg h]; exact if_pos h0
    · rw [h, infOf_zero, nan_div]
    · rw [infOf_pos h]; exact if_pos h0
  · intro hm h0
    have hs : -Real.sqrt mu < 0 := neg_lt_zero.2 (Real.sqrt_pos.2 hm)
    simp only [lagrange_Ft, sqrt_fin hm.le, fin_neg, fin_div_zero, infOf_neg hs, ninf_mul_fin]
    rcases lt_trichotomy U1 0 with h | rfl | h
    · rw [infOf_neg h, infOf_pos (by linarith)]; exact if_neg (not_le.2 h0)
    · rw [neg_zero, infOf_zero, nan_div]
    · rw [infOf_pos h, infOf_neg (by linarith)]; exact if_neg (not_le.2 h0)
  · intro hm hr
    simp only [lagrange_Ft, sqrt_fin hm.le, fin_neg, fin_div _ hr, fin_mul, fin_div_zero]
    rw [← hi _ (-(U1 / r)) (Real.sqrt_pos.2 hm)]
    congr 1; ring

/-- `nmax_by_periapsis` off its domain: an unbounded number of revolutions when the smallest orbit degenerates to a point, NaN
when `mu` and the sum of the radii have opposite signs. -/
theorem C48_nmax_boundary (rp r1 r2 tof mu : ℝ) :
    (max r1 r2 + rp = 0 → 0 < mu → nmax_by_periapsis (fin rp) (fin r1) (fin r2) (fin tof) (fin mu)
      = JFun.floor (infOf (tof / (2 * Real.pi)))) ∧
    (mu * (max r1 r2 + rp) < 0 → nmax_by_periapsis (fin rp) (fin r1) (fin r2) (fin tof) (fin mu) = nan) ∧
    (max r1 r2 + rp = 0 → mu ≤ 0 → nmax_by_periapsis (fin rp) (fin r1) (fin r2) (fin tof) (fin mu) = nan) ∧
    (max r1 r2 + rp ≠ 0 → 0 ≤ mu * (max r1 r2 + rp) → nmax_by_periapsis (fin rp) (fin r1) (fin r2) (fin tof) (fin mu)
      = fin (nmax_by_periapsis rp r1 r2 tof mu)) := by
  have hpi : (2 : ℝ) * Real.pi ≠ 0 := by positivity
  have hh : ∀ y : ℝ, (ℓ 1 / ℓ 2 * fin y : XR) ^ 3 = fin ((1 / 2 * y) ^ 3) := by
    intro y
    rw [cast_fin, cast_fin, fin_div_lit, fin_mul, fin_pow]; norm_num
  simp only [nmax_by_periapsis, maximum_fin, fin_add, hh, maximum_real]
  refine ⟨?_, ?_, ?_, ?_⟩
  · intro h hm
    rw [h]
    simp [fin_div _ hpi, infOf_pos hm]
  · intro h
    generalize max r1 r2 + rp = y at *
    have h0 : y ≠ 0 := by rintro rfl; simp at h
    have h3 : (1 / 2 * y) ^ 3 ≠ 0 := pow_ne_zero 3 (mul_ne_zero (by norm_num) h0)
    have hneg : mu / (1 / 2 * y) ^ 3 < 0 := by
      have : mu / (1 / 2 * y) ^ 3 = 8 * (mu * y) / (y ^ 2) ^ 2 := by field_simp; norm_num
      rw [this]
      exact div_neg_of_neg_of_pos (by linarith) (by positivity)
    rw [fin_div _ h3, sqrt_neg hneg, mul_nan]
    rfl
  · intro h hm
    rw [h]
    rcases hm.lt_or_eq with hm | rfl
    · simp [infOf_neg hm]
      rfl
    · simp
      rfl
  · intro h0 h
    generalize max r1 r2 + rp = y at *
    have h3 : (1 / 2 * y) ^ 3 ≠ 0 := pow_ne_zero 3 (mul_ne_zero (by norm_num) h0)
    have hpos : 0 ≤ mu / (1 / 2 * y) ^ 3 := by
      have : mu / (1 / 2 * y) ^ 3 = 8 * (mu * y) / (y ^ 2) ^ 2 := by field_simp; norm_num
      rw [this]
      positivity
    rw [fin_div _ h3, sqrt_fin hpos]
    simp [fin_div _ hpi]

/-- At the centre every zonal acceleration is NaN in all three components, for all parameters. -/
theorem C48_zonal_origin (t : XR) (rest : List XR) (a : Args ℝ) (mu J2 J3 J4 R : ℝ) (hm : a "mu" = some mu)
    (h2 : a "J2" = some J2) (h3 : a "J3" = some J3) (h4 : a "J4" = some J4) (hR : a "R_eq" = some R) :
    j2_acc t ⟨vec ⟨0, 0, 0⟩, rest⟩ (finArgs a) = .ok ⟨nan, nan, nan⟩ ∧
    j3_acc t ⟨vec ⟨0, 0, 0⟩, rest⟩ (finArgs a) = .ok ⟨nan, nan, nan⟩ ∧
    j4_acc t ⟨vec ⟨0, 0, 0⟩, rest⟩ (finArgs a) = .ok ⟨nan, nan, nan⟩ := by
  have hn : V3.norm (vec ⟨0, 0, 0⟩) = fin 0 := by simp [V3.norm, V3.dot, sqrt_fin]
  have hz2 : (nan : XR) ^ 2 = nan := nan_pow 1
  refine ⟨?_, ?_, ?_⟩
  · simp only [j2_acc, Args.get, finArgs, hm, h2, hR, Option.map_some, hn]
    refine congrArg Except.ok (V3.ext ?_ ?_ ?_) <;> simp [hz2]
  · simp only [j3_acc, Args.get, finArgs, hm, h3, hR, Option.map_some, hn]
    refine congrArg Except.ok (V3.ext ?_ ?_ ?_) <;> simp
  · simp only [j4_acc, Args.get, finArgs, hm, h4, hR, Option.map_some, hn]
    refine congrArg Except.ok (V3.ext ?_ ?_ ?_) <;> simp [hz2]

/-- Cases with numbers. -/
example : radius_apoapsis (fin (-2)) (fin 1) = ninf ∧ mean_anomaly_elps (fin 0) (fin 3) (fin 1) = pinf := by
  rw [(C48_radii_zero (-2) 1).2.1 rfl, ((C48_mean_anomaly_boundary 0 3 1).1 one_pos).1, infOf_neg (by norm_num),
    infOf_pos (by norm_num)]
  exact ⟨rfl, rfl⟩

end Adx
