import Verif.Lemmas.Periapsis
import Verif.Model.PathCheck

/-! # C36, C39, C51: radii reached by a motion, revolutions within a time of flight -/

namespace Adx
open V3

section
variable {r v : V3 ℝ} {mu : ℝ} (hmu : 0 < mu) (hh : angular_momentum r v ≠ ⟨0, 0, 0⟩)
include hmu hh

/-- C51: on an ellipse (`e < 1`) the distances reached by the motion are exactly those between
`radius_periapsis` and `radius_apoapsis`. -/
theorem C51_elliptic_radii (he : eOf r v mu < 1) (R : ℝ) :
    (∃ t, V3.norm (exactProp r v mu t).1 = R) ↔
      radius_periapsis (pOf r v mu) (eOf r v mu) ≤ R ∧ R ≤ radius_apoapsis (pOf r v mu) (eOf r v mu) := by
  constructor
  · rintro ⟨t, rfl⟩
    obtain ⟨e1, e2⟩ := exactProp_pe hmu hh t
    have h1 := C06_periapsis_le_radius (v := (exactProp r v mu t).2) (exactProp_ne hmu hh t) hmu
    have h2 := C06_radius_le_apoapsis (v := (exactProp r v mu t).2) (exactProp_ne hmu hh t) hmu (by rw [e2]; exact he)
    rw [e1, e2] at h1 h2
    exact ⟨h1, h2⟩
  · rintro ⟨h1, h2⟩
    have hα : 0 < alphaOf r v mu := by
      have := pOf_alpha hmu hh
      have hp := pOf_pos hh hmu
      have he0 : 0 ≤ eOf r v mu := norm_nonneg _
      by_contra hneg
      have := mul_nonpos_of_nonneg_of_nonpos hp.le (not_lt.1 hneg)
      nlinarith
    obtain ⟨χ, hχ⟩ := radOf_reaches_elliptic hmu hh hα h1 h2
    obtain ⟨t, ht⟩ := exists_time hmu hh χ
    exact ⟨t, by rw [norm_exactProp hmu hh, ht, hχ]⟩

/-- C51: on parabolas and hyperbolas (`e ≥ 1`) they are exactly those from `radius_periapsis` on. -/
theorem C51_open_radii (he : 1 ≤ eOf r v mu) (R : ℝ) :
    (∃ t, V3.norm (exactProp r v mu t).1 = R) ↔ radius_periapsis (pOf r v mu) (eOf r v mu) ≤ R := by
  constructor
  · rintro ⟨t, rfl⟩
    obtain ⟨e1, e2⟩ := exactProp_pe hmu hh t
    have h1 := C06_periapsis_le_radius (v := (exactProp r v mu t).2) (exactProp_ne hmu hh t) hmu
    rw [e1, e2] at h1
    exact h1
  · intro h1
    have hα : alphaOf r v mu ≤ 0 := by
      have := pOf_alpha hmu hh
      have hp := pOf_pos hh hmu
      by_contra hneg
      have := mul_pos hp (not_le.1 hneg)
      nlinarith
    obtain ⟨χ, hχ⟩ := radOf_reaches_open hmu hh hα h1
    obtain ⟨t, ht⟩ := exists_time hmu hh χ
    exact ⟨t, by rw [norm_exactProp hmu hh, ht, hχ]⟩

/-- The motion passes through periapsis. -/
theorem reaches_periapsis :
    ∃ t, V3.norm (exactProp r v mu t).1 = radius_periapsis (pOf r v mu) (eOf r v mu) := by
  rcases lt_or_ge (eOf r v mu) 1 with he | he
  · refine (C51_elliptic_radii hmu hh he _).2 ⟨le_rfl, ?_⟩
    have h1 := C06_periapsis_le_radius (v := v) (pos_ne hmu hh) hmu
    exact h1.trans (C06_radius_le_apoapsis (pos_ne hmu hh) hmu he)
  · exact (C51_open_radii hmu hh he _).2 le_rfl

/-- C39: `rp_islower_rmin` is true exactly when the two-body motion through the state comes closer to the
centre than `rmin` at some time. -/
theorem C39_rp_islower_rmin (rmin : ℝ) :
    rp_islower_rmin rmin r v mu = true ↔ ∃ t, V3.norm (exactProp r v mu t).1 < rmin := by
  have hdef : rp_islower_rmin rmin r v mu = true ↔ radius_periapsis (pOf r v mu) (eOf r v mu) < rmin := by
    simp [rp_islower_rmin, pOf, eOf]
  rw [hdef]
  constructor
  · intro h
    obtain ⟨t, ht⟩ := reaches_periapsis hmu hh
    exact ⟨t, by rw [ht]; exact h⟩
  · rintro ⟨t, ht⟩
    obtain ⟨e1, e2⟩ := exactProp_pe hmu hh t
    have h1 := C06_periapsis_le_radius (v := (exactProp r v mu t).2) (exactProp_ne hmu hh t) hmu
    rw [e1, e2] at h1
    exact lt_of_le_of_lt h1 ht

end

/-- `nmax_by_periapsis` is the number of whole periods of the orbit with `a = (max r1 r2 + rp_min)/2`. -/
theorem nmax_eq {rp_min r1 r2 tof mu : ℝ} (ha : 0 < max r1 r2 + rp_min) (_hmu : 0 < mu) :
    nmax_by_periapsis rp_min r1 r2 tof mu = (⌊tof / orb_period ((max r1 r2 + rp_min) / 2) mu⌋ : ℝ) := by
  have hpi := Real.pi_pos
  simp only [nmax_by_periapsis, orb_period, maximum_real, pi_real, sqrt_real, floor_real, Nat.cast_one,
    Nat.cast_ofNat]
  rw [show (1 : ℝ) / 2 * (max r1 r2 + rp_min) = (max r1 r2 + rp_min) / 2 by ring]
  set a := (max r1 r2 + rp_min) / 2
  have h0 : 0 < a := by positivity
  rw [show mu / a ^ 3 = (a ^ 3 / mu)⁻¹ by rw [inv_div], Real.sqrt_inv]
  congr 2
  rw [← div_eq_mul_inv, div_div, mul_assoc]

/-- C36: the values of `nmax_by_periapsis`: a natural number of revolutions is within it exactly when that many
periods of the smallest admissible orbit fit into the time of flight. -/
theorem C36_nmax_iff {rp_min r1 r2 tof mu : ℝ} (ha : 0 < max r1 r2 + rp_min) (hmu : 0 < mu) (k : ℕ) :
    (k : ℝ) ≤ nmax_by_periapsis rp_min r1 r2 tof mu
      ↔ k * orb_period ((max r1 r2 + rp_min) / 2) mu ≤ tof := by
  have hP : 0 < orb_period ((max r1 r2 + rp_min) / 2) mu := by
    simp only [orb_period, pi_real, sqrt_real, Nat.cast_ofNat]
    have hpi := Real.pi_pos
    have : 0 < Real.sqrt (((max r1 r2 + rp_min) / 2) ^ 3 / mu) := Real.sqrt_pos.2 (by positivity)
    positivity
  rw [nmax_eq ha hmu, ← le_div_iff₀ hP]
  have : ((k : ℤ) : ℝ) = (k : ℝ) := by norm_cast
  rw [← this, Int.cast_le, Int.le_floor]

/-- C36: nonnegative, integral and monotone in the time of flight. -/
theorem C36_nonneg_mono {rp_min r1 r2 tof tof' mu : ℝ} (ha : 0 < max r1 r2 + rp_min) (hmu : 0 < mu)
    (h0 : 0 ≤ tof) (h : tof ≤ tof') :
    (∃ n : ℕ, nmax_by_periapsis rp_min r1 r2 tof mu = n) ∧
      nmax_by_periapsis rp_min r1 r2 tof mu ≤ nmax_by_periapsis rp_min r1 r2 tof' mu := by
  have hP : 0 ≤ orb_period ((max r1 r2 + rp_min) / 2) mu := by
    simp only [orb_period, pi_real, sqrt_real, Nat.cast_ofNat]
    have hpi := Real.pi_pos
    positivity
  rw [nmax_eq ha hmu, nmax_eq ha hmu]
  constructor
  · have : 0 ≤ ⌊tof / orb_period ((max r1 r2 + rp_min) / 2) mu⌋ := Int.floor_nonneg.2 (div_nonneg h0 hP)
    obtain ⟨n, hn⟩ := Int.eq_ofNat_of_zero_le this
    exact ⟨n, by rw [hn]; norm_cast⟩
  · exact_mod_cast Int.floor_le_floor (div_le_div_of_nonneg_right h hP)

/-- C36: no elliptic motion that reaches both radii, never comes closer than `rp_min` and completes `k` whole
periods within the time of flight has more than `nmax_by_periapsis` revolutions. -/
theorem C36_bound {r v : V3 ℝ} {mu rp_min r1 r2 tof : ℝ} (hmu : 0 < mu) (hh : angular_momentum r v ≠ ⟨0, 0, 0⟩)
    (hell : 0 < semimajor_axis (V3.norm r) (V3.norm v) mu) (hrp : 0 ≤ rp_min)
    (h1 : ∃ t, V3.norm (exactProp r v mu t).1 = r1) (h2 : ∃ t, V3.norm (exactProp r v mu t).1 = r2)
    (hmin : ∀ t, rp_min ≤ V3.norm (exactProp r v mu t).1) (k : ℕ)
    (hk : k * orb_period (semimajor_axis (V3.norm r) (V3.norm v) mu) mu ≤ tof) :
    (k : ℝ) ≤ nmax_by_periapsis rp_min r1 r2 tof mu := by
  have hp := pOf_pos hh hmu
  have hpa := pOf_alpha hmu hh
  have he0 : 0 ≤ eOf r v mu := norm_nonneg _
  set a := semimajor_axis (V3.norm r) (V3.norm v) mu with ha
  have hα : alphaOf r v mu = 1 / a := rfl
  have he1 : eOf r v mu < 1 := by
    have : 0 < pOf r v mu * alphaOf r v mu := by rw [hα]; positivity
    nlinarith
  obtain ⟨t, ht⟩ := reaches_periapsis hmu hh
  have hrp' : rp_min ≤ radius_periapsis (pOf r v mu) (eOf r v mu) := by rw [← ht]; exact hmin t
  have hr1 := ((C51_elliptic_radii hmu hh he1 r1).1 h1).2
  have hr2 := ((C51_elliptic_radii hmu hh he1 r2).1 h2).2
  have hpos : 0 < max r1 r2 := by
    obtain ⟨t1, rfl⟩ := h1
    exact lt_of_lt_of_le ((norm_pos _).2 (exactProp_ne hmu hh t1)) (le_max_left _ _)
  have hsum : radius_periapsis (pOf r v mu) (eOf r v mu) + radius_apoapsis (pOf r v mu) (eOf r v mu) = 2 * a := by
    have : pOf r v mu = a * (1 - eOf r v mu ^ 2) := by rw [← hpa, hα]; field_simp
    simp only [radius_periapsis, radius_apoapsis, Nat.cast_one]
    rw [this]
    have h3 : 1 - eOf r v mu ≠ 0 := by linarith
    field_simp; ring
  have hle : (max r1 r2 + rp_min) / 2 ≤ a := by
    have := max_le hr1 hr2
    linarith
  rw [C36_nmax_iff (by linarith) hmu]
  refine le_trans ?_ hk
  refine mul_le_mul_of_nonneg_left ?_ (Nat.cast_nonneg k)
  rcases hle.eq_or_lt with h | h
  · rw [h]
  · exact (C01_orb_period_strictMono (by linarith) h hmu).le

/-- C36: the bound is attained: whenever `0 < rp_min ≤ r1, r2` there is an elliptic motion that reaches both
radii, never comes closer than `rp_min` and completes `nmax_by_periapsis` periods within the time of flight. -/
theorem C36_attained {mu rp_min r1 r2 tof : ℝ} (hmu : 0 < mu) (hrp : 0 < rp_min) (h1 : rp_min ≤ r1)
    (h2 : rp_min ≤ r2) (_htof : 0 ≤ tof) :
    ∃ r v : V3 ℝ, angular_momentum r v ≠ ⟨0, 0, 0⟩ ∧
      semimajor_axis (V3.norm r) (V3.norm v) mu = (max r1 r2 + rp_min) / 2 ∧
      (∃ t, V3.norm (exactProp r v mu t).1 = r1) ∧ (∃ t, V3.norm (exactProp r v mu t).1 = r2) ∧
      (∀ t, rp_min ≤ V3.norm (exactProp r v mu t).1) ∧
      ∀ k : ℕ, (k : ℝ) ≤ nmax_by_periapsis rp_min r1 r2 tof mu →
        k * orb_period (semimajor_axis (V3.norm r) (V3.norm v) mu) mu ≤ tof := by
  set ra := max r1 r2 with hra
  have hra0 : rp_min ≤ ra := h1.trans (le_max_left _ _)
  have hra1 : 0 < ra := hrp.trans_le hra0
  set w := Real.sqrt (2 * mu * ra / (rp_min * (ra + rp_min))) with hw
  have hw2 : w ^ 2 = 2 * mu * ra / (rp_min * (ra + rp_min)) := Real.sq_sqrt (by positivity)
  have hw0 : 0 < w := Real.sqrt_pos.2 (by positivity)
  set r : V3 ℝ := ⟨rp_min, 0, 0⟩ with hr
  set v : V3 ℝ := ⟨0, w, 0⟩ with hv
  have hn : V3.norm r = rp_min := by
    simp only [V3.norm, dot, hr, sqrt_real]; rw [← Real.sqrt_sq hrp.le]; congr 1; rw [Real.sqrt_sq hrp.le]; ring
  have hnv : V3.norm v = w := by
    simp only [V3.norm, dot, hv, sqrt_real]; rw [← Real.sqrt_sq hw0.le]; congr 1; rw [Real.sqrt_sq hw0.le]; ring
  have hc : cross r v = ⟨0, 0, rp_min * w⟩ := by ext <;> simp [cross, hr, hv]
  have hh : angular_momentum r v ≠ ⟨0, 0, 0⟩ := by
    rw [angular_momentum, hc]; simp [hrp.ne', hw0.ne']
  have ha : semimajor_axis (V3.norm r) (V3.norm v) mu = (ra + rp_min) / 2 := by
    simp only [semimajor_axis, hn, hnv, hw2, Nat.cast_one, Nat.cast_ofNat]
    have : 2 / rp_min - 2 * mu * ra / (rp_min * (ra + rp_min)) / mu = 2 / (ra + rp_min) := by
      field_simp; ring
    rw [this]; field_simp
  have hp : pOf r v mu = 2 * ra * rp_min / (ra + rp_min) := by
    rw [pOf, semiparameter_eq, hc]
    simp only [dot]
    rw [show (0 : ℝ) * 0 + 0 * 0 + rp_min * w * (rp_min * w) = rp_min ^ 2 * w ^ 2 by ring, hw2]
    field_simp
  have he : eOf r v mu = (ra - rp_min) / (ra + rp_min) := by
    have h3 := pOf_alpha hmu hh
    rw [alphaOf, ha, hp] at h3
    have h4 : eOf r v mu ^ 2 = ((ra - rp_min) / (ra + rp_min)) ^ 2 := by
      have : eOf r v mu ^ 2 = 1 - 2 * ra * rp_min / (ra + rp_min) * (1 / ((ra + rp_min) / 2)) := by linarith
      rw [this]; field_simp; ring
    exact (pow_left_inj₀ (norm_nonneg _) (div_nonneg (by linarith) (by linarith)) two_ne_zero).1 h4
  have hper : radius_periapsis (pOf r v mu) (eOf r v mu) = rp_min := by
    simp only [radius_periapsis, hp, he, Nat.cast_one]
    have : (1 : ℝ) + (ra - rp_min) / (ra + rp_min) = 2 * ra / (ra + rp_min) := by field_simp; ring
    rw [this]; field_simp
  have hapo : radius_apoapsis (pOf r v mu) (eOf r v mu) = ra := by
    simp only [radius_apoapsis, hp, he, Nat.cast_one]
    have : (1 : ℝ) - (ra - rp_min) / (ra + rp_min) = 2 * rp_min / (ra + rp_min) := by field_simp; ring
    rw [this]; field_simp
  have he1 : eOf r v mu < 1 := by rw [he, div_lt_one (by linarith)]; linarith
  refine ⟨r, v, hh, ha, ?_, ?_, ?_, ?_⟩
  · exact (C51_elliptic_radii hmu hh he1 r1).2 ⟨by rw [hper]; exact h1, by rw [hapo]; exact le_max_left _ _⟩
  · exact (C51_elliptic_radii hmu hh he1 r2).2 ⟨by rw [hper]; exact h2, by rw [hapo]; exact le_max_right _ _⟩
  · intro t
    have := ((C51_elliptic_radii hmu hh he1 _).1 ⟨t, rfl⟩).1
    rwa [hper] at this
  · intro k hk
    rw [ha]
    exact (C36_nmax_iff (by linarith) hmu k).1 hk

/-- A case with a nonzero answer: circular unit radii, time of flight `4π`: two revolutions. -/
example : nmax_by_periapsis (1 : ℝ) 1 1 (4 * Real.pi) 1 = 2 := by
  have hpi := Real.pi_pos
  rw [nmax_eq (by norm_num) one_pos]
  have : (4 * Real.pi) / orb_period ((max (1 : ℝ) 1 + 1) / 2) 1 = 2 := by
    simp [orb_period]; field_simp; norm_num
  rw [this]; simp

/-- A case of C39 with a true answer: thrown sideways from apoapsis at half the circular speed, the motion dips
below radius 1/2. -/
example : rp_islower_rmin (1 / 2) (⟨1, 0, 0⟩ : V3 ℝ) ⟨0, 1 / 2, 0⟩ 1 = true := by
  have h : pOf (⟨1, 0, 0⟩ : V3 ℝ) ⟨0, 1 / 2, 0⟩ 1 = 1 / 4 := by
    rw [pOf, semiparameter_eq]; simp [dot, cross]; norm_num
  have h' : rp_islower_rmin (1 / 2) (⟨1, 0, 0⟩ : V3 ℝ) ⟨0, 1 / 2, 0⟩ 1 = true
      ↔ radius_periapsis (pOf (⟨1, 0, 0⟩ : V3 ℝ) ⟨0, 1 / 2, 0⟩ 1) (eOf ⟨1, 0, 0⟩ ⟨0, 1 / 2, 0⟩ 1) < 1 / 2 := by
    simp [rp_islower_rmin, pOf, eOf]
  rw [h', h, radius_periapsis]
  have he : (0 : ℝ) ≤ eOf (⟨1, 0, 0⟩ : V3 ℝ) ⟨0, 1 / 2, 0⟩ 1 := norm_nonneg _
  rw [div_lt_iff₀ (by push_cast; linarith)]
  push_cast; linarith

end Adx
