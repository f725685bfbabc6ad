import Verif.Lemmas.Periapsis
import Mathlib.Analysis.Calculus.MeanValue

/-! # How fast a Kepler motion can move: bounds on speed and acceleration from the periapsis radius -/

namespace Adx
open V3 Spec

theorem V3.abs_x_le (a : V3 ℝ) : |a.x| ≤ V3.norm a := by
  rw [V3.norm, sqrt_real, V3.dot]
  exact Real.abs_le_sqrt (by nlinarith [mul_self_nonneg a.y, mul_self_nonneg a.z])
theorem V3.abs_y_le (a : V3 ℝ) : |a.y| ≤ V3.norm a := by
  rw [V3.norm, sqrt_real, V3.dot]
  exact Real.abs_le_sqrt (by nlinarith [mul_self_nonneg a.x, mul_self_nonneg a.z])
theorem V3.abs_z_le (a : V3 ℝ) : |a.z| ≤ V3.norm a := by
  rw [V3.norm, sqrt_real, V3.dot]
  exact Real.abs_le_sqrt (by nlinarith [mul_self_nonneg a.x, mul_self_nonneg a.y])

/-- A curve whose velocity has norm at most `C` moves at most `C |t - s|`. -/
theorem norm_sub_le_of_speed {f g : ℝ → V3 ℝ} {C : ℝ} (h : ∀ t, HasDerivV f (g t) t) (hC : ∀ t, V3.norm (g t) ≤ C)
    (s t : ℝ) : V3.norm (f t - f s) ≤ C * |t - s| := by
  set n := f t - f s with hn
  have hd : ∀ τ, HasDerivAt (fun τ => V3.dot n (f τ)) (V3.dot n (g τ)) τ := fun τ =>
    ((((h τ).x.const_mul n.x).fun_add ((h τ).y.const_mul n.y)).fun_add ((h τ).z.const_mul n.z))
  have hb : ∀ τ, ‖V3.dot n (g τ)‖ ≤ V3.norm n * C := fun τ => by
    rw [Real.norm_eq_abs]
    exact (V3.abs_dot_le _ _).trans (mul_le_mul_of_nonneg_left (hC τ) (V3.norm_nonneg _))
  have hm := Convex.norm_image_sub_le_of_norm_hasDerivWithin_le (s := Set.univ) (x := s) (y := t)
    (fun τ _ => (hd τ).hasDerivWithinAt) (fun τ _ => hb τ) convex_univ (Set.mem_univ s) (Set.mem_univ t)
  have e : V3.dot n (f t) - V3.dot n (f s) = V3.norm n * V3.norm n := by
    rw [V3.norm_mul_self, hn]; simp only [V3.dot, sub_x, sub_y, sub_z]; ring
  rw [e, Real.norm_eq_abs, Real.norm_eq_abs, abs_of_nonneg (mul_self_nonneg _), mul_assoc] at hm
  rcases (V3.norm_nonneg n).eq_or_lt with h0 | h0
  · have hC0 : 0 ≤ C := (V3.norm_nonneg _).trans (hC s)
    rw [← h0]; positivity
  · exact le_of_mul_le_mul_left hm h0

section
variable {r v : V3 ℝ} {mu : ℝ} (hmu : 0 < mu) (hh : angular_momentum r v ≠ ⟨0, 0, 0⟩)
include hmu hh

/-- Periapsis radius of a state. -/
noncomputable abbrev qOf (r v : V3 ℝ) (mu : ℝ) : ℝ := radius_periapsis (pOf r v mu) (eOf r v mu)

theorem qOf_pos : 0 < qOf r v mu := by
  have hp := pOf_pos hh hmu
  have he : 0 ≤ eOf r v mu := V3.norm_nonneg _
  simp only [qOf, radius_periapsis, Nat.cast_one]
  positivity

theorem qOf_le : qOf r v mu ≤ V3.norm r := by
  have hr := pos_ne hmu hh
  have he : 0 ≤ eOf r v mu := V3.norm_nonneg _
  have h := ecc_dot_pos (v := v) hr hmu.ne'
  rw [← semiparameter_eq] at h
  have h1 := (le_abs_self _).trans (V3.abs_dot_le (eccentricity_vector r v mu) r)
  simp only [qOf, radius_periapsis, Nat.cast_one]
  rw [div_le_iff₀ (by linarith)]
  simp only [pOf, eOf]
  rw [eOf] at he
  linarith

theorem qOf_le_exact (t : ℝ) : qOf r v mu ≤ V3.norm (exactProp r v mu t).1 := by
  obtain ⟨h1, h2⟩ := exactProp_pe hmu hh t
  have hne := (radOf_pos (χ := exactChi r v mu t) hmu hh).ne'
  have h3 : cross (exactProp r v mu t).1 (exactProp r v mu t).2 = cross r v := step_h (pos_ne hmu hh) hmu hne
  have := qOf_le (r := (exactProp r v mu t).1) (v := (exactProp r v mu t).2) hmu
    (by simpa only [angular_momentum, h3] using hh)
  rwa [qOf, h1, h2] at this

theorem qOf_le_radOf (χ : ℝ) : qOf r v mu ≤ radOf r v mu χ := by
  have h := qOf_le_exact hmu hh (kepU (alphaOf r v mu) (V3.norm r) (sigma_fn r v mu) χ / Real.sqrt mu)
  have hs : 0 < Real.sqrt mu := Real.sqrt_pos.2 hmu
  rwa [exactProp, ← exactChi_unique hmu hh (χ := χ) (isRoot_iff.2 (by field_simp)), step_norm (pos_ne hmu hh) hmu] at h

/-- The squared speed is at most `mu (2/q - 1/a)`, its value at periapsis. -/
theorem speed_le (t : ℝ) :
    V3.norm (exactProp r v mu t).2 ≤ Real.sqrt (mu * (2 / qOf r v mu - alphaOf r v mu)) := by
  have hR : 0 < radOf r v mu (exactChi r v mu t) := radOf_pos hmu hh
  have h := step_vv (v := v) (pos_ne hmu hh) hmu hR.ne'
  have hq := qOf_pos hmu hh
  have hle := qOf_le_radOf hmu hh (exactChi r v mu t)
  rw [V3.norm, sqrt_real]
  refine Real.sqrt_le_sqrt ?_
  change V3.dot (stepOf r v mu (exactChi r v mu t)).2 (stepOf r v mu (exactChi r v mu t)).2 ≤ _
  rw [h]
  gcongr

theorem acc_le (t : ℝ) :
    V3.norm ((-mu / Real.sqrt ((exactProp r v mu t).1.x ^ 2 + (exactProp r v mu t).1.y ^ 2
      + (exactProp r v mu t).1.z ^ 2) ^ 3) • (exactProp r v mu t).1) ≤ mu / qOf r v mu ^ 2 := by
  have hq := qOf_pos hmu hh
  have hle := qOf_le_exact hmu hh t
  have hn : Real.sqrt ((exactProp r v mu t).1.x ^ 2 + (exactProp r v mu t).1.y ^ 2
      + (exactProp r v mu t).1.z ^ 2) = V3.norm (exactProp r v mu t).1 := radius_eq_norm _
  rw [hn, V3.norm_smul, abs_div, abs_neg, abs_of_pos hmu]
  set R := V3.norm (exactProp r v mu t).1
  have hR : 0 < R := by linarith
  rw [abs_of_pos (by positivity)]
  calc mu / R ^ 3 * R = mu / R ^ 2 := by field_simp
    _ ≤ _ := by gcongr

/-- The exact position and velocity as functions of time are Lipschitz, with constants from the periapsis radius. -/
theorem exactProp_lipschitz (s t : ℝ) :
    V3.norm ((exactProp r v mu t).1 - (exactProp r v mu s).1)
      ≤ Real.sqrt (mu * (2 / qOf r v mu - alphaOf r v mu)) * |t - s| ∧
    V3.norm ((exactProp r v mu t).2 - (exactProp r v mu s).2) ≤ mu / qOf r v mu ^ 2 * |t - s| := by
  have h := (C21_solves_two_body hmu hh).2
  exact ⟨norm_sub_le_of_speed (fun τ => (h τ (Set.mem_univ _)).2.1) (speed_le hmu hh) s t,
    norm_sub_le_of_speed (fun τ => (h τ (Set.mem_univ _)).2.2) (acc_le hmu hh) s t⟩

/-- A value `χ` with residual `f` in the universal Kepler equation is the exact motion at a time off by `|f|/√mu`. -/
theorem stepOf_near_exact (χ t : ℝ) :
    let f := kepler_equ_uni χ (alphaOf r v mu) (V3.norm r) (sigma_fn r v mu) t mu
    V3.norm ((stepOf r v mu χ).1 - (exactProp r v mu t).1)
      ≤ Real.sqrt (2 / qOf r v mu - alphaOf r v mu) * |f| ∧
    V3.norm ((stepOf r v mu χ).2 - (exactProp r v mu t).2) ≤ Real.sqrt mu / qOf r v mu ^ 2 * |f| := by
  intro f
  have hs : 0 < Real.sqrt mu := Real.sqrt_pos.2 hmu
  have hs2 : Real.sqrt mu * Real.sqrt mu = mu := Real.mul_self_sqrt hmu.le
  set τ := kepU (alphaOf r v mu) (V3.norm r) (sigma_fn r v mu) χ / Real.sqrt mu with hτ
  have he : stepOf r v mu χ = exactProp r v mu τ := by
    rw [exactProp, ← exactChi_unique hmu hh (χ := χ) (isRoot_iff.2 (by rw [hτ]; field_simp))]
  have hd : |τ - t| = |f| / Real.sqrt mu := by
    have : τ - t = f / Real.sqrt mu := by
      simp only [f]; rw [kep_uni_eq, hτ]; field_simp
    rw [this, abs_div, abs_of_pos hs]
  obtain ⟨h1, h2⟩ := exactProp_lipschitz hmu hh t τ
  rw [he]
  refine ⟨h1.trans_eq ?_, h2.trans_eq ?_⟩
  · rw [hd, Real.sqrt_mul hmu.le]; field_simp
  · rw [hd]
    have hq := (qOf_pos hmu hh).ne'
    field_simp
    rw [sq, hs2]; ring

end

end Adx
