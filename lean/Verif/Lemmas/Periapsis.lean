import Verif.Lemmas.Exact
import Verif.Lemmas.Elements
import Verif.Props.C04
import Verif.Props.C21

/-! # Which radii a Kepler motion reaches -/

namespace Adx
open V3 Spec

section
variable {r v : V3 ℝ} {mu : ℝ} (hmu : 0 < mu) (hh : cross r v ≠ ⟨0, 0, 0⟩)
include hmu hh

theorem pOf_inv : 2 * V3.norm r - alphaOf r v mu * V3.norm r ^ 2 - sigma_fn r v mu ^ 2 = pOf r v mu := by
  rw [alphaOf, inv_semimajor_axis, state_invariant (pos_ne hmu hh) hmu, pOf, semiparameter_eq]

theorem pOf_alpha : pOf r v mu * alphaOf r v mu = 1 - eOf r v mu ^ 2 := by
  rw [C04_shape_size (pos_ne hmu hh) hmu, alphaOf, inv_semimajor_axis, invA, norm_sq]

/-- The radius of an elliptic motion in terms of an eccentric anomaly. -/
theorem radOf_elliptic (hα : 0 < alphaOf r v mu) :
    ∃ E, ∀ χ, alphaOf r v mu * radOf r v mu χ
      = 1 - eOf r v mu * Real.cos (E + Real.sqrt (alphaOf r v mu) * χ) := by
  have h1 := pOf_inv hmu hh
  have h2 := pOf_alpha hmu hh
  set α := alphaOf r v mu with hαd
  set q := Real.sqrt α with hq
  have hq0 : 0 < q := Real.sqrt_pos.2 hα
  have hq2 : q ^ 2 = α := Real.sq_sqrt hα.le
  obtain ⟨E, -, -, hc, hs⟩ := exists_angle (1 - α * V3.norm r) (q * sigma_fn r v mu)
  have he : Real.sqrt ((1 - α * V3.norm r) ^ 2 + (q * sigma_fn r v mu) ^ 2) = eOf r v mu := by
    have he0 : 0 ≤ eOf r v mu := norm_nonneg _
    rw [show (1 - α * V3.norm r) ^ 2 + (q * sigma_fn r v mu) ^ 2 = eOf r v mu ^ 2 by
      rw [mul_pow, hq2]; linear_combination (-α) * h1 - h2, Real.sqrt_sq he0]
  rw [he] at hc hs
  refine ⟨E, fun χ => ?_⟩
  have hU0 : U 0 χ α = Real.cos (q * χ) := by
    rw [← C07_ufunc0]; simp [ufunc0, hα, hq]
  have hU1 : q * U 1 χ α = Real.sin (q * χ) := by
    rw [← C07_ufunc1]; simp only [ufunc1, Nat.cast_zero, lt_real, hα, decide_true, if_true, sqrt_real, sin_real, ← hq]
    field_simp
  have hU2 := U0_eq χ α
  rw [radOf, radU, Real.cos_add, ← hU0, ← hU1, ← hαd]
  linear_combination U 0 χ α * (-hc) + q * U 1 χ α * hs + hU2 - sigma_fn r v mu * U 1 χ α * hq2

/-- On an ellipse every radius between periapsis and apoapsis is reached. -/
theorem radOf_reaches_elliptic (hα : 0 < alphaOf r v mu) {R : ℝ}
    (h1 : radius_periapsis (pOf r v mu) (eOf r v mu) ≤ R) (h2 : R ≤ radius_apoapsis (pOf r v mu) (eOf r v mu)) :
    ∃ χ, radOf r v mu χ = R := by
  obtain ⟨E, hE⟩ := radOf_elliptic hmu hh hα
  have hp := pOf_pos hh hmu
  have hpa := pOf_alpha hmu hh
  have he0 : 0 ≤ eOf r v mu := norm_nonneg _
  have he1 : eOf r v mu < 1 := by nlinarith [mul_pos hp hα]
  simp only [radius_periapsis, radius_apoapsis, Nat.cast_one] at h1 h2
  rw [div_le_iff₀ (by linarith)] at h1
  rw [le_div_iff₀ (by linarith)] at h2
  set α := alphaOf r v mu
  set q := Real.sqrt α with hq
  have hq0 : 0 < q := Real.sqrt_pos.2 hα
  set e := eOf r v mu
  set p := pOf r v mu
  have l1 : 1 - e ≤ α * R := by
    have : p * (1 - e) ≤ p * (α * R) := by nlinarith
    exact le_of_mul_le_mul_left this hp
  have l2 : α * R ≤ 1 + e := by
    have : p * (α * R) ≤ p * (1 + e) := by nlinarith
    exact le_of_mul_le_mul_left this hp
  rcases he0.eq_or_lt with he | he
  · refine ⟨0, ?_⟩
    have := hE 0
    rw [← he] at this l1 l2
    have h3 : α * radOf r v mu 0 = α * R := by linarith
    exact mul_left_cancel₀ hα.ne' h3
  · refine ⟨(Real.arccos ((1 - α * R) / e) - E) / q, ?_⟩
    have := hE ((Real.arccos ((1 - α * R) / e) - E) / q)
    rw [mul_div_cancel₀ _ hq0.ne', add_sub_cancel, Real.cos_arccos (by rw [le_div_iff₀ he]; linarith)
      (by rw [div_le_iff₀ he]; linarith), mul_div_cancel₀ _ he.ne'] at this
    have h3 : α * radOf r v mu ((Real.arccos ((1 - α * R) / e) - E) / q) = α * R := by linarith
    exact mul_left_cancel₀ hα.ne' h3

/-- On parabolas and hyperbolas every radius from periapsis on is reached. -/
theorem radOf_reaches_open (hα : alphaOf r v mu ≤ 0) {R : ℝ}
    (h1 : radius_periapsis (pOf r v mu) (eOf r v mu) ≤ R) : ∃ χ, radOf r v mu χ = R := by
  have hp := pOf_pos hh hmu
  have hpa := pOf_alpha hmu hh
  have hinv := pOf_inv hmu hh
  have he0 : 0 ≤ eOf r v mu := norm_nonneg _
  simp only [radius_periapsis, Nat.cast_one] at h1
  have hrp : 0 < pOf r v mu / (1 + eOf r v mu) := by positivity
  have hR : 0 < R := lt_of_lt_of_le hrp h1
  have hrpe : 2 * (pOf r v mu / (1 + eOf r v mu)) - alphaOf r v mu * (pOf r v mu / (1 + eOf r v mu)) ^ 2
      = pOf r v mu := by
    have : alphaOf r v mu = (1 - eOf r v mu ^ 2) / pOf r v mu := by rw [← hpa]; field_simp
    rw [this]; field_simp; ring
  set α := alphaOf r v mu
  set e := eOf r v mu
  set p := pOf r v mu
  have hs : 0 ≤ 2 * R - α * R ^ 2 - p := by
    rw [← hrpe]; nlinarith [mul_nonneg (neg_nonneg.2 hα) (sub_nonneg.2 h1), mul_pos hrp hR]
  have hslope : ∀ χ, (1 : ℝ) ≤ 1 - α * radU α (V3.norm r) (sigma_fn r v mu) χ := fun χ => by
    have : 0 < radU α (V3.norm r) (sigma_fn r v mu) χ := radOf_pos hmu hh
    nlinarith [mul_nonneg (neg_nonneg.2 hα) this.le]
  obtain ⟨χ, hχ, -⟩ := existsUnique_root one_pos (hasDerivAt_sigU α (V3.norm r) (sigma_fn r v mu)) hslope
    (Real.sqrt (2 * R - α * R ^ 2 - p))
  refine ⟨χ, ?_⟩
  have hI := radU_invariant α (V3.norm r) (sigma_fn r v mu) χ

  rw [hinv, hχ, Real.sq_sqrt hs] at hI
  have hpos : 0 < radOf r v mu χ := radOf_pos hmu hh
  change 2 * radOf r v mu χ - α * radOf r v mu χ ^ 2 - _ = _ at hI
  have hprod : (radOf r v mu χ - R) * (2 - α * (radOf r v mu χ + R)) = 0 := by linear_combination hI
  have hne : 2 - α * (radOf r v mu χ + R) ≠ 0 := by
    have := mul_nonneg (neg_nonneg.2 hα) (add_pos hpos hR).le
    intro h0; linarith
  have := (mul_eq_zero.1 hprod).resolve_right hne
  linarith

/-- A value of the anomaly is reached at some time. -/
theorem exists_time (χ : ℝ) : ∃ t, exactChi r v mu t = χ := by
  have hs : 0 < Real.sqrt mu := Real.sqrt_pos.2 hmu
  refine ⟨kepU (alphaOf r v mu) (V3.norm r) (sigma_fn r v mu) χ / Real.sqrt mu, ?_⟩
  refine (exactChi_unique hmu hh (isRoot_iff.2 ?_)).symm
  field_simp

theorem norm_exactProp (t : ℝ) : V3.norm (exactProp r v mu t).1 = radOf r v mu (exactChi r v mu t) :=
  step_norm (pos_ne hmu hh) hmu

/-- The elements `p` and `e` do not change along the motion. -/
theorem exactProp_pe (t : ℝ) :
    pOf (exactProp r v mu t).1 (exactProp r v mu t).2 mu = pOf r v mu ∧
    eOf (exactProp r v mu t).1 (exactProp r v mu t).2 mu = eOf r v mu := by
  have hne := (radOf_pos (χ := exactChi r v mu t) hmu hh).ne'
  have h1 : cross (exactProp r v mu t).1 (exactProp r v mu t).2 = cross r v := step_h (pos_ne hmu hh) hmu hne
  have h2 : eccentricity_vector (exactProp r v mu t).1 (exactProp r v mu t).2 mu = eccentricity_vector r v mu :=
    step_ecc (pos_ne hmu hh) hmu hne
  exact ⟨by rw [pOf, semiparameter_eq, h1, pOf, semiparameter_eq], by rw [eOf, h2, eOf]⟩

theorem exactProp_ne (t : ℝ) : (exactProp r v mu t).1 ≠ ⟨0, 0, 0⟩ := by
  rw [← norm_pos, norm_exactProp hmu hh]; exact radOf_pos hmu hh

end
end Adx
