import Verif.Lemmas.KepReal

/-! # The state after a universal anomaly `χ` (real arithmetic)

Everything about `keplerStep` that does not involve solving for `χ`. -/

namespace Adx
open Spec V3

/-- The reciprocal semimajor axis as `kepler` computes it. -/
noncomputable def alphaOf (r v : V3 ℝ) (mu : ℝ) : ℝ := 1 / semimajor_axis (V3.norm r) (V3.norm v) mu

/-- `keplerStep` with `kepler`'s own auxiliary values. -/
noncomputable abbrev stepOf (r v : V3 ℝ) (mu χ : ℝ) : V3 ℝ × V3 ℝ :=
  keplerStep χ (alphaOf r v mu) (V3.norm r) (sigma_fn r v mu) r v mu

/-- The radius `kepler` computes along the way. -/
noncomputable abbrev radOf (r v : V3 ℝ) (mu χ : ℝ) : ℝ :=
  radU (alphaOf r v mu) (V3.norm r) (sigma_fn r v mu) χ

/-- Its derivative in `χ`. -/
noncomputable abbrev sigOf (r v : V3 ℝ) (mu χ : ℝ) : ℝ :=
  sigU (alphaOf r v mu) (V3.norm r) (sigma_fn r v mu) χ

/-- The Lagrange coefficients over the series. -/
noncomputable def cF (r0 χ α : ℝ) : ℝ := 1 - U 2 χ α / r0
/-- see `cF` -/
noncomputable def cG (α r0 σ0 mu χ : ℝ) : ℝ := (r0 * U 1 χ α + σ0 * U 2 χ α) / Real.sqrt mu
/-- see `cF` -/
noncomputable def cFt (α r0 σ0 mu χ : ℝ) : ℝ := -Real.sqrt mu / radU α r0 σ0 χ * U 1 χ α / r0
/-- see `cF` -/
noncomputable def cGt (α r0 σ0 χ : ℝ) : ℝ := 1 - U 2 χ α / radU α r0 σ0 χ

theorem keplerStep_eq (χ α r0 σ0 mu : ℝ) (r v : V3 ℝ) :
    keplerStep χ α r0 σ0 r v mu
      = (cF r0 χ α • r + cG α r0 σ0 mu χ • v, cFt α r0 σ0 mu χ • r + cGt α r0 σ0 χ • v) := by
  simp only [keplerStep, lagrange_prop, lagrange_F, lagrange_G, lagrange_Ft, lagrange_Gt, equ_of_orb_uvi,
    C07_ufunc0, C07_ufunc1, C07_ufunc2, sqrt_real, Nat.cast_one, cF, cG, cFt, cGt, radU]

theorem lagrange_wronskian {α r0 σ0 mu χ : ℝ} (h0 : r0 ≠ 0) (hr : radU α r0 σ0 χ ≠ 0) (hmu : 0 < mu) :
    cF r0 χ α * cGt α r0 σ0 χ - cFt α r0 σ0 mu χ * cG α r0 σ0 mu χ = 1 := by
  have hs : Real.sqrt mu ≠ 0 := (Real.sqrt_pos.2 hmu).ne'
  have h1 := U1_sq χ α
  have hR : radU α r0 σ0 χ = r0 * (1 - α * U 2 χ α) + σ0 * U 1 χ α + U 2 χ α := by
    rw [radU, U0_eq]
  unfold cF cG cFt cGt
  field_simp
  linear_combination r0 * h1 - U 2 χ α * hR

variable {r v : V3 ℝ} {mu χ : ℝ}

theorem alpha_vv (hmu : mu ≠ 0) : dot v v = mu * (2 / V3.norm r - alphaOf r v mu) := by
  rw [alphaOf, inv_semimajor_axis, invA]; field_simp; ring

theorem sigma_rv (hmu : 0 < mu) : dot r v = Real.sqrt mu * sigma_fn r v mu := by
  have hs : Real.sqrt mu ≠ 0 := (Real.sqrt_pos.2 hmu).ne'
  simp only [sigma_fn, sqrt_real]; field_simp

theorem dot_comb (a b c d : ℝ) (r v : V3 ℝ) :
    dot (a • r + b • v) (c • r + d • v)
      = a * c * dot r r + (a * d + b * c) * dot r v + b * d * dot v v := by
  simp only [dot, add_x, add_y, add_z, smul_x, smul_y, smul_z]; ring

theorem cross_comb (a b c d : ℝ) (r v : V3 ℝ) :
    cross (a • r + b • v) (c • r + d • v) = (a * d - b * c) • cross r v := by
  ext <;> simp only [cross, add_x, add_y, add_z, smul_x, smul_y, smul_z] <;> ring

section
variable (hr : r ≠ ⟨0, 0, 0⟩) (hmu : 0 < mu)
include hr hmu

theorem step_rr : dot (stepOf r v mu χ).1 (stepOf r v mu χ).1 = radOf r v mu χ ^ 2 := by
  have h0 : V3.norm r ≠ 0 := ((norm_pos r).2 hr).ne'
  have hs : Real.sqrt mu ≠ 0 := (Real.sqrt_pos.2 hmu).ne'
  have hs2 : Real.sqrt mu ^ 2 = mu := Real.sq_sqrt hmu.le
  simp only [keplerStep_eq, dot_comb]
  rw [sigma_rv (r := r) (v := v) hmu, alpha_vv (r := r) (v := v) hmu.ne', ← norm_sq r]
  simp only [radOf, radU, cF, cG]
  set α := alphaOf r v mu
  set r0 := V3.norm r
  set σ0 := sigma_fn r v mu
  have h1 := U1_sq χ α
  rw [U0_eq]
  set w := Real.sqrt mu
  rw [← hs2]
  field_simp
  linear_combination ((-1) * α * r0 ^ 3 + (-1) * r0 * σ0 ^ 2 + 2 * r0 ^ 2) * h1

theorem radOf_nonneg : 0 ≤ radOf r v mu χ := by
  have h0 : 0 < V3.norm r := (norm_pos r).2 hr
  have hinv := radU_invariant (alphaOf r v mu) (V3.norm r) (sigma_fn r v mu)
  have hp : 0 ≤ 2 * V3.norm r - alphaOf r v mu * V3.norm r ^ 2 - sigma_fn r v mu ^ 2 := by
    rw [alphaOf, inv_semimajor_axis, state_invariant hr hmu]
    exact div_nonneg (dot_self_nonneg _) hmu.le
  by_contra hneg
  push Not at hneg
  set α := alphaOf r v mu
  set r0 := V3.norm r
  set σ0 := sigma_fn r v mu
  rcases le_or_gt 0 α with hα | hα
  · have := hinv χ
    have h2 : 0 ≤ α * radU α r0 σ0 χ ^ 2 := by positivity
    have : 0 ≤ radU α r0 σ0 χ := by nlinarith [sq_nonneg (sigU α r0 σ0 χ)]
    exact absurd hneg (not_lt.2 this)
  · have hc := continuous_radU α r0 σ0
    -- some value strictly between `2/α` and `0` is attained
    set y := max (1 / α) (radU α r0 σ0 χ) with hy
    have hy0 : y < 0 := max_lt (one_div_neg.2 hα) hneg
    obtain ⟨z, hz⟩ : ∃ z, radU α r0 σ0 z = y :=
      mem_range_of_exists_le_of_exists_ge hc ⟨χ, le_max_right _ _⟩ ⟨0, by rw [radU_zero]; linarith⟩
    have := hinv z
    rw [hz] at this
    have h1 : 1 / α ≤ y := le_max_left _ _
    have h2 : α * y ≤ 1 := by
      rw [div_le_iff_of_neg hα] at h1; linarith
    nlinarith [sq_nonneg (sigU α r0 σ0 z)]

theorem step_norm : V3.norm (stepOf r v mu χ).1 = radOf r v mu χ := by
  have h := step_rr (v := v) (χ := χ) hr hmu
  simp only [V3.norm, sqrt_real, h]
  exact Real.sqrt_sq (radOf_nonneg hr hmu)

variable (hrad : radOf r v mu χ ≠ 0)
include hrad

theorem step_rv : dot (stepOf r v mu χ).1 (stepOf r v mu χ).2 = Real.sqrt mu * sigOf r v mu χ := by
  have h0 : V3.norm r ≠ 0 := ((norm_pos r).2 hr).ne'
  have hs : Real.sqrt mu ≠ 0 := (Real.sqrt_pos.2 hmu).ne'
  have hs2 : Real.sqrt mu ^ 2 = mu := Real.sq_sqrt hmu.le
  simp only [keplerStep_eq, dot_comb]
  rw [sigma_rv (r := r) (v := v) hmu, alpha_vv (r := r) (v := v) hmu.ne', ← norm_sq r]
  simp only [sigOf, sigU, cF, cG, cFt, cGt]
  simp only [radOf] at hrad
  set α := alphaOf r v mu
  set r0 := V3.norm r
  set σ0 := sigma_fn r v mu
  have hR : radU α r0 σ0 χ = r0 * (1 - α * U 2 χ α) + σ0 * U 1 χ α + U 2 χ α := by rw [radU, U0_eq]
  rw [U0_eq]
  set w := Real.sqrt mu
  rw [← hs2]
  set R := radU α r0 σ0 χ
  field_simp
  rw [hR]
  ring

theorem step_vv : dot (stepOf r v mu χ).2 (stepOf r v mu χ).2
    = mu * (2 / radOf r v mu χ - alphaOf r v mu) := by
  have h0 : V3.norm r ≠ 0 := ((norm_pos r).2 hr).ne'
  have hs : Real.sqrt mu ≠ 0 := (Real.sqrt_pos.2 hmu).ne'
  have hs2 : Real.sqrt mu ^ 2 = mu := Real.sq_sqrt hmu.le
  simp only [keplerStep_eq, dot_comb]
  rw [sigma_rv (r := r) (v := v) hmu, alpha_vv (r := r) (v := v) hmu.ne', ← norm_sq r]
  simp only [cFt, cGt]
  simp only [radOf] at hrad ⊢
  set α := alphaOf r v mu
  set r0 := V3.norm r
  set σ0 := sigma_fn r v mu
  have hR : radU α r0 σ0 χ = r0 * (1 - α * U 2 χ α) + σ0 * U 1 χ α + U 2 χ α := by rw [radU, U0_eq]
  have h1 := U1_sq χ α
  set w := Real.sqrt mu
  rw [← hs2]
  set R := radU α r0 σ0 χ
  field_simp
  rw [hR]
  linear_combination r0 * h1

theorem step_invA : invA (stepOf r v mu χ).1 (stepOf r v mu χ).2 mu = invA r v mu := by
  rw [← inv_semimajor_axis r v mu]
  change _ = alphaOf r v mu
  have := step_vv hr hmu hrad
  rw [invA, step_norm hr hmu, this]
  field_simp; ring

theorem step_sigma : sigma_fn (stepOf r v mu χ).1 (stepOf r v mu χ).2 mu = sigOf r v mu χ := by
  have hs : Real.sqrt mu ≠ 0 := (Real.sqrt_pos.2 hmu).ne'
  rw [sigma_fn, step_rv hr hmu hrad, sqrt_real]; field_simp

theorem step_h : cross (stepOf r v mu χ).1 (stepOf r v mu χ).2 = cross r v := by
  have h0 : V3.norm r ≠ 0 := ((norm_pos r).2 hr).ne'
  have hw := lagrange_wronskian (α := alphaOf r v mu) (σ0 := sigma_fn r v mu) h0 hrad hmu
  simp only [keplerStep_eq, cross_comb]
  rw [mul_comm (cG _ _ _ _ _), hw]
  ext <;> simp

theorem step_ecc : eccentricity_vector (stepOf r v mu χ).1 (stepOf r v mu χ).2 mu
    = eccentricity_vector r v mu := by
  have h0 : V3.norm r ≠ 0 := ((norm_pos r).2 hr).ne'
  have hs : Real.sqrt mu ≠ 0 := (Real.sqrt_pos.2 hmu).ne'
  have hs2 : Real.sqrt mu ^ 2 = mu := Real.sq_sqrt hmu.le
  rw [ecc_eq, ecc_eq, step_norm hr hmu, step_rv hr hmu hrad, step_vv hr hmu hrad, sigma_rv (r := r) (v := v) hmu,
    alpha_vv (r := r) (v := v) hmu.ne']
  simp only [keplerStep_eq]
  simp only [radOf, sigOf] at hrad ⊢
  set α := alphaOf r v mu
  set r0 := V3.norm r
  set σ0 := sigma_fn r v mu
  have hR : radU α r0 σ0 χ = r0 * (1 - α * U 2 χ α) + σ0 * U 1 χ α + U 2 χ α := by rw [radU, U0_eq]
  have hS : sigU α r0 σ0 χ = σ0 * (1 - α * U 2 χ α) + (1 - α * r0) * U 1 χ α := by rw [sigU, U0_eq]
  have h1 := U1_sq χ α
  have e1 : (2 / radU α r0 σ0 χ - α - 1 / radU α r0 σ0 χ) * cF r0 χ α
      - sigU α r0 σ0 χ / Real.sqrt mu * cFt α r0 σ0 mu χ = 1 / r0 - α := by
    simp only [cF, cFt]
    set R := radU α r0 σ0 χ
    field_simp
    rw [hS, hR]
    linear_combination (1 - α * r0) * h1
  have e2 : (2 / radU α r0 σ0 χ - α - 1 / radU α r0 σ0 χ) * cG α r0 σ0 mu χ
      - sigU α r0 σ0 χ / Real.sqrt mu * cGt α r0 σ0 χ = -(σ0 / Real.sqrt mu) := by
    simp only [cG, cGt]
    set R := radU α r0 σ0 χ
    field_simp
    rw [hS, hR]
    linear_combination (-σ0) * h1
  have hx : ∀ a b c d p q : ℝ, a = mu → b = Real.sqrt mu →
      (a * p / mu - q) = p - q ∧ b * c / mu = c / Real.sqrt mu := by
    rintro a b c d p q rfl rfl
    refine ⟨by field_simp, ?_⟩
    rw [div_eq_div_iff hmu.ne' hs]
    linear_combination c * hs2
  obtain ⟨ha, hb⟩ := hx mu (Real.sqrt mu) (sigU α r0 σ0 χ) 0 (2 / radU α r0 σ0 χ - α) (1 / radU α r0 σ0 χ) rfl rfl
  obtain ⟨hc, hd⟩ := hx mu (Real.sqrt mu) σ0 0 (2 / r0 - α) (1 / r0) rfl rfl
  rw [ha, hb, hc, hd]
  rw [show 2 / r0 - α - 1 / r0 = 1 / r0 - α by ring]
  ext <;> simp only [sub_x, sub_y, sub_z, add_x, add_y, add_z, smul_x, smul_y, smul_z]
  · linear_combination r.x * e1 + v.x * e2
  · linear_combination r.y * e1 + v.y * e2
  · linear_combination r.z * e1 + v.z * e2

end

theorem radOf_pos (hmu : 0 < mu) (hh : cross r v ≠ ⟨0, 0, 0⟩) : 0 < radOf r v mu χ := by
  obtain ⟨h0, hp⟩ := state_invariant_pos hmu hh
  rw [← inv_semimajor_axis] at hp
  exact radU_pos (α := alphaOf r v mu) h0 hp χ

end Adx
