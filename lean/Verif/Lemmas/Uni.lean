import Verif.Lemmas.UFun
import Verif.Lemmas.Newton
import Verif.Lemmas.Orbit

/-! # The universal Kepler equation over the series `U` (real arithmetic)

`radU` is the radius as a function of the universal anomaly, `sigU` its derivative and `kepU` its
primitive. -/

namespace Adx
open Spec V3

/-- `r(χ) = r0 U0 + σ0 U1 + U2` -/
noncomputable def radU (α r0 σ0 χ : ℝ) : ℝ := r0 * U 0 χ α + σ0 * U 1 χ α + U 2 χ α
/-- `r'(χ)` -/
noncomputable def sigU (α r0 σ0 χ : ℝ) : ℝ := σ0 * U 0 χ α + (1 - α * r0) * U 1 χ α
/-- `∫ r` -/
noncomputable def kepU (α r0 σ0 χ : ℝ) : ℝ := r0 * U 1 χ α + σ0 * U 2 χ α + U 3 χ α

variable (α r0 σ0 : ℝ)

theorem hasDerivAt_kepU (χ : ℝ) : HasDerivAt (kepU α r0 σ0) (radU α r0 σ0 χ) χ := by
  unfold kepU radU
  exact (((hasDerivAt_U_chi 0 χ α).const_mul r0).fun_add ((hasDerivAt_U_chi 1 χ α).const_mul σ0)).fun_add
    (hasDerivAt_U_chi 2 χ α)

theorem hasDerivAt_radU (χ : ℝ) : HasDerivAt (radU α r0 σ0) (sigU α r0 σ0 χ) χ := by
  unfold radU sigU
  refine ((((hasDerivAt_U0_chi χ α).const_mul r0).fun_add ((hasDerivAt_U_chi 0 χ α).const_mul σ0)).fun_add
    (hasDerivAt_U_chi 1 χ α)).congr_deriv ?_
  ring

theorem U0_eq (χ α : ℝ) : U 0 χ α = 1 - α * U 2 χ α := by
  have := U_rec 0 χ α; simp at this; linarith
theorem U1_eq (χ α : ℝ) : U 1 χ α = χ - α * U 3 χ α := by
  have := U_rec 1 χ α; simp at this; linarith
theorem U1_sq (χ α : ℝ) : U 1 χ α ^ 2 = U 2 χ α * (2 - α * U 2 χ α) := by
  rcases eq_or_ne α 0 with rfl | h
  · rw [U_zero_right, U_zero_right]; simp
  · have h1 := U_pythagoras χ α
    have h2 := U0_eq χ α
    rw [h2] at h1
    apply mul_left_cancel₀ h
    linarith

theorem hasDerivAt_sigU (χ : ℝ) : HasDerivAt (sigU α r0 σ0) (1 - α * radU α r0 σ0 χ) χ := by
  have h := U0_eq χ α
  unfold radU sigU
  refine (((hasDerivAt_U0_chi χ α).const_mul σ0).fun_add
    ((hasDerivAt_U_chi 0 χ α).const_mul (1 - α * r0))).congr_deriv ?_
  linear_combination h

/-- The invariant of the motion: `2r - αr² - σ²` does not depend on `χ`. -/
theorem radU_invariant (χ : ℝ) :
    2 * radU α r0 σ0 χ - α * radU α r0 σ0 χ ^ 2 - sigU α r0 σ0 χ ^ 2 = 2 * r0 - α * r0 ^ 2 - σ0 ^ 2 := by
  have h0 := U0_eq χ α
  have h1 := U1_sq χ α
  unfold radU sigU
  rw [h0]
  linear_combination (-α * σ0 ^ 2 - (1 - α * r0) ^ 2) * h1

theorem radU_zero : radU α r0 σ0 0 = r0 := by simp [radU, U_zero_left]
theorem sigU_zero : sigU α r0 σ0 0 = σ0 := by simp [sigU, U_zero_left]
theorem kepU_zero : kepU α r0 σ0 0 = 0 := by simp [kepU, U_zero_left]

theorem continuous_radU : Continuous (radU α r0 σ0) :=
  continuous_iff_continuousAt.2 fun χ => (hasDerivAt_radU α r0 σ0 χ).continuousAt

/-- The smallest radius is bounded below: here is the bound. -/
noncomputable def radBound (α p : ℝ) : ℝ := min 1 (p / (2 + |α|))

variable {α r0 σ0}

theorem radBound_pos {p : ℝ} (hp : 0 < p) : 0 < radBound α p := by unfold radBound; positivity

theorem radU_pos (hr0 : 0 < r0) (hp : 0 < 2 * r0 - α * r0 ^ 2 - σ0 ^ 2) (χ : ℝ) : 0 < radU α r0 σ0 χ := by
  by_contra hneg
  push Not at hneg
  have h0 : radU α r0 σ0 0 ∈ Set.Ioi 0 := by rw [radU_zero]; exact hr0
  obtain ⟨z, hz⟩ : ∃ z, radU α r0 σ0 z = 0 :=
    mem_range_of_exists_le_of_exists_ge (continuous_radU α r0 σ0) ⟨χ, hneg⟩ ⟨0, le_of_lt h0⟩
  have := radU_invariant α r0 σ0 z
  rw [hz] at this
  nlinarith [sq_nonneg (sigU α r0 σ0 z)]

theorem radBound_le (hr0 : 0 < r0) (hp : 0 < 2 * r0 - α * r0 ^ 2 - σ0 ^ 2) (χ : ℝ) :
    radBound α (2 * r0 - α * r0 ^ 2 - σ0 ^ 2) ≤ radU α r0 σ0 χ := by
  have hpos := radU_pos hr0 hp χ
  have hinv := radU_invariant α r0 σ0 χ
  unfold radBound
  by_contra h
  push Not at h
  obtain ⟨h1, h2⟩ := lt_min_iff.1 h
  rw [lt_div_iff₀ (by positivity)] at h2
  have : -α ≤ |α| := neg_le_abs α
  have h3 : radU α r0 σ0 χ ^ 2 ≤ radU α r0 σ0 χ := by nlinarith
  have h4 : -α * radU α r0 σ0 χ ^ 2 ≤ |α| * radU α r0 σ0 χ := by
    calc -α * radU α r0 σ0 χ ^ 2 ≤ |α| * radU α r0 σ0 χ ^ 2 := by gcongr
      _ ≤ _ := by gcongr
  nlinarith [sq_nonneg (sigU α r0 σ0 χ)]

/-- For a state, the invariant is the semiparameter. -/
theorem state_invariant {r v : V3 ℝ} {mu : ℝ} (hr : r ≠ ⟨0, 0, 0⟩) (hmu : 0 < mu) :
    2 * V3.norm r - invA r v mu * V3.norm r ^ 2 - sigma_fn r v mu ^ 2
      = dot (cross r v) (cross r v) / mu := by
  have hn : V3.norm r ≠ 0 := ((norm_pos r).2 hr).ne'
  have hs : Real.sqrt mu ^ 2 = mu := Real.sq_sqrt hmu.le
  have h2 := norm_sq r
  rw [dot_cross_self, invA, sigma_fn, sqrt_real, div_pow, hs, ← h2]
  field_simp; ring

theorem state_invariant_pos {r v : V3 ℝ} {mu : ℝ} (hmu : 0 < mu) (hh : cross r v ≠ ⟨0, 0, 0⟩) :
    0 < V3.norm r ∧ 0 < 2 * V3.norm r - invA r v mu * V3.norm r ^ 2 - sigma_fn r v mu ^ 2 := by
  have hr : r ≠ ⟨0, 0, 0⟩ := by
    rintro rfl; apply hh; ext <;> simp
  refine ⟨(norm_pos r).2 hr, ?_⟩
  rw [state_invariant hr hmu]
  exact div_pos ((dot_self_pos _).2 hh) hmu

end Adx
