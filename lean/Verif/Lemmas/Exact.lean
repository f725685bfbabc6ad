import Verif.Lemmas.Flow
import Verif.Lemmas.Calculus
import Verif.Spec.TwoBody
import Mathlib.Analysis.Calculus.Deriv.Inverse

/-! # Exact Kepler propagation: the root of the universal equation and the motion it generates -/

namespace Adx
open Spec V3 Filter Topology

/-- `χ` solves `kepler`'s universal Kepler equation for the state and time. -/
def IsRoot (r v : V3 ℝ) (mu t χ : ℝ) : Prop :=
  kepler_equ_uni χ (alphaOf r v mu) (V3.norm r) (sigma_fn r v mu) t mu = 0

open Classical in
/-- The root of the universal Kepler equation (0 if there is none). -/
noncomputable def exactChi (r v : V3 ℝ) (mu t : ℝ) : ℝ :=
  if h : ∃ χ, IsRoot r v mu t χ then h.choose else 0

/-- Kepler propagation with the root solved exactly: `kepler` with its `solve_kepler_uni` replaced by the
exact root. -/
noncomputable def exactProp (r v : V3 ℝ) (mu t : ℝ) : V3 ℝ × V3 ℝ := stepOf r v mu (exactChi r v mu t)

theorem isRoot_iff {r v : V3 ℝ} {mu t χ : ℝ} :
    IsRoot r v mu t χ ↔ kepU (alphaOf r v mu) (V3.norm r) (sigma_fn r v mu) χ = Real.sqrt mu * t := by
  rw [IsRoot, kep_uni_eq, sub_eq_zero]

section
variable {r v : V3 ℝ} {mu : ℝ} (hmu : 0 < mu) (hh : cross r v ≠ ⟨0, 0, 0⟩)
include hmu hh

theorem rad_lower : ∃ m > 0, ∀ χ, m ≤ radOf r v mu χ := by
  obtain ⟨h0, hp⟩ := state_invariant_pos hmu hh
  rw [← inv_semimajor_axis] at hp
  exact ⟨_, radBound_pos (α := alphaOf r v mu) hp, radBound_le (α := alphaOf r v mu) h0 hp⟩

theorem root_existsUnique (t : ℝ) : ∃! χ, IsRoot r v mu t χ := by
  obtain ⟨m, hm, h⟩ := rad_lower hmu hh
  simp only [isRoot_iff]
  exact existsUnique_root hm (hasDerivAt_kepU _ _ _) h _

theorem isRoot_exactChi (t : ℝ) : IsRoot r v mu t (exactChi r v mu t) := by
  have h : ∃ χ, IsRoot r v mu t χ := (root_existsUnique hmu hh t).exists
  rw [exactChi, dif_pos h]; exact h.choose_spec

theorem exactChi_unique {t χ : ℝ} (h : IsRoot r v mu t χ) : χ = exactChi r v mu t :=
  (root_existsUnique hmu hh t).unique h (isRoot_exactChi hmu hh t)

theorem exactChi_zero : exactChi r v mu 0 = 0 :=
  (exactChi_unique hmu hh (isRoot_iff.2 (by rw [kepU_zero]; ring))).symm

theorem kepU_exactChi (t : ℝ) :
    kepU (alphaOf r v mu) (V3.norm r) (sigma_fn r v mu) (exactChi r v mu t) = Real.sqrt mu * t :=
  isRoot_iff.1 (isRoot_exactChi hmu hh t)

theorem continuous_exactChi : Continuous (exactChi r v mu) := by
  obtain ⟨m, hm, h⟩ := rad_lower hmu hh
  have hlip : ∀ t s, |exactChi r v mu t - exactChi r v mu s| ≤ (Real.sqrt mu / m) * |t - s| := by
    intro t s
    have := abs_sub_le_of_slope hm (hasDerivAt_kepU (alphaOf r v mu) (V3.norm r) (sigma_fn r v mu)) h
      (exactChi r v mu t) (exactChi r v mu s)
    rw [kepU_exactChi hmu hh, kepU_exactChi hmu hh, ← mul_sub, abs_mul,
      abs_of_nonneg (Real.sqrt_nonneg mu)] at this
    rw [div_mul_eq_mul_div]; exact this
  have hK : LipschitzWith ⟨Real.sqrt mu / m, by positivity⟩ (exactChi r v mu) :=
    LipschitzWith.of_dist_le_mul fun t s => by
      rw [Real.dist_eq, Real.dist_eq]; exact hlip t s
  exact hK.continuous

theorem hasDerivAt_exactChi (t : ℝ) :
    HasDerivAt (exactChi r v mu) (Real.sqrt mu / radOf r v mu (exactChi r v mu t)) t := by
  have hs : 0 < Real.sqrt mu := Real.sqrt_pos.2 hmu
  have hpos := radOf_pos (χ := exactChi r v mu t) hmu hh
  have hd : HasDerivAt (fun χ => kepU (alphaOf r v mu) (V3.norm r) (sigma_fn r v mu) χ / Real.sqrt mu)
      (radOf r v mu (exactChi r v mu t) / Real.sqrt mu) (exactChi r v mu t) :=
    (hasDerivAt_kepU _ _ _ _).div_const _
  have := hd.of_local_left_inverse (continuous_exactChi hmu hh).continuousAt
    (by positivity) (Eventually.of_forall fun s => by
      rw [kepU_exactChi hmu hh]; field_simp)
  refine this.congr_deriv ?_
  rw [inv_div]

end

/-! ### Derivatives of the Lagrange coefficients along the motion -/

section
variable {α r0 σ0 mu : ℝ} {X : ℝ → ℝ} {t : ℝ}

theorem hasDerivAt_cF
    (hX : HasDerivAt X (Real.sqrt mu / radU α r0 σ0 (X t)) t) :
    HasDerivAt (fun t => cF r0 (X t) α) (cFt α r0 σ0 mu (X t)) t := by
  unfold cF cFt
  refine ((((hasDerivAt_U_chi 1 (X t) α).comp t hX).div_const r0).const_sub 1).congr_deriv ?_
  ring

theorem hasDerivAt_cG (hmu : 0 < mu) (hR : radU α r0 σ0 (X t) ≠ 0)
    (hX : HasDerivAt X (Real.sqrt mu / radU α r0 σ0 (X t)) t) :
    HasDerivAt (fun t => cG α r0 σ0 mu (X t)) (cGt α r0 σ0 (X t)) t := by
  have hs : 0 < Real.sqrt mu := Real.sqrt_pos.2 hmu
  unfold cG cGt
  refine (((((hasDerivAt_U_chi 0 (X t) α).comp t hX).const_mul r0).fun_add
    (((hasDerivAt_U_chi 1 (X t) α).comp t hX).const_mul σ0)).div_const _).congr_deriv ?_
  have e : r0 * U 0 (X t) α + σ0 * U 1 (X t) α = radU α r0 σ0 (X t) - U 2 (X t) α := by
    rw [radU]; ring
  field_simp
  linear_combination e

theorem hasDerivAt_cFt (hmu : 0 < mu) (h0 : r0 ≠ 0) (hR : radU α r0 σ0 (X t) ≠ 0)
    (hX : HasDerivAt X (Real.sqrt mu / radU α r0 σ0 (X t)) t) :
    HasDerivAt (fun t => cFt α r0 σ0 mu (X t)) (-mu / radU α r0 σ0 (X t) ^ 3 * cF r0 (X t) α) t := by
  have hs2 : Real.sqrt mu ^ 2 = mu := Real.sq_sqrt hmu.le
  have hRad := (hasDerivAt_radU α r0 σ0 (X t)).comp t hX
  have hU1 := (hasDerivAt_U_chi 0 (X t) α).comp t hX
  have h : (fun t => cFt α r0 σ0 mu (X t))
      = fun t => -(Real.sqrt mu / r0) * (U 1 (X t) α / radU α r0 σ0 (X t)) := by
    funext t; simp only [cFt]; ring
  rw [h]
  refine ((hU1.fun_div hRad hR).const_mul (-(Real.sqrt mu / r0))).congr_deriv ?_
  simp only [Function.comp, cF]
  have h1 := U1_sq (X t) α
  have hRe : radU α r0 σ0 (X t) = r0 * (1 - α * U 2 (X t) α) + σ0 * U 1 (X t) α + U 2 (X t) α := by
    rw [radU, U0_eq]
  have hS : sigU α r0 σ0 (X t) = σ0 * (1 - α * U 2 (X t) α) + (1 - α * r0) * U 1 (X t) α := by
    rw [sigU, U0_eq]
  have key : U 0 (X t) α * radU α r0 σ0 (X t) - U 1 (X t) α * sigU α r0 σ0 (X t) = r0 - U 2 (X t) α := by
    rw [hRe, hS, U0_eq]
    linear_combination (α * r0 - 1) * h1
  set R := radU α r0 σ0 (X t)
  set w := Real.sqrt mu
  rw [← hs2]
  field_simp
  linear_combination (-w ^ 2) * key

theorem hasDerivAt_cGt (hmu : 0 < mu) (hR : radU α r0 σ0 (X t) ≠ 0)
    (hX : HasDerivAt X (Real.sqrt mu / radU α r0 σ0 (X t)) t) :
    HasDerivAt (fun t => cGt α r0 σ0 (X t)) (-mu / radU α r0 σ0 (X t) ^ 3 * cG α r0 σ0 mu (X t)) t := by
  have hs : 0 < Real.sqrt mu := Real.sqrt_pos.2 hmu
  have hs2 : Real.sqrt mu ^ 2 = mu := Real.sq_sqrt hmu.le
  have hRad := (hasDerivAt_radU α r0 σ0 (X t)).comp t hX
  have hU2 := (hasDerivAt_U_chi 1 (X t) α).comp t hX
  refine ((hU2.fun_div hRad hR).const_sub 1).congr_deriv ?_
  simp only [Function.comp, cG]
  have h1 := U1_sq (X t) α
  have hRe : radU α r0 σ0 (X t) = r0 * (1 - α * U 2 (X t) α) + σ0 * U 1 (X t) α + U 2 (X t) α := by
    rw [radU, U0_eq]
  have hS : sigU α r0 σ0 (X t) = σ0 * (1 - α * U 2 (X t) α) + (1 - α * r0) * U 1 (X t) α := by
    rw [sigU, U0_eq]
  have key : U 1 (X t) α * radU α r0 σ0 (X t) - U 2 (X t) α * sigU α r0 σ0 (X t)
      = r0 * U 1 (X t) α + σ0 * U 2 (X t) α := by
    rw [hRe, hS]
    linear_combination σ0 * h1
  set R := radU α r0 σ0 (X t)
  rw [show -mu = -(Real.sqrt mu) ^ 2 by rw [hs2]]
  set w := Real.sqrt mu
  field_simp
  linear_combination -key

end

end Adx
