import Verif.Lemmas.Rot
import Verif.Props.C21
import Verif.Model.StateTrans

/-! # C27, C28: frame independence; the transition matrix over zero time -/

namespace Adx
open V3 Spec

section
variable {R : M3 ℝ} (hR : IsRotation R)
include hR

/-- C27: vectors attached to the orbit turn with the frame, scalars do not change. -/
theorem C27_elements (r v : V3 ℝ) (mu : ℝ) :
    angular_momentum (M3.mulVec R r) (M3.mulVec R v) = M3.mulVec R (angular_momentum r v) ∧
    eccentricity_vector (M3.mulVec R r) (M3.mulVec R v) mu = M3.mulVec R (eccentricity_vector r v mu) ∧
    semimajor_axis (V3.norm (M3.mulVec R r)) (V3.norm (M3.mulVec R v)) mu
      = semimajor_axis (V3.norm r) (V3.norm v) mu ∧
    (rv2coe (M3.mulVec R r) (M3.mulVec R v) mu).p = (rv2coe r v mu).p ∧
    (rv2coe (M3.mulVec R r) (M3.mulVec R v) mu).e = (rv2coe r v mu).e ∧
    (rv2coe (M3.mulVec R r) (M3.mulVec R v) mu).true_anom = (rv2coe r v mu).true_anom ∧
    sigma_fn (M3.mulVec R r) (M3.mulVec R v) mu = sigma_fn r v mu := by
  refine ⟨hR.cross r v, hR.ecc r v mu, by rw [hR.norm, hR.norm], ?_, ?_, ?_, ?_⟩
  · simp only [rv2coe, angular_momentum, hR.cross, hR.norm]
  · simp only [rv2coe, hR.ecc, hR.norm]
  · simp only [rv2coe, true_anomaly, hR.ecc, hR.cross, hR.norm, hR.dot]
  · simp only [sigma_fn, hR.dot]

theorem step_rot (r v : V3 ℝ) (mu χ : ℝ) :
    stepOf (M3.mulVec R r) (M3.mulVec R v) mu χ
      = (M3.mulVec R (stepOf r v mu χ).1, M3.mulVec R (stepOf r v mu χ).2) := by
  have hα : alphaOf (M3.mulVec R r) (M3.mulVec R v) mu = alphaOf r v mu := by
    simp only [alphaOf, hR.norm]
  have hσ : sigma_fn (M3.mulVec R r) (M3.mulVec R v) mu = sigma_fn r v mu := by simp only [sigma_fn, hR.dot]
  simp only [stepOf, hα, hσ, hR.norm, keplerStep_eq, mulVec_add, mulVec_smul]

/-- C27: the code's propagation (its own root search, converged or not) commutes with every rotation. -/
theorem C27_kepler (ts : List ℝ) (r v : V3 ℝ) (mu : ℝ) :
    kepler ts (M3.mulVec R r) (M3.mulVec R v) mu
      = (kepler ts r v mu).map fun p => (p.1.map (M3.mulVec R), p.2.map (M3.mulVec R)) := by
  have hα : alphaOf (M3.mulVec R r) (M3.mulVec R v) mu = alphaOf r v mu := by
    simp only [alphaOf, hR.norm]
  have hσ : sigma_fn (M3.mulVec R r) (M3.mulVec R v) mu = sigma_fn r v mu := by simp only [sigma_fn, hR.dot]
  have hrow : ∀ t, keplerRow (M3.mulVec R r) (M3.mulVec R v) mu t
      = (M3.mulVec R (keplerRow r v mu t).1, M3.mulVec R (keplerRow r v mu t).2) := by
    intro t
    have := step_rot hR r v mu (chiOf t (alphaOf r v mu) (V3.norm r) (sigma_fn r v mu) mu)
    simp only [keplerRow, item_real, alphaOf_cast, stepOf, hα, hσ, hR.norm] at this ⊢
    exact this
  rw [kepler_eq_map, kepler_eq_map]
  simp only [List.map_map, Option.map_some, Function.comp_def, hrow]

/-- C27: so does the exact propagation. -/
theorem C27_exact (r v : V3 ℝ) (mu t : ℝ) :
    exactProp (M3.mulVec R r) (M3.mulVec R v) mu t
      = (M3.mulVec R (exactProp r v mu t).1, M3.mulVec R (exactProp r v mu t).2) := by
  have hχ : exactChi (M3.mulVec R r) (M3.mulVec R v) mu t = exactChi r v mu t := by
    have hI : IsRoot (M3.mulVec R r) (M3.mulVec R v) mu t = IsRoot r v mu t := by
      funext χ; simp only [IsRoot, alphaOf, sigma_fn, hR.norm, hR.dot]
    classical
    have key : ∀ P Q : ℝ → Prop, P = Q →
        (if h : ∃ χ, P χ then h.choose else (0 : ℝ)) = if h : ∃ χ, Q χ then h.choose else 0 := by
      rintro P _ rfl; rfl
    exact key _ _ hI
  rw [exactProp, hχ, step_rot hR, exactProp]

/-- C27: and the central acceleration. -/
theorem C27_point_mass (t mu : ℝ) (r : V3 ℝ) (rest : List ℝ) (args : Args ℝ) (hm : args "mu" = some mu) :
    ∃ a, point_mass_grav t ⟨r, rest⟩ args = .ok a ∧
      point_mass_grav t ⟨M3.mulVec R r, rest⟩ args = .ok (M3.mulVec R a) :=
  ⟨_, C41_point_mass_is_newton t mu _ args hm, by
    rw [C41_point_mass_is_newton t mu _ args hm, mulVec_smul, hR.norm]⟩

end

/-- The hypotheses are met by a proper rotation that moves every axis. -/
example : IsRotation (perifocalToInertial 1 2 3) := C47_perifocal 1 2 3

/-- The 6×6 identity, in blocks. -/
def B6.one : B6 ℝ := ⟨M3.eye, ⟨⟨0, 0, 0⟩, ⟨0, 0, 0⟩, ⟨0, 0, 0⟩⟩, ⟨⟨0, 0, 0⟩, ⟨0, 0, 0⟩, ⟨0, 0, 0⟩⟩, M3.eye⟩

/-- C28: the state transition matrix over zero time is the identity. (The hypotheses exclude the states for
which the code divides by zero.) -/
theorem C28_identity {r v : V3 ℝ} {mu : ℝ} (_hr : r ≠ ⟨0, 0, 0⟩) (_hmu : 0 < mu) : dxdx0 r v r v 0 mu = B6.one := by
  have hχ : ∀ a s : ℝ, generalized_anomaly a s s 0 mu = 0 := by intro a s; simp [generalized_anomaly]
  obtain ⟨e0, e1, e2, e3, e4, e5⟩ := C08_at_zero (((1 : ℕ) : ℝ) / semimajor_axis (V3.norm r) (V3.norm v) mu)
  simp only [dxdx0, hχ, e1, e2, e4, e5]
  refine B6.ext ?_ ?_ ?_ ?_ <;> ext <;>
    simp [prpr0, prpv0, pvpr0, pvpv0, C_func, lagrange_F, lagrange_G, lagrange_Ft, lagrange_Gt, M3.outer, M3.eye,
      M3.mul, M3.mulVec, M3.transpose, dot, B6.one]

end Adx
