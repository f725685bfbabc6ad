import Verif.Props.C07
import Verif.Lemmas.Uni
import Verif.Model.Kepler
import Mathlib.Analysis.SpecialFunctions.Trigonometric.Deriv
import Mathlib.Analysis.SpecialFunctions.Trigonometric.DerivHyp
import Mathlib.Analysis.SpecialFunctions.Trigonometric.Bounds

/-! # The model's Kepler equations in real arithmetic -/

namespace Adx
open Spec V3

theorem kep_elps_eq (E e M : ℝ) : kepler_equ_elps E e M = E - e * Real.sin E - M := rfl
theorem dE_eq (E e : ℝ) : dE E e = 1 - e * Real.cos E := by simp [dE]
theorem kep_hypb_eq (H e N : ℝ) : kepler_equ_hypb H e N = e * Real.sinh H - H - N := rfl
theorem dH_eq (H e : ℝ) : dH H e = e * Real.cosh H - 1 := by simp [dH]

theorem kep_uni_eq (χ α r0 σ0 t mu : ℝ) :
    kepler_equ_uni χ α r0 σ0 t mu = kepU α r0 σ0 χ - Real.sqrt mu * t := by
  simp only [kepler_equ_uni, kepU, C07_ufunc1, C07_ufunc2, C07_ufunc3, sqrt_real]
theorem dchi_eq (χ α r0 σ0 : ℝ) : dchi χ α r0 σ0 = radU α r0 σ0 χ := by
  simp only [dchi, equ_of_orb_uvi, radU, C07_ufunc0, C07_ufunc1, C07_ufunc2]

theorem hasDerivAt_elps (E e M : ℝ) : HasDerivAt (fun E => kepler_equ_elps E e M) (dE E e) E := by
  simp only [kep_elps_eq, dE_eq]
  exact ((hasDerivAt_id' E).fun_sub ((Real.hasDerivAt_sin E).const_mul e)).sub_const M

theorem dE_ge {e : ℝ} (h0 : 0 ≤ e) (E : ℝ) : 1 - e ≤ dE E e := by
  rw [dE_eq]; nlinarith [Real.cos_le_one E]

theorem hasDerivAt_hypb (H e N : ℝ) : HasDerivAt (fun H => kepler_equ_hypb H e N) (dH H e) H := by
  simp only [kep_hypb_eq, dH_eq]
  exact (((Real.hasDerivAt_sinh H).const_mul e).fun_sub (hasDerivAt_id' H)).sub_const N

theorem dH_ge {e : ℝ} (h0 : 0 ≤ e) (H : ℝ) : e - 1 ≤ dH H e := by
  rw [dH_eq]; nlinarith [Real.one_le_cosh H]

theorem hasDerivAt_uni (χ α r0 σ0 t mu : ℝ) :
    HasDerivAt (fun χ => kepler_equ_uni χ α r0 σ0 t mu) (dchi χ α r0 σ0) χ := by
  simp only [kep_uni_eq, dchi_eq]
  exact (hasDerivAt_kepU α r0 σ0 χ).sub_const _

/-- `|sin(x+s) - sin x - s cos x| ≤ s²/2` -/
theorem sin_taylor (x s : ℝ) : |Real.sin (x + s) - Real.sin x - s * Real.cos x| ≤ s ^ 2 / 2 := by
  have hcos : ∀ a b : ℝ, |Real.cos a - Real.cos b| ≤ |a - b| := fun a b => by
    have h : LipschitzWith 1 Real.cos := Real.lipschitzWith_cos
    simpa [Real.dist_eq] using h.dist_le_mul a b
  have pos : ∀ (x s : ℝ), 0 ≤ s → |Real.sin (x + s) - Real.sin x - s * Real.cos x| ≤ s ^ 2 / 2 := by
    intro x s hs
    have hd : ∀ u, HasDerivAt (fun u => Real.sin (x + u)) (Real.cos (x + u)) u := fun u => by
      simpa using ((hasDerivAt_id' u).const_add x).sin
    have hh : ∀ u, HasDerivAt (fun u => Real.sin (x + u) - u * Real.cos x) (Real.cos (x + u) - Real.cos x) u :=
      fun u => by simpa using (hd u).fun_sub ((hasDerivAt_id' u).mul_const (Real.cos x))
    have hq : ∀ u : ℝ, HasDerivAt (fun u : ℝ => u ^ 2 / 2) u u := fun u => by
      refine ((hasDerivAt_pow 2 u).div_const 2).congr_deriv ?_
      push_cast; ring
    have mono : ∀ g g' : ℝ → ℝ, (∀ u, HasDerivAt g (g' u) u) → (∀ u, 0 < u → 0 ≤ g' u) → g 0 ≤ g s := by
      intro g g' hg hg'
      refine monotoneOn_of_deriv_nonneg (convex_Ici 0)
        (continuous_iff_continuousAt.2 fun u => (hg u).continuousAt).continuousOn
        (fun u _ => (hg u).differentiableAt.differentiableWithinAt) ?_ (Set.self_mem_Ici) hs hs
      intro u hu
      rw [interior_Ici] at hu
      rw [(hg u).deriv]
      exact hg' u hu
    have hu : ∀ u, 0 < u → |Real.cos (x + u) - Real.cos x| ≤ u := fun u hu => by
      have := hcos (x + u) x
      rwa [add_sub_cancel_left, abs_of_pos hu] at this
    have h1 := mono _ _ (fun u => (hq u).fun_sub (hh u)) fun u h => by
      linarith [(abs_le.1 (hu u h)).2]
    have h2 := mono _ _ (fun u => (hq u).fun_add (hh u)) fun u h => by
      linarith [(abs_le.1 (hu u h)).1]
    simp only [add_zero, zero_mul, sub_zero] at h1 h2
    rw [abs_le]
    constructor <;> nlinarith
  rcases le_total 0 s with h | h
  · exact pos x s h
  · have := pos (-x) (-s) (by linarith)
    rw [← neg_add, Real.sin_neg, Real.sin_neg, Real.cos_neg] at this
    rw [show Real.sin (x + s) - Real.sin x - s * Real.cos x
      = -(-Real.sin (x + s) - -Real.sin x - -s * Real.cos x) by ring, abs_neg]
    simpa using this

end Adx
