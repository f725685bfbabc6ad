import Verif.Props.C07

/-! # C08: the addition formulas of the two highest universal functions -/

namespace Adx
open Spec

theorem U4_add (χ ψ α : ℝ) :
    U 4 (χ + ψ) α = U 4 χ α + U 3 χ α * ψ + U 4 ψ α + U 2 χ α * U 2 ψ α + U 1 χ α * U 3 ψ α := by
  have hadd : ∀ x, HasDerivAt (fun x : ℝ => χ + x) 1 x := fun x => by
    simpa using (hasDerivAt_id x).const_add χ
  have hd : ∀ x, HasDerivAt (fun x => U 4 (χ + x) α
      - (U 4 χ α + U 3 χ α * x + U 4 x α + U 2 χ α * U 2 x α + U 1 χ α * U 3 x α)) 0 x := by
    intro x
    have h4 := hasDerivAt_U_curve 3 (hadd x) (hasDerivAt_const x α)
    refine (h4.fun_sub (((((((hasDerivAt_id' x).const_mul (U 3 χ α)).const_add (U 4 χ α)).fun_add
      (hasDerivAt_U_chi 3 x α))).fun_add ((hasDerivAt_U_chi 1 x α).const_mul (U 2 χ α))).fun_add
      ((hasDerivAt_U_chi 2 x α).const_mul (U 1 χ α)))).congr_deriv ?_
    rw [U3_add χ x α]
    ring
  have hc := is_const_of_deriv_eq_zero (fun x => (hd x).differentiableAt) (fun x => (hd x).deriv) ψ 0
  simp only [add_zero, U_zero_left] at hc
  norm_num at hc
  linarith

theorem U5_add (χ ψ α : ℝ) :
    U 5 (χ + ψ) α = U 5 χ α + U 4 χ α * ψ + U 3 χ α * (ψ ^ 2 / 2) + U 5 ψ α + U 2 χ α * U 3 ψ α
      + U 1 χ α * U 4 ψ α := by
  have hadd : ∀ x, HasDerivAt (fun x : ℝ => χ + x) 1 x := fun x => by
    simpa using (hasDerivAt_id x).const_add χ
  have hd : ∀ x, HasDerivAt (fun x => U 5 (χ + x) α
      - (U 5 χ α + U 4 χ α * x + U 3 χ α * (x ^ 2 / 2) + U 5 x α + U 2 χ α * U 3 x α + U 1 χ α * U 4 x α)) 0 x := by
    intro x
    have h5 := hasDerivAt_U_curve 4 (hadd x) (hasDerivAt_const x α)
    refine (h5.fun_sub ((((((((hasDerivAt_id' x).const_mul (U 4 χ α)).const_add (U 5 χ α)).fun_add
      (((hasDerivAt_pow 2 x).div_const 2).const_mul (U 3 χ α))).fun_add
      (hasDerivAt_U_chi 4 x α))).fun_add ((hasDerivAt_U_chi 2 x α).const_mul (U 2 χ α))).fun_add
      ((hasDerivAt_U_chi 3 x α).const_mul (U 1 χ α)))).congr_deriv ?_
    rw [U4_add χ x α]
    norm_num
  have hc := is_const_of_deriv_eq_zero (fun x => (hd x).differentiableAt) (fun x => (hd x).deriv) ψ 0
  simp only [add_zero, U_zero_left] at hc
  norm_num at hc
  linarith

/-- C08: addition formulas of `ufunc4` and `ufunc5`. -/
theorem C08_addition_45 (χ ψ α : ℝ) :
    ufunc4 (χ + ψ) α = ufunc4 χ α + ufunc3 χ α * ψ + ufunc4 ψ α + ufunc2 χ α * ufunc2 ψ α
      + ufunc1 χ α * ufunc3 ψ α ∧
    ufunc5 (χ + ψ) α = ufunc5 χ α + ufunc4 χ α * ψ + ufunc3 χ α * (ψ ^ 2 / 2) + ufunc5 ψ α
      + ufunc2 χ α * ufunc3 ψ α + ufunc1 χ α * ufunc4 ψ α := by
  simp only [C07_ufunc1, C07_ufunc2, C07_ufunc3, C07_ufunc4, C07_ufunc5]
  exact ⟨U4_add χ ψ α, U5_add χ ψ α⟩

end Adx
