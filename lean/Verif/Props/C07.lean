import Verif.Lemmas.UFun
import Verif.Model.UniFormulas

/-! # C07, C08, C09: the universal functions

The code evaluates `U_n` by three different closed formulas, chosen by the sign of `alpha`. C07
identifies all of them with one power series; C08 and C09 are the identities users rely on. -/

namespace Adx
open Spec

section aux
variable {χ α : ℝ}

theorem arg_pos (h : 0 < α) : -(α * χ ^ 2) = -(Real.sqrt α * χ) ^ 2 := by
  rw [mul_pow, Real.sq_sqrt h.le]

theorem arg_neg (h : α < 0) : -(α * χ ^ 2) = (Real.sqrt (-α) * χ) ^ 2 := by
  rw [mul_pow, Real.sq_sqrt (by linarith)]; ring

theorem U_of_rec (n : ℕ) (hα : α ≠ 0) :
    U (n + 2) χ α = (χ ^ n / (n.factorial : ℝ) - U n χ α) / α := by
  rw [eq_div_iff hα, ← U_rec n χ α]; ring

end aux

/-- C07 for `n = 0`. -/
theorem C07_ufunc0 (χ α : ℝ) : ufunc0 χ α = U 0 χ α := by
  rcases lt_trichotomy α 0 with h | rfl | h
  · simp only [ufunc0, U, Nat.cast_zero, lt_real, decide_eq_true_eq, h, h.le.not_gt, if_true, if_false]
    rw [arg_neg h, stumpff_cosh]; simp
  · simp [ufunc0, U_zero_right]
  · simp only [ufunc0, U, Nat.cast_zero, lt_real, decide_eq_true_eq, h, if_true]
    rw [arg_pos h, stumpff_cos]; simp

/-- C07 for `n = 1`. -/
theorem C07_ufunc1 (χ α : ℝ) : ufunc1 χ α = U 1 χ α := by
  rcases lt_trichotomy α 0 with h | rfl | h
  · simp only [ufunc1, U, Nat.cast_zero, lt_real, decide_eq_true_eq, h, h.le.not_gt, if_true, if_false]
    have hs : 0 < Real.sqrt (-α) := Real.sqrt_pos.2 (by linarith)
    rw [arg_neg h]
    simp only [sinh_real, sqrt_real]
    rw [← stumpff_sinh]
    field_simp
  · simp [ufunc1, U_zero_right]
  · simp only [ufunc1, U, Nat.cast_zero, lt_real, decide_eq_true_eq, h, if_true]
    have hs : 0 < Real.sqrt α := Real.sqrt_pos.2 h
    rw [arg_pos h]
    simp only [sin_real, sqrt_real]
    rw [← stumpff_sin]
    field_simp

/-- C07 for `n = 2`. -/
theorem C07_ufunc2 (χ α : ℝ) : ufunc2 χ α = U 2 χ α := by
  have h0 := C07_ufunc0 χ α
  rcases lt_trichotomy α 0 with h | rfl | h
  · rw [U_of_rec 0 h.ne, ← h0]
    simp only [ufunc0, ufunc2, Nat.cast_zero, lt_real, decide_eq_true_eq, h, h.le.not_gt, if_true, if_false]
    have : α ≠ 0 := h.ne
    simp; field_simp; ring
  · simp [ufunc2, U_zero_right]
  · rw [U_of_rec 0 h.ne', ← h0]
    simp only [ufunc0, ufunc2, Nat.cast_zero, lt_real, decide_eq_true_eq, h, if_true]
    simp

/-- C07 for `n = 3`. -/
theorem C07_ufunc3 (χ α : ℝ) : ufunc3 χ α = U 3 χ α := by
  have h1 := C07_ufunc1 χ α
  rcases lt_trichotomy α 0 with h | rfl | h
  · rw [U_of_rec 1 h.ne, ← h1]
    simp only [ufunc1, ufunc3, Nat.cast_zero, lt_real, decide_eq_true_eq, h, h.le.not_gt, if_true, if_false]
    have hs : 0 < Real.sqrt (-α) := Real.sqrt_pos.2 (by linarith)
    simp only [sinh_real, sqrt_real]
    simp; field_simp
  · simp [ufunc3, U_zero_right, Nat.factorial]
  · rw [U_of_rec 1 h.ne', ← h1]
    simp only [ufunc1, ufunc3, Nat.cast_zero, lt_real, decide_eq_true_eq, h, if_true]
    have hs : 0 < Real.sqrt α := Real.sqrt_pos.2 h
    simp only [sin_real, sqrt_real]
    simp; field_simp

/-- C07 for `n = 4`. -/
theorem C07_ufunc4 (χ α : ℝ) : ufunc4 χ α = U 4 χ α := by
  have h0 := C07_ufunc0 χ α
  rcases lt_trichotomy α 0 with h | rfl | h
  · rw [U_of_rec 2 h.ne, U_of_rec 0 h.ne, ← h0]
    simp only [ufunc0, ufunc4, Nat.cast_zero, lt_real, decide_eq_true_eq, h, h.le.not_gt, if_true, if_false]
    have : α ≠ 0 := h.ne
    simp; field_simp; ring
  · simp [ufunc4, U_zero_right, Nat.factorial]
  · rw [U_of_rec 2 h.ne', U_of_rec 0 h.ne', ← h0]
    simp only [ufunc0, ufunc4, Nat.cast_zero, lt_real, decide_eq_true_eq, h, if_true]
    simp; field_simp; ring

/-- C07 for `n = 5`. -/
theorem C07_ufunc5 (χ α : ℝ) : ufunc5 χ α = U 5 χ α := by
  have h1 := C07_ufunc1 χ α
  rcases lt_trichotomy α 0 with h | rfl | h
  · rw [U_of_rec 3 h.ne, U_of_rec 1 h.ne, ← h1]
    simp only [ufunc1, ufunc5, Nat.cast_zero, lt_real, decide_eq_true_eq, h, h.le.not_gt, if_true, if_false]
    have hs : 0 < Real.sqrt (-α) := Real.sqrt_pos.2 (by linarith)
    have h2 : Real.sqrt (-α) ^ 2 = -α := Real.sq_sqrt (by linarith)
    simp only [sinh_real, sqrt_real]
    set S := Real.sinh (Real.sqrt (-α) * χ)
    set q := Real.sqrt (-α)
    have ha : α = -q ^ 2 := by linarith
    rw [ha]
    simp [Nat.factorial]; field_simp; ring
  · simp [ufunc5, U_zero_right, Nat.factorial]
  · rw [U_of_rec 3 h.ne', U_of_rec 1 h.ne', ← h1]
    simp only [ufunc1, ufunc5, Nat.cast_zero, lt_real, decide_eq_true_eq, h, if_true]
    have hs : 0 < Real.sqrt α := Real.sqrt_pos.2 h
    have h2 : Real.sqrt α ^ 2 = α := Real.sq_sqrt h.le
    simp only [sin_real, sqrt_real]
    set S := Real.sin (Real.sqrt α * χ)
    set q := Real.sqrt α
    have ha : α = q ^ 2 := by linarith
    rw [ha]
    simp [Nat.factorial]; field_simp; ring

/-- C08: the Pythagorean identity, and the recurrences `U_n + α U_{n+2} = χⁿ/n!`. -/
theorem C08_identities (χ α : ℝ) :
    ufunc0 χ α ^ 2 + α * ufunc1 χ α ^ 2 = 1 ∧
    ufunc0 χ α + α * ufunc2 χ α = 1 ∧
    ufunc1 χ α + α * ufunc3 χ α = χ ∧
    ufunc2 χ α + α * ufunc4 χ α = χ ^ 2 / 2 ∧
    ufunc3 χ α + α * ufunc5 χ α = χ ^ 3 / 6 := by
  simp only [C07_ufunc0, C07_ufunc1, C07_ufunc2, C07_ufunc3, C07_ufunc4, C07_ufunc5]
  refine ⟨U_pythagoras χ α, ?_, ?_, ?_, ?_⟩
  · simpa using U_rec 0 χ α
  · simpa using U_rec 1 χ α
  · simpa using U_rec 2 χ α
  · simpa [Nat.factorial] using U_rec 3 χ α

/-- C08: each universal function is the derivative of the next. -/
theorem C08_deriv (χ α : ℝ) :
    HasDerivAt (fun x => ufunc0 x α) (-(α * ufunc1 χ α)) χ ∧
    HasDerivAt (fun x => ufunc1 x α) (ufunc0 χ α) χ ∧
    HasDerivAt (fun x => ufunc2 x α) (ufunc1 χ α) χ ∧
    HasDerivAt (fun x => ufunc3 x α) (ufunc2 χ α) χ ∧
    HasDerivAt (fun x => ufunc4 x α) (ufunc3 χ α) χ ∧
    HasDerivAt (fun x => ufunc5 x α) (ufunc4 χ α) χ := by
  simp only [C07_ufunc0, C07_ufunc1, C07_ufunc2, C07_ufunc3, C07_ufunc4, C07_ufunc5]
  exact ⟨hasDerivAt_U0_chi χ α, hasDerivAt_U_chi 0 χ α, hasDerivAt_U_chi 1 χ α,
    hasDerivAt_U_chi 2 χ α, hasDerivAt_U_chi 3 χ α, hasDerivAt_U_chi 4 χ α⟩

/-- C08: parity in `chi`. -/
theorem C08_parity (χ α : ℝ) :
    ufunc0 (-χ) α = ufunc0 χ α ∧ ufunc1 (-χ) α = -ufunc1 χ α ∧ ufunc2 (-χ) α = ufunc2 χ α ∧
    ufunc3 (-χ) α = -ufunc3 χ α ∧ ufunc4 (-χ) α = ufunc4 χ α ∧ ufunc5 (-χ) α = -ufunc5 χ α := by
  simp only [C07_ufunc0, C07_ufunc1, C07_ufunc2, C07_ufunc3, C07_ufunc4, C07_ufunc5, U_neg_left]
  refine ⟨?_, ?_, ?_, ?_, ?_, ?_⟩ <;> ring

/-- C08: addition formulas in `chi`. -/
theorem C08_addition (χ ψ α : ℝ) :
    ufunc0 (χ + ψ) α = ufunc0 χ α * ufunc0 ψ α - α * ufunc1 χ α * ufunc1 ψ α ∧
    ufunc1 (χ + ψ) α = ufunc0 χ α * ufunc1 ψ α + ufunc1 χ α * ufunc0 ψ α ∧
    ufunc2 (χ + ψ) α = ufunc2 χ α + ufunc1 χ α * ufunc1 ψ α + ufunc0 χ α * ufunc2 ψ α ∧
    ufunc3 (χ + ψ) α = ufunc3 χ α + ufunc3 ψ α + ufunc2 χ α * ufunc1 ψ α + ufunc1 χ α * ufunc2 ψ α := by
  simp only [C07_ufunc0, C07_ufunc1, C07_ufunc2, C07_ufunc3]
  refine ⟨(U_add χ ψ α).1, (U_add χ ψ α).2, ?_, ?_⟩
  · exact U2_add χ ψ α
  · exact U3_add χ ψ α

/-- C08: scaling. -/
theorem C08_scaling {s : ℝ} (hs : s ≠ 0) (χ α : ℝ) :
    ufunc0 (s * χ) (α / s ^ 2) = ufunc0 χ α ∧ ufunc1 (s * χ) (α / s ^ 2) = s * ufunc1 χ α ∧
    ufunc2 (s * χ) (α / s ^ 2) = s ^ 2 * ufunc2 χ α ∧ ufunc3 (s * χ) (α / s ^ 2) = s ^ 3 * ufunc3 χ α ∧
    ufunc4 (s * χ) (α / s ^ 2) = s ^ 4 * ufunc4 χ α ∧
    ufunc5 (s * χ) (α / s ^ 2) = s ^ 5 * ufunc5 χ α := by
  simp only [C07_ufunc0, C07_ufunc1, C07_ufunc2, C07_ufunc3, C07_ufunc4, C07_ufunc5, U_scale _ hs,
    pow_zero, one_mul, pow_one, and_self]

/-- C08: the values at `chi = 0`. -/
theorem C08_at_zero (α : ℝ) :
    ufunc0 0 α = 1 ∧ ufunc1 0 α = 0 ∧ ufunc2 0 α = 0 ∧ ufunc3 0 α = 0 ∧ ufunc4 0 α = 0 ∧
      ufunc5 0 α = 0 := by
  simp [C07_ufunc0, C07_ufunc1, C07_ufunc2, C07_ufunc3, C07_ufunc4, C07_ufunc5, U_zero_left]

/-- C09: derivative with respect to `alpha`, through the switch of formulas at `alpha = 0`. -/
theorem C09_deriv_alpha (χ α : ℝ) :
    HasDerivAt (fun a => ufunc0 χ a) (-(χ * ufunc1 χ α) / 2) α ∧
    HasDerivAt (fun a => ufunc1 χ a) ((ufunc3 χ α - χ * ufunc2 χ α) / 2) α ∧
    HasDerivAt (fun a => ufunc2 χ a) ((2 * ufunc4 χ α - χ * ufunc3 χ α) / 2) α ∧
    HasDerivAt (fun a => ufunc3 χ a) ((3 * ufunc5 χ α - χ * ufunc4 χ α) / 2) α := by
  simp only [C07_ufunc0, C07_ufunc1, C07_ufunc2, C07_ufunc3, C07_ufunc4, C07_ufunc5]
  have hc := hasDerivAt_const α χ
  have hi := hasDerivAt_id α
  refine ⟨(hasDerivAt_U0_curve hc hi).congr_deriv ?_, (hasDerivAt_U_curve 0 hc hi).congr_deriv ?_,
    (hasDerivAt_U_curve 1 hc hi).congr_deriv ?_, (hasDerivAt_U_curve 2 hc hi).congr_deriv ?_⟩
  · simp; ring
  · simp
  · norm_num
  · norm_num

/-- C07: in particular no jump between the three formulas: jointly continuous in `(chi, alpha)`. -/
theorem C07_continuous :
    Continuous (fun q : ℝ × ℝ => ufunc0 q.1 q.2) ∧ Continuous (fun q : ℝ × ℝ => ufunc1 q.1 q.2) ∧
    Continuous (fun q : ℝ × ℝ => ufunc2 q.1 q.2) ∧ Continuous (fun q : ℝ × ℝ => ufunc3 q.1 q.2) ∧
    Continuous (fun q : ℝ × ℝ => ufunc4 q.1 q.2) ∧ Continuous (fun q : ℝ × ℝ => ufunc5 q.1 q.2) := by
  simp only [C07_ufunc0, C07_ufunc1, C07_ufunc2, C07_ufunc3, C07_ufunc4, C07_ufunc5]
  exact ⟨continuous_U 0, continuous_U 1, continuous_U 2, continuous_U 3, continuous_U 4, continuous_U 5⟩

/-- The series is not trivial: at `α = 1`, `χ = π` it is `-1`, `0`, `2`, `π` for `n = 0..3`. -/
example : ufunc0 Real.pi 1 = -1 ∧ ufunc1 Real.pi 1 = 0 ∧ ufunc2 Real.pi 1 = 2 ∧
    ufunc3 Real.pi 1 = Real.pi := by
  simp [ufunc0, ufunc1, ufunc2, ufunc3]; norm_num

end Adx
