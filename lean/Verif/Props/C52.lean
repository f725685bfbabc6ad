import Verif.Props.C07
import Verif.Props.C10
import Verif.Props.C18b
import Mathlib.Analysis.SpecialFunctions.Arsinh

/-! # C52: the starting values of the three root searches

Stated through the equations the solvers are meant to solve, not through the formulas of the code.
-/

namespace Adx
open Real

/-- C52, elliptic: the starting value solves Kepler's equation up to third order in `e`. -/
theorem C52_elps_order {e : ℝ} (he : 0 ≤ e) (he1 : e ≤ 1) (M : ℝ) :
    |elpsStart M e - e * Real.sin (elpsStart M e) - M| ≤ 17 / 8 * e ^ 3 := by
  have h := elpsStart_residual he M
  rw [kep_elps_eq] at h
  refine h.trans ?_
  have h2 : 1 + (1 + e / 2) ^ 2 / 2 ≤ 17 / 8 := by nlinarith
  have := mul_le_mul_of_nonneg_left h2 (pow_nonneg he 3)
  linarith

/-- C52, elliptic: the starting value is the solution at both apsides, `M = nπ`. -/
theorem C52_elps_apsides (e : ℝ) (n : ℤ) :
    elpsStart ((n : ℝ) * π) e = n * π ∧
      elpsStart ((n : ℝ) * π) e - e * Real.sin (elpsStart ((n : ℝ) * π) e) = n * π := by
  have h1 : Real.sin (n * π) = 0 := Real.sin_int_mul_pi n
  have h2 : Real.sin (2 * (n * π)) = 0 := by rw [Real.sin_two_mul, h1]; ring
  have h : elpsStart ((n : ℝ) * π) e = n * π := by
    simp [elpsStart, h1, h2]
  rw [h]; simp [h1]

/-- C52, hyperbolic: the starting value is the solution of `e sinh H = 2 N`. -/
theorem C52_hypb {N e : ℝ} (he : e ≠ 0) : e * Real.sinh (hypbStart N e) = 2 * N := by
  rw [hypbStart_eq, Real.sinh_arsinh]; field_simp

/-- C52, hyperbolic: hence it has the sign of `N`. -/
theorem C52_hypb_sign {N e : ℝ} (he : 0 < e) :
    (0 < hypbStart N e ↔ 0 < N) ∧ (hypbStart N e < 0 ↔ N < 0) := by
  have h := C52_hypb (N := N) he.ne'
  rw [← Real.sinh_pos_iff, ← Real.sinh_neg_iff]
  constructor <;> constructor <;> intro h1
  · have := mul_pos he h1; linarith
  · by_contra h2; push Not at h2; nlinarith
  · nlinarith
  · by_contra h2; push Not at h2; nlinarith

/-- C52, universal: the starting value has the sign of the time of flight, forwards or backwards and
for ellipses and hyperbolas alike. -/
theorem C52_uni_sign {t α mu : ℝ} (hmu : 0 < mu) (hα : α ≠ 0) :
    (0 < uniStart t α mu ↔ 0 < t) ∧ (uniStart t α mu < 0 ↔ t < 0) := by
  have hc : 0 < Real.sqrt mu * |α| := mul_pos (Real.sqrt_pos.2 hmu) (abs_pos.2 hα)
  simp only [uniStart, sqrt_real, abs_real]
  refine ⟨mul_pos_iff_of_pos_left hc, ?_⟩
  rw [← neg_pos, ← mul_neg, mul_pos_iff_of_pos_left hc, neg_pos]

/-- C52, universal: the solution has the sign of the time of flight too, so the search starts on the
right side of zero. -/
theorem C52_uni_root_sign {r v : V3 ℝ} {mu : ℝ} (hmu : 0 < mu)
    (hh : angular_momentum r v ≠ ⟨0, 0, 0⟩) (hα : 1 / semimajor_axis (V3.norm r) (V3.norm v) mu ≠ 0)
    {t χ : ℝ} (hχ : kepler_equ_uni χ (1 / semimajor_axis (V3.norm r) (V3.norm v) mu) (V3.norm r)
      (sigma_fn r v mu) t mu = 0) :
    (0 < uniStart t (1 / semimajor_axis (V3.norm r) (V3.norm v) mu) mu ↔ 0 < χ) ∧
      (uniStart t (1 / semimajor_axis (V3.norm r) (V3.norm v) mu) mu < 0 ↔ χ < 0) := by
  obtain ⟨m, hm, h⟩ := C12_derivative hmu hh t
  have hmono := strictMono_of_slope hm (fun χ => (h χ).1) (fun χ => (h χ).2)
  have h0 : kepler_equ_uni 0 (1 / semimajor_axis (V3.norm r) (V3.norm v) mu) (V3.norm r)
      (sigma_fn r v mu) t mu = -(Real.sqrt mu * t) := by rw [kep_uni_eq, kepU_zero]; ring
  have hs := Real.sqrt_pos.2 hmu
  obtain ⟨h1, h2⟩ := C52_uni_sign (t := t) hmu hα
  rw [h1, h2]
  constructor
  · rw [← hmono.lt_iff_lt (a := 0) (b := χ), hχ, h0, neg_lt_zero, mul_pos_iff_of_pos_left hs]
  · rw [← hmono.lt_iff_lt (a := χ) (b := 0), hχ, h0, ← mul_neg, mul_pos_iff_of_pos_left hs, neg_pos]

/-- C52, universal: for a circular orbit (`alpha r0 = 1`, `sigma0 = 0`) the starting value is the
solution. -/
theorem C52_uni_circular {t r0 mu : ℝ} (hr : 0 < r0) :
    kepler_equ_uni (uniStart t (1 / r0) mu) (1 / r0) r0 0 t mu = 0 := by
  have hx : r0 * uniStart t (1 / r0) mu = Real.sqrt mu * t := by
    simp only [uniStart, sqrt_real, abs_real]
    rw [abs_of_pos (by positivity)]; field_simp
  have h := (C08_identities (uniStart t (1 / r0) mu) (1 / r0)).2.2.1
  have h3 : ufunc3 (uniStart t (1 / r0) mu) (1 / r0)
      = r0 * uniStart t (1 / r0) mu - r0 * ufunc1 (uniStart t (1 / r0) mu) (1 / r0) := by
    field_simp at h ⊢; linarith
  simp only [kepler_equ_uni, sqrt_real]
  rw [h3]; linarith

/-- C52, universal: hence for a circular orbit the solver returns the exact solution without a single
Newton step, whatever the iteration limit. -/
theorem C52_uni_circular_run {t r0 mu tol : ℝ} (hr : 0 < r0) (htol : 0 ≤ tol) (max_iter : ℕ) :
    solve_kepler_uni t (1 / r0) r0 0 mu tol max_iter = some (Real.sqrt mu * t / r0) := by
  obtain ⟨k, -, -, h, h1, -⟩ := C13_uni t (1 / r0) r0 0 mu tol max_iter
  have hk : k = 0 := by
    by_contra hk
    have := h1 0 (Nat.pos_of_ne_zero hk)
    rw [Function.iterate_zero, id, C52_uni_circular hr] at this
    simp [lt_real, abs_real] at this
    linarith
  rw [h, hk, Function.iterate_zero, id]
  simp only [uniStart, sqrt_real, abs_real]
  rw [abs_of_pos (by positivity)]; congr 1; field_simp

/-- A case: the start at `M = π`, and the circular solver over a negative time. -/
example : elpsStart ((1 : ℤ) * π) (0.3 : ℝ) = (1 : ℤ) * π := (C52_elps_apsides _ 1).1
example : solve_kepler_uni (-3 : ℝ) (1 / 2) 2 0 4 0.001 0 = some (-3) := by
  rw [C52_uni_circular_run (by norm_num) (by norm_num)]
  rw [show (4 : ℝ) = 2 ^ 2 by norm_num, Real.sqrt_sq (by norm_num)]; norm_num

end Adx
