import Verif.Props.C63b
import Verif.Props.C52
import Verif.Props.C58
import Verif.Props.C18d
import Mathlib.Analysis.SpecialFunctions.Trigonometric.Series

/-! # C63, continued: accuracy of the derivative of the hyperbolic anomaly

When `solve_kepler_hypb` makes at least one step and meets its tolerance, the tangent that comes out is the derivative of the
hyperbolic anomaly with respect to the mean anomaly up to a relative error of order `√tol`. -/

namespace Adx
open Spec V3 Set

/-! ## Hyperbolic functions on short intervals -/

theorem two_sinh {s : ℝ} (h0 : 0 ≤ s) (h1 : s ≤ 1) : s * Real.cosh s ≤ 2 * Real.sinh s := by
  have d : ∀ t, HasDerivAt (fun t => 2 * Real.sinh t - t * Real.cosh t) (Real.cosh t - t * Real.sinh t) t := fun t => by
    refine (((Real.hasDerivAt_sinh t).const_mul 2).fun_sub
      ((hasDerivAt_id' t).fun_mul (Real.hasDerivAt_cosh t))).congr_deriv ?_
    ring
  have := mono_of_deriv_nonneg (a := 0) (b := 1) d (fun t ht => by
    have := Real.sinh_nonneg_iff.2 ht.1
    have := Real.sinh_lt_cosh t
    nlinarith [ht.2]) ⟨le_rfl, zero_le_one⟩ ⟨h0, h1⟩ h0
  simp only [Real.sinh_zero] at this
  linarith

theorem three_cosh {s : ℝ} (h0 : 0 ≤ s) (h1 : s ≤ 1) : s * Real.sinh s ≤ 3 * (Real.cosh s - 1) := by
  have d : ∀ t, HasDerivAt (fun t => 3 * (Real.cosh t - 1) - t * Real.sinh t) (2 * Real.sinh t - t * Real.cosh t) t :=
    fun t => by
      refine ((((Real.hasDerivAt_cosh t).sub_const 1).const_mul 3).fun_sub
        ((hasDerivAt_id' t).fun_mul (Real.hasDerivAt_sinh t))).congr_deriv ?_
      ring
  have := mono_of_deriv_nonneg (a := 0) (b := 1) d (fun t ht => by have := two_sinh ht.1 ht.2; linarith)
    ⟨le_rfl, zero_le_one⟩ ⟨h0, h1⟩ h0
  simp only [Real.cosh_zero] at this
  linarith

theorem quarter_sinh {s : ℝ} (h0 : 0 ≤ s) (h1 : s ≤ 1) : s ^ 2 / 4 * Real.sinh s ≤ s * Real.cosh s - Real.sinh s := by
  have d : ∀ t, HasDerivAt (fun t => t * Real.cosh t - Real.sinh t - t ^ 2 / 4 * Real.sinh t)
      (t / 4 * (2 * Real.sinh t - t * Real.cosh t)) t := fun t => by
    refine (((hasDerivAt_id' t).fun_mul (Real.hasDerivAt_cosh t)).fun_sub (Real.hasDerivAt_sinh t)).fun_sub
      ((((hasDerivAt_id' t).fun_pow 2).div_const 4).fun_mul (Real.hasDerivAt_sinh t)) |>.congr_deriv ?_
    simp
    ring
  have := mono_of_deriv_nonneg (a := 0) (b := 1) d (fun t ht => by
      have := two_sinh ht.1 ht.2
      exact mul_nonneg (by linarith [ht.1]) (by linarith))
    ⟨le_rfl, zero_le_one⟩ ⟨h0, h1⟩ h0
  simp only [Real.cosh_zero, Real.sinh_zero] at this
  linarith

theorem coth_step {x s : ℝ} (hsx : s ≤ x) : Real.cosh x * Real.sinh s ≤ Real.sinh x * Real.cosh s := by
  have := Real.sinh_nonneg_iff.2 (sub_nonneg.2 hsx)
  rw [Real.sinh_sub] at this
  linarith

/-- The second-order remainder of `sinh`, for steps to the left. -/
theorem sinh_rem_left {x s : ℝ} (h0 : 0 ≤ s) (hsx : s ≤ x) (h1 : s ≤ 1) :
    s ^ 2 / 4 * Real.sinh x ≤ Real.sinh (x - s) - Real.sinh x + s * Real.cosh x := by
  rcases h0.eq_or_lt with rfl | hs
  · simp
  have hS : 0 < Real.sinh s := Real.sinh_pos_iff.2 hs
  have hX : 0 ≤ Real.sinh x := Real.sinh_nonneg_iff.2 (h0.trans hsx)
  have h2 := coth_step hsx
  have h3 := quarter_sinh h0 h1
  have h4 : 0 ≤ Real.sinh s - s := sub_nonneg.2 (Real.self_le_sinh_iff.2 h0)
  rw [Real.sinh_sub]
  have h5 : s ^ 2 / 4 * Real.sinh x * Real.sinh s
      ≤ (Real.sinh x * Real.cosh s - Real.cosh x * Real.sinh s - Real.sinh x + s * Real.cosh x) * Real.sinh s := by
    have e : Real.cosh s ^ 2 = 1 + Real.sinh s ^ 2 := by have := Real.cosh_sq s; linarith
    have a1 := mul_le_mul_of_nonneg_left h3 hX
    have a2 := mul_le_mul_of_nonneg_right h2 h4
    nlinarith
  exact le_of_mul_le_mul_right h5 hS

theorem sinh_le_two {d : ℝ} (h0 : 0 ≤ d) (h1 : d ≤ 1) : Real.sinh d ≤ 2 * d := by
  have h2 : Real.cosh d ≤ 2 := by
    have a := Real.cosh_le_cosh.2 (by rw [abs_of_nonneg h0, abs_one]; exact h1 : |d| ≤ |(1 : ℝ)|)
    refine a.trans ?_
    rw [Real.cosh_eq, Real.exp_neg]
    have b := Real.exp_one_lt_d9
    have b' := Real.exp_one_gt_d9
    have : (Real.exp 1)⁻¹ ≤ 1 := inv_le_one_of_one_le₀ (by linarith)
    linarith
  have := sinh_le_self_mul_cosh h0
  nlinarith

theorem cosh_le_sq {d : ℝ} (h0 : 0 ≤ d) (h1 : d ≤ 1) : Real.cosh d - 1 ≤ d ^ 2 := by
  have dd : ∀ t, HasDerivAt (fun t => t ^ 2 - Real.cosh t) (2 * t - Real.sinh t) t := fun t => by
    refine (((hasDerivAt_id' t).fun_pow 2).fun_sub (Real.hasDerivAt_cosh t)).congr_deriv ?_
    simp
  have := mono_of_deriv_nonneg (a := 0) (b := 1) dd (fun t ht => sub_nonneg.2 (sinh_le_two ht.1 ht.2))
    ⟨le_rfl, zero_le_one⟩ ⟨h0, h1⟩ h0
  simp only [Real.cosh_zero] at this
  linarith

theorem quad_le_cosh {d : ℝ} (h0 : 0 ≤ d) : 1 + d ^ 2 / 2 ≤ Real.cosh d := by
  have dd : ∀ t, HasDerivAt (fun t => Real.cosh t - t ^ 2 / 2) (Real.sinh t - t) t := fun t => by
    refine ((Real.hasDerivAt_cosh t).fun_sub (((hasDerivAt_id' t).fun_pow 2).div_const 2)).congr_deriv ?_
    simp
  have := mono_of_deriv_nonneg (a := 0) (b := d) dd (fun t ht => sub_nonneg.2 (Real.self_le_sinh_iff.2 ht.1))
    ⟨le_rfl, h0⟩ ⟨h0, le_rfl⟩ h0
  simp only [Real.cosh_zero] at this
  linarith

/-- The same for steps to the right. -/
theorem sinh_rem_right {x d : ℝ} (hx : 0 ≤ x) (h0 : 0 ≤ d) :
    d ^ 2 / 2 * Real.sinh x + d ^ 3 / 6 ≤ Real.sinh (x + d) - Real.sinh x - d * Real.cosh x := by
  have hX : 0 ≤ Real.sinh x := Real.sinh_nonneg_iff.2 hx
  have h1 : 1 + d ^ 2 / 2 ≤ Real.cosh d := quad_le_cosh h0
  have h2 : d + d ^ 3 / 6 ≤ Real.sinh d := by
    have dd : ∀ t, HasDerivAt (fun t => Real.sinh t - t - t ^ 3 / 6) (Real.cosh t - 1 - t ^ 2 / 2) t := fun t => by
      refine (((Real.hasDerivAt_sinh t).fun_sub (hasDerivAt_id' t)).fun_sub
        (((hasDerivAt_id' t).fun_pow 3).div_const 6)).congr_deriv ?_
      simp
      ring
    have := mono_of_deriv_nonneg (a := 0) (b := d) dd (fun t ht => by
      have := quad_le_cosh ht.1; linarith) ⟨le_rfl, h0⟩ ⟨h0, le_rfl⟩ h0
    simp only [Real.sinh_zero] at this
    linarith
  have h3 := Real.one_le_cosh x
  have h4 : d ^ 3 / 6 ≤ Real.sinh d - d := by linarith
  have h5 : 0 ≤ Real.sinh d - d := le_trans (by positivity) h4
  rw [Real.sinh_add]
  nlinarith [mul_le_mul_of_nonneg_left h1 hX]

theorem cosh_drop {x s : ℝ} (h0 : 0 ≤ s) (hsx : s ≤ x) (h1 : s ≤ 1) :
    s / 3 * Real.sinh x ≤ Real.cosh x - Real.cosh (x - s) := by
  rcases h0.eq_or_lt with rfl | hs
  · simp
  have hS : 0 < Real.sinh s := Real.sinh_pos_iff.2 hs
  have hX : 0 ≤ Real.sinh x := Real.sinh_nonneg_iff.2 (h0.trans hsx)
  have h2 := coth_step hsx
  have h3 := three_cosh h0 h1
  have h4 : 0 ≤ Real.cosh s - 1 := by linarith [Real.one_le_cosh s]
  rw [Real.cosh_sub]
  have h5 : s / 3 * Real.sinh x * Real.sinh s
      ≤ (Real.cosh x - (Real.cosh x * Real.cosh s - Real.sinh x * Real.sinh s)) * Real.sinh s := by
    have e : Real.cosh s ^ 2 = 1 + Real.sinh s ^ 2 := by have := Real.cosh_sq s; linarith
    have a1 := mul_le_mul_of_nonneg_left h3 hX
    have a2 := mul_le_mul_of_nonneg_right h2 h4
    nlinarith
  exact le_of_mul_le_mul_right h5 hS

/-! ## One Newton step -/

section step
variable {e N x : ℝ}

theorem hypb_den_pos (he : 1 < e) (x : ℝ) : e - 1 ≤ e * Real.cosh x - 1 := by
  nlinarith [Real.one_le_cosh x]

/-- `e sinh x / (e cosh x - 1) ≤ e / √(e² - 1)`, as a bound on the square. -/
theorem hypb_ratio (e x : ℝ) :
    (e * Real.sinh x) ^ 2 * (e ^ 2 - 1) ≤ e ^ 2 * (e * Real.cosh x - 1) ^ 2 := by
  have h : Real.sinh x ^ 2 = Real.cosh x ^ 2 - 1 := by have := Real.cosh_sq x; linarith
  rw [mul_pow, h]
  nlinarith [mul_nonneg (sq_nonneg e) (sq_nonneg (Real.cosh x - e))]

/-- The step of the hyperbolic Newton iteration. -/
noncomputable def hypbStep (N e x : ℝ) : ℝ := (e * Real.sinh x - x - N) / (e * Real.cosh x - 1)

theorem newtonHypb_step (N e x : ℝ) : newtonHypb N e x = x - hypbStep N e x := by
  simp only [newtonHypb, kep_hypb_eq, dH_eq, hypbStep]

theorem hypbStep_mul (he : 1 < e) (N x : ℝ) : hypbStep N e x * (e * Real.cosh x - 1) = e * Real.sinh x - x - N := by
  have := hypb_den_pos he x
  rw [hypbStep, div_mul_cancel₀]
  linarith

theorem hypb_residual (he : 1 < e) (N x : ℝ) :
    e * Real.sinh (x - hypbStep N e x) - (x - hypbStep N e x) - N
      = e * (Real.sinh (x - hypbStep N e x) - Real.sinh x + hypbStep N e x * Real.cosh x) := by
  have := hypbStep_mul he N x
  linear_combination -this

theorem hypbStep_lt_one (he : 1 < e) (hN : 0 ≤ N) : hypbStep N e x ≤ 1 := by
  have h0 := hypb_den_pos he x
  rw [hypbStep, div_le_one (by linarith)]
  have h1 := Real.add_one_le_exp (-x)
  have h2 := Real.cosh_sub_sinh x
  have : e * Real.cosh x - e * Real.sinh x = e * Real.exp (-x) := by rw [← h2]; ring
  nlinarith [Real.exp_pos (-x)]

theorem hypbStep_le_self (he : 1 < e) (hN : 0 ≤ N) (hx : 0 ≤ x) : hypbStep N e x ≤ x := by
  have h0 := hypb_den_pos he x
  rw [hypbStep, div_le_iff₀ (by linarith)]
  have := sinh_le_self_mul_cosh hx
  nlinarith

theorem hypb_theta_le_one (he : 1 < e) (hN : 0 ≤ N) (hx : 0 ≤ x) :
    hypbStep N e x * (e * Real.sinh x) ≤ e * Real.cosh x - 1 := by
  have h0 := hypb_den_pos he x
  have hX : 0 ≤ Real.sinh x := Real.sinh_nonneg_iff.2 hx
  have hm := hypbStep_mul he N x
  have h2 : 2 * Real.cosh x - x * Real.sinh x ≤ 2 := by
    have d : ∀ t, HasDerivAt (fun t => t * Real.sinh t - 2 * Real.cosh t) (t * Real.cosh t - Real.sinh t) t := fun t => by
      refine (((hasDerivAt_id' t).fun_mul (Real.hasDerivAt_sinh t)).fun_sub
        ((Real.hasDerivAt_cosh t).const_mul 2)).congr_deriv ?_
      ring
    have := mono_of_deriv_nonneg (a := 0) (b := x) d (fun t ht => sub_nonneg.2 (sinh_le_self_mul_cosh ht.1))
      ⟨le_rfl, hx⟩ ⟨hx, le_rfl⟩ hx
    simp only [Real.sinh_zero, Real.cosh_zero] at this
    linarith
  have hp : 0 < e * Real.cosh x - 1 := by linarith
  refine le_of_mul_le_mul_right ?_ hp
  have e1 : hypbStep N e x * (e * Real.sinh x) * (e * Real.cosh x - 1) = (e * Real.sinh x - x - N) * (e * Real.sinh x) := by
    rw [← hm]; ring
  rw [e1]
  have h3 := Real.cosh_sq x
  have h4 : 0 ≤ N * (e * Real.sinh x) := by positivity
  nlinarith [mul_le_mul_of_nonneg_left h2 (by linarith : (0 : ℝ) ≤ e), sq_nonneg (e - 1)]

/-- The residual after a step bounds the step. -/
theorem hypb_residual_ge (he : 1 < e) (hN : 0 ≤ N) (hx : 0 ≤ x) :
    hypbStep N e x ^ 2 / 4 * (e * Real.sinh x)
      ≤ e * Real.sinh (x - hypbStep N e x) - (x - hypbStep N e x) - N := by
  rw [hypb_residual he]
  have hX : 0 ≤ Real.sinh x := Real.sinh_nonneg_iff.2 hx
  set s := hypbStep N e x with hs
  rcases le_total 0 s with h0 | h0
  · have := sinh_rem_left h0 (hypbStep_le_self he hN hx) (hypbStep_lt_one he hN)
    nlinarith
  · have := sinh_rem_right hx (neg_nonneg.2 h0)
    have h1 : 0 ≤ (-s) ^ 3 := pow_nonneg (neg_nonneg.2 h0) 3
    have h2 : 0 ≤ s ^ 2 * Real.sinh x := by positivity
    rw [show x + -s = x - s by ring] at this
    have h3 : s ^ 2 / 4 * Real.sinh x ≤ Real.sinh (x - s) - Real.sinh x + s * Real.cosh x := by nlinarith
    nlinarith

theorem hypb_residual_nonneg (he : 1 < e) (hN : 0 ≤ N) (hx : 0 ≤ x) :
    0 ≤ e * Real.sinh (x - hypbStep N e x) - (x - hypbStep N e x) - N := by
  have hX : 0 ≤ Real.sinh x := Real.sinh_nonneg_iff.2 hx
  exact le_trans (by positivity) (hypb_residual_ge he hN hx)

theorem hypb_next_nonneg (he : 1 < e) (hN : 0 ≤ N) (hx : 0 ≤ x) : 0 ≤ x - hypbStep N e x :=
  sub_nonneg.2 (hypbStep_le_self he hN hx)

theorem hypbStep_nonneg (he : 1 < e) (h : 0 ≤ e * Real.sinh x - x - N) : 0 ≤ hypbStep N e x :=
  div_nonneg h (by linarith [hypb_den_pos he x])

/-- The size `c` of tangent times slope is kept by a step to the left, if `c ≥ 2`. -/
theorem hypb_tangent_keep (he : 1 < e) (hN : 0 ≤ N) (hx : 0 ≤ x) (hf : 0 ≤ e * Real.sinh x - x - N) {c T : ℝ} (hc : 2 ≤ c)
    (hT : |T| * (e * Real.cosh x - 1) ≤ c) :
    |(1 + hypbStep N e x * (e * Real.sinh x) * T) / (e * Real.cosh x - 1)|
      * (e * Real.cosh (x - hypbStep N e x) - 1) ≤ c := by
  have hp : 0 < e * Real.cosh x - 1 := by linarith [hypb_den_pos he x]
  have hX : 0 ≤ Real.sinh x := Real.sinh_nonneg_iff.2 hx
  set s := hypbStep N e x with hs
  have h0 : 0 ≤ s := hypbStep_nonneg he hf
  have h1 : s ≤ 1 := hypbStep_lt_one he hN
  have hd := cosh_drop h0 (hypbStep_le_self he hN hx) h1
  have hθ := hypb_theta_le_one he hN hx
  set p := e * Real.cosh x - 1 with hpdef
  set θ := s * (e * Real.sinh x) / p with hθdef
  have θ0 : 0 ≤ θ := by positivity
  have θ1 : θ ≤ 1 := (div_le_one hp).2 hθ
  have hθp : s * (e * Real.sinh x) = θ * p := by rw [hθdef, div_mul_cancel₀ _ hp.ne']
  have hq : e * Real.cosh (x - s) - 1 ≤ p * (1 - θ / 3) := by
    have : e * (s / 3 * Real.sinh x) ≤ e * (Real.cosh x - Real.cosh (x - s)) := by gcongr
    have e2 : e * (s / 3 * Real.sinh x) = θ * p / 3 := by rw [← hθp]; ring
    rw [e2] at this
    rw [hpdef] at this ⊢
    linarith
  have hq0 : 0 ≤ e * Real.cosh (x - s) - 1 := by linarith [hypb_den_pos he (x - s)]
  have hnum : |1 + s * (e * Real.sinh x) * T| ≤ 1 + θ * c := by
    refine (abs_add_le _ _).trans ?_
    rw [abs_one, hθp, abs_mul, abs_mul, abs_of_nonneg θ0, abs_of_pos hp]
    have := mul_le_mul_of_nonneg_left hT θ0
    linarith [this]
  rw [abs_div, abs_of_pos hp]
  calc |1 + s * (e * Real.sinh x) * T| / p * (e * Real.cosh (x - s) - 1)
      ≤ (1 + θ * c) / p * (p * (1 - θ / 3)) := by
        gcongr
    _ = (1 + θ * c) * (1 - θ / 3) := by field_simp
    _ ≤ c := by nlinarith [mul_nonneg θ0 (sub_nonneg.2 θ1), mul_nonneg (sub_nonneg.2 hc) (by nlinarith : (0:ℝ) ≤ 1 - θ + θ ^ 2 / 3)]

theorem hypb_ratio' (he : 1 < e) (x : ℝ) : e * Real.sinh x * Real.sqrt (e ^ 2 - 1) ≤ e * (e * Real.cosh x - 1) := by
  have h0 := hypb_den_pos he x
  refine le_of_sq_le_sq ?_ (by nlinarith)
  rw [mul_pow, Real.sq_sqrt (by nlinarith), mul_pow e (e * _ - 1)]
  exact hypb_ratio e x

/-- `κ = 2 √(tol e / ((e-1) √(e²-1)))` bounds the relative change of slope in the last step. -/
noncomputable def hypbKappa (e tol : ℝ) : ℝ := 2 * Real.sqrt (tol * (e / ((e - 1) * Real.sqrt (e ^ 2 - 1))))

theorem hypbKappa_nonneg (e tol : ℝ) : 0 ≤ hypbKappa e tol := by unfold hypbKappa; positivity

theorem hypbKappa_sq (he : 1 < e) {tol : ℝ} (htol : 0 ≤ tol) :
    hypbKappa e tol ^ 2 / 4 = tol * (e / ((e - 1) * Real.sqrt (e ^ 2 - 1))) := by
  have : 0 < e - 1 := by linarith
  rw [hypbKappa, mul_pow, Real.sq_sqrt (by positivity)]
  ring

/-- `tol · e sinh x ≤ κ²/4 · (e - 1) (e cosh x - 1)`. -/
theorem hypbKappa_use (he : 1 < e) {tol : ℝ} (htol : 0 ≤ tol) (x : ℝ) :
    tol * (e * Real.sinh x) ≤ hypbKappa e tol ^ 2 / 4 * (e - 1) * (e * Real.cosh x - 1) := by
  have h1 : 0 < e - 1 := by linarith
  have h2 : 0 < Real.sqrt (e ^ 2 - 1) := Real.sqrt_pos.2 (by nlinarith)
  rw [hypbKappa_sq he htol]
  have e1 : tol * (e / ((e - 1) * Real.sqrt (e ^ 2 - 1))) * (e - 1) * (e * Real.cosh x - 1)
      = tol * (e * (e * Real.cosh x - 1) / Real.sqrt (e ^ 2 - 1)) := by field_simp
  rw [e1]
  refine mul_le_mul_of_nonneg_left ?_ htol
  rw [le_div_iff₀ h2]
  exact hypb_ratio' he x

/-- If the residual after the step is within the tolerance, the relative change of slope is at most `κ`. -/
theorem hypb_theta_le (he : 1 < e) (hN : 0 ≤ N) (hx : 0 ≤ x) {tol : ℝ} (htol : 0 ≤ tol)
    (hf : e * Real.sinh (x - hypbStep N e x) - (x - hypbStep N e x) - N ≤ tol) :
    |hypbStep N e x| * (e * Real.sinh x) ≤ hypbKappa e tol * (e * Real.cosh x - 1) := by
  have hX : 0 ≤ Real.sinh x := Real.sinh_nonneg_iff.2 hx
  have h0 := hypb_den_pos he x
  have h1 := (hypb_residual_ge he hN hx).trans hf
  have h2 := hypbKappa_use he htol x
  refine le_of_sq_le_sq ?_ (mul_nonneg (hypbKappa_nonneg e tol) (by linarith))
  rw [mul_pow, sq_abs, mul_pow]
  have h3 : 0 ≤ e * Real.sinh x := by positivity
  have h4 : hypbStep N e x ^ 2 * (e * Real.sinh x) ^ 2 ≤ 4 * (tol * (e * Real.sinh x)) := by nlinarith
  have h5 : hypbKappa e tol ^ 2 * ((e - 1) * (e * Real.cosh x - 1)) ≤ hypbKappa e tol ^ 2 * (e * Real.cosh x - 1) ^ 2 := by
    refine mul_le_mul_of_nonneg_left ?_ (sq_nonneg _)
    nlinarith
  nlinarith

theorem cosh_tangent {x y : ℝ} (hxy : y ≤ x) : Real.cosh x - Real.cosh y ≤ (x - y) * Real.sinh x := by
  have d : ∀ t, HasDerivAt (fun t => t * Real.sinh x - Real.cosh t) (Real.sinh x - Real.sinh t) t := fun t => by
    refine (((hasDerivAt_id' t).mul_const (Real.sinh x)).fun_sub (Real.hasDerivAt_cosh t)).congr_deriv ?_
    ring
  have := mono_of_deriv_nonneg (a := y) (b := x) d (fun t ht => sub_nonneg.2 (Real.sinh_le_sinh.2 ht.2))
    ⟨le_rfl, hxy⟩ ⟨hxy, le_rfl⟩ hxy
  simp only at this
  linarith

theorem hypb_slope (he : 1 < e) {x y : ℝ} (hxy : y ≤ x) :
    (e - 1) * (x - y) ≤ (e * Real.sinh x - x) - (e * Real.sinh y - y) := by
  have d : ∀ t, HasDerivAt (fun t => e * Real.sinh t - t - (e - 1) * t) (e * Real.cosh t - 1 - (e - 1)) t := fun t => by
    refine ((((Real.hasDerivAt_sinh t).const_mul e).fun_sub (hasDerivAt_id' t)).fun_sub
      ((hasDerivAt_id' t).const_mul (e - 1))).congr_deriv ?_
    ring
  have := mono_of_deriv_nonneg (a := y) (b := x) d (fun t _ => by have := hypb_den_pos he t; linarith)
    ⟨le_rfl, hxy⟩ ⟨hxy, le_rfl⟩ hxy
  simp only at this
  linarith

theorem hypb_root_le (he : 1 < e) {r y : ℝ} (hr : e * Real.sinh r - r = N) (hy : 0 ≤ e * Real.sinh y - y - N) : r ≤ y := by
  by_contra h
  push Not at h
  have := hypb_slope he h.le
  nlinarith

theorem hypb_root_nonneg (he : 1 < e) {r : ℝ} (hr : e * Real.sinh r - r = N) (hN : 0 ≤ N) : 0 ≤ r := by
  by_contra h
  push Not at h
  have := hypb_slope he h.le
  simp only [Real.sinh_zero] at this
  nlinarith

/-- The last step, when it goes to the left. -/
theorem hypb_tangent_last (he : 1 < e) (hN : 0 ≤ N) (hx : 0 ≤ x) (hf : 0 ≤ e * Real.sinh x - x - N) {c T r tol : ℝ}
    (hT : |T| * (e * Real.cosh x - 1) ≤ c) (hr : e * Real.sinh r - r = N)
    (hy : e * Real.sinh (x - hypbStep N e x) - (x - hypbStep N e x) - N ≤ tol) :
    |(1 + hypbStep N e x * (e * Real.sinh x) * T) / (e * Real.cosh x - 1) * (e * Real.cosh r - 1) - 1|
      ≤ (c + 1) * hypbKappa e tol + hypbKappa e tol ^ 2 / 4 := by
  have hp : 0 < e * Real.cosh x - 1 := by linarith [hypb_den_pos he x]
  have hX : 0 ≤ Real.sinh x := Real.sinh_nonneg_iff.2 hx
  have hy0 := hypb_residual_nonneg he hN hx
  have htol : 0 ≤ tol := hy0.trans hy
  have hθ := hypb_theta_le he hN hx htol hy
  have hk := hypbKappa_nonneg e tol
  have hku := hypbKappa_use he htol x
  have hr0 := hypb_root_nonneg he hr hN
  have hry := hypb_root_le he hr hy0
  have hsl := hypb_slope he hry
  have hys := hypb_next_nonneg he hN hx
  have h0 : 0 ≤ hypbStep N e x := hypbStep_nonneg he hf
  set s := hypbStep N e x with hs
  rw [abs_of_nonneg h0] at hθ
  have hc1 := cosh_tangent (by linarith : x - s ≤ x)
  have hc2 := cosh_tangent hry
  have hYX : Real.sinh (x - s) ≤ Real.sinh x := Real.sinh_le_sinh.2 (by linarith)
  set κ := hypbKappa e tol
  set p := e * Real.cosh x - 1 with hpdef
  set q := e * Real.cosh r - 1 with hqdef
  set θ := s * (e * Real.sinh x) / p with hθdef
  have hθp : s * (e * Real.sinh x) = θ * p := by rw [hθdef, div_mul_cancel₀ _ hp.ne']
  have θ0 : 0 ≤ θ := by positivity
  have θ1 : θ ≤ κ := (div_le_iff₀ hp).2 hθ
  have hq0 : 0 ≤ q := by linarith [hypb_den_pos he r]
  have hqp : q ≤ p := by
    have : Real.cosh r ≤ Real.cosh x := Real.cosh_le_cosh.2 (by rw [abs_of_nonneg hr0, abs_of_nonneg hx]; linarith)
    rw [hpdef, hqdef]; nlinarith
  have hd : p - q ≤ (κ + κ ^ 2 / 4) * p := by
    have a1 : e * (Real.cosh x - Real.cosh (x - s)) ≤ θ * p := by rw [← hθp]; nlinarith
    have a2 : (x - s - r) * (e - 1) ≤ tol := by linarith
    have a3 : e * (Real.cosh (x - s) - Real.cosh r) ≤ (x - s - r) * (e * Real.sinh x) := by
      have : (x - s - r) * Real.sinh (x - s) ≤ (x - s - r) * Real.sinh x :=
        mul_le_mul_of_nonneg_left hYX (by linarith)
      nlinarith
    have a4 : (x - s - r) * (e * Real.sinh x) ≤ κ ^ 2 / 4 * p := by
      have h1 : 0 < e - 1 := by linarith
      have h2 : 0 ≤ e * Real.sinh x := by positivity
      have := mul_le_mul_of_nonneg_right a2 h2
      refine le_of_mul_le_mul_right ?_ h1
      nlinarith
    have a5 := mul_le_mul_of_nonneg_right θ1 hp.le
    rw [hpdef, hqdef] at *
    nlinarith
  have e1 : (1 + s * (e * Real.sinh x) * T) / p * q - 1 = -((p - q) / p) + θ * (T * p) * (q / p) := by
    rw [hθp]; field_simp; ring
  rw [e1]
  have b1 : |-((p - q) / p)| ≤ κ + κ ^ 2 / 4 := by
    rw [abs_neg, abs_of_nonneg (div_nonneg (by linarith) hp.le), div_le_iff₀ hp]
    exact hd
  have b2 : |θ * (T * p) * (q / p)| ≤ κ * c := by
    rw [abs_mul, abs_mul, abs_mul, abs_of_nonneg θ0, abs_of_pos hp, abs_of_nonneg (div_nonneg hq0 hp.le)]
    have : q / p ≤ 1 := (div_le_one hp).2 hqp
    have hc0 : 0 ≤ |T| * p := by positivity
    calc θ * (|T| * p) * (q / p) ≤ κ * c * 1 := by
          gcongr
          exact mul_nonneg hk (hc0.trans hT)
      _ = κ * c := mul_one _
  calc _ ≤ _ := abs_add_le _ _
    _ ≤ κ + κ ^ 2 / 4 + κ * c := add_le_add b1 b2
    _ = _ := by ring

/-- The last step, when it goes to the right; `η` bounds its length. -/
theorem hypb_tangent_last_right (he : 1 < e) (hN : 0 ≤ N) (hx : 0 ≤ x) (hf : e * Real.sinh x - x - N ≤ 0) {T r tol η : ℝ}
    (hT : |T| * (e * Real.cosh x - 1) ≤ 2) (hr : e * Real.sinh r - r = N)
    (hy : e * Real.sinh (x - hypbStep N e x) - (x - hypbStep N e x) - N ≤ tol) (hη0 : 0 ≤ η) (hη : 6 * tol ≤ η ^ 3)
    (hη1 : η ≤ 1) :
    |(1 + hypbStep N e x * (e * Real.sinh x) * T) / (e * Real.cosh x - 1) * (e * Real.cosh r - 1) - 1|
      ≤ 2 * hypbKappa e tol + η ^ 2 * (e / (e - 1))
        + 2 * hypbKappa e tol * (1 + 2 * hypbKappa e tol + η ^ 2 * (e / (e - 1))) := by
  have hp1 := hypb_den_pos he x
  have hp : 0 < e * Real.cosh x - 1 := by linarith
  have he1 : 0 < e - 1 := by linarith
  have hX : 0 ≤ Real.sinh x := Real.sinh_nonneg_iff.2 hx
  have hC := Real.one_le_cosh x
  have hy0 := hypb_residual_nonneg he hN hx
  have htol : 0 ≤ tol := hy0.trans hy
  have hθ := hypb_theta_le he hN hx htol hy
  have hk := hypbKappa_nonneg e tol
  have hr0 := hypb_root_nonneg he hr hN
  have hry := hypb_root_le he hr hy0
  have hxr : x ≤ r := by
    by_contra h
    push Not at h
    have := hypb_slope he h.le
    nlinarith
  have h0 : hypbStep N e x ≤ 0 := div_nonpos_of_nonpos_of_nonneg hf hp.le
  have hres := hypb_residual he N x
  obtain ⟨δ, hδ⟩ : ∃ δ, hypbStep N e x = -δ := ⟨-hypbStep N e x, by ring⟩
  rw [hδ] at hy hθ hry h0 hres ⊢
  have hδ0 : 0 ≤ δ := by linarith
  rw [abs_neg, abs_of_nonneg hδ0] at hθ
  rw [sub_neg_eq_add] at hy hry hres
  have hδη : δ ≤ η := by
    by_contra h
    push Not at h
    have h3 : η ^ 3 < δ ^ 3 := by gcongr
    have h4 := sinh_rem_right hx hδ0
    have h5 : 0 ≤ δ ^ 2 / 2 * Real.sinh x := by positivity
    have h6 : 0 ≤ δ ^ 3 := by positivity
    nlinarith
  have hδ1 : δ ≤ 1 := hδη.trans hη1
  have hsd := sinh_le_two hδ0 hδ1
  have hcd := cosh_le_sq hδ0 hδ1
  have hcosh : Real.cosh r ≤ Real.cosh (x + δ) :=
    Real.cosh_le_cosh.2 (by rw [abs_of_nonneg hr0, abs_of_nonneg (by linarith)]; exact hry)
  have hcosh' : Real.cosh x ≤ Real.cosh r :=
    Real.cosh_le_cosh.2 (by rw [abs_of_nonneg hr0, abs_of_nonneg hx]; exact hxr)
  rw [Real.cosh_add] at hcosh
  have hep : e * Real.cosh x ≤ e / (e - 1) * (e * Real.cosh x - 1) := by
    rw [div_mul_eq_mul_div, le_div_iff₀ he1]
    nlinarith
  set κ := hypbKappa e tol
  set p := e * Real.cosh x - 1 with hpdef
  set q := e * Real.cosh r - 1 with hqdef
  set K := e / (e - 1) with hK
  have hK0 : 0 ≤ K := by positivity
  set θ := δ * (e * Real.sinh x) / p with hθdef
  have hθp : δ * (e * Real.sinh x) = θ * p := by rw [hθdef, div_mul_cancel₀ _ hp.ne']
  have θ0 : 0 ≤ θ := by positivity
  have θ1 : θ ≤ κ := (div_le_iff₀ hp).2 hθ
  have hpq : p ≤ q := by rw [hpdef, hqdef]; nlinarith
  have hd : q - p ≤ (2 * κ + η ^ 2 * K) * p := by
    have a1 : e * Real.sinh x * Real.sinh δ ≤ 2 * (κ * p) := by
      have : 0 ≤ e * Real.sinh x := by positivity
      nlinarith
    have a2 : e * Real.cosh x * (Real.cosh δ - 1) ≤ η ^ 2 * (K * p) := by
      have h1 : Real.cosh δ - 1 ≤ η ^ 2 := hcd.trans (by gcongr)
      have h2 : 0 ≤ e * Real.cosh x := by positivity
      calc e * Real.cosh x * (Real.cosh δ - 1) ≤ e * Real.cosh x * η ^ 2 := by gcongr
        _ = η ^ 2 * (e * Real.cosh x) := mul_comm _ _
        _ ≤ _ := by gcongr
    have a3 : q - p = e * (Real.cosh r - Real.cosh x) := by rw [hpdef, hqdef]; ring
    rw [a3]
    have : e * (Real.cosh r - Real.cosh x) ≤ e * (Real.cosh x * Real.cosh δ + Real.sinh x * Real.sinh δ - Real.cosh x) := by
      gcongr
    linear_combination this + a1 + a2
  have hd' : (q - p) / p ≤ 2 * κ + η ^ 2 * K := (div_le_iff₀ hp).2 hd
  have hqd : q / p ≤ 1 + 2 * κ + η ^ 2 * K := by
    have : q / p = 1 + (q - p) / p := by field_simp; ring
    linarith
  have e1 : (1 + -δ * (e * Real.sinh x) * T) / p * q - 1 = (q - p) / p + -(θ * (T * p) * (q / p)) := by
    rw [neg_mul, hθp]; field_simp; ring
  rw [e1]
  have b1 : |(q - p) / p| ≤ 2 * κ + η ^ 2 * K := by
    rwa [abs_of_nonneg (div_nonneg (by linarith) hp.le)]
  have hqp0 : 0 ≤ q / p := div_nonneg (by linarith) hp.le
  have b2 : |-(θ * (T * p) * (q / p))| ≤ 2 * κ * (1 + 2 * κ + η ^ 2 * K) := by
    rw [abs_neg, abs_mul, abs_mul, abs_mul, abs_of_nonneg θ0, abs_of_pos hp, abs_of_nonneg hqp0]
    calc θ * (|T| * p) * (q / p) ≤ κ * 2 * (1 + 2 * κ + η ^ 2 * K) := by gcongr
      _ = _ := by ring
  exact (abs_add_le _ _).trans (add_le_add b1 b2)

/-- How large tangent times slope can be after the first step. -/
noncomputable def hypbGrow (e : ℝ) : ℝ :=
  max 2 (max 1 (1 / (2 * (e * (e - 1))) - 1) * ((e * Real.exp (Real.sqrt (1 / (8 * (e * (e - 1))))) - 1) / (e - 1)))

theorem two_le_hypbGrow (e : ℝ) : 2 ≤ hypbGrow e := le_max_left _ _

/-- The first step, when it goes to the right. -/
theorem hypb_tangent_first (he : 1 < e) (hx : 0 ≤ x) (hst : e * Real.sinh x = 2 * N)
    (hf : e * Real.sinh x - x - N ≤ 0) {T : ℝ} (hT0 : 0 ≤ T * (e * Real.cosh x - 1)) (hT : T * (e * Real.cosh x - 1) ≤ 2) :
    |(1 + hypbStep N e x * (e * Real.sinh x) * T) / (e * Real.cosh x - 1)|
      * (e * Real.cosh (x - hypbStep N e x) - 1) ≤ hypbGrow e := by
  have hp : 0 < e * Real.cosh x - 1 := by linarith [hypb_den_pos he x]
  have he1 : 0 < e - 1 := by linarith
  have hX : 0 ≤ Real.sinh x := Real.sinh_nonneg_iff.2 hx
  have hxX : x ≤ Real.sinh x := Real.self_le_sinh_iff.2 hx
  have hC := Real.one_le_cosh x
  have hN : 0 ≤ N := by nlinarith
  have hq := quad_le_cosh hx
  have hm := hypbStep_mul he N x
  have h0 : hypbStep N e x ≤ 0 := div_nonpos_of_nonpos_of_nonneg hf hp.le
  obtain ⟨δ, hδ⟩ : ∃ δ, hypbStep N e x = -δ := ⟨-hypbStep N e x, by ring⟩
  rw [hδ] at hm h0 ⊢
  have hδ0 : 0 ≤ δ := by linarith
  set p := e * Real.cosh x - 1 with hpdef
  have hm' : δ * p = x - N := by linarith
  have hp2 : 2 * (e * (e - 1)) * x ^ 2 ≤ p ^ 2 := by
    have h1 : e - 1 + e * x ^ 2 / 2 ≤ p := by rw [hpdef]; nlinarith
    have h2 : 0 ≤ e - 1 + e * x ^ 2 / 2 := by positivity
    have h3 := pow_le_pow_left₀ h2 h1 2
    nlinarith [sq_nonneg (e - 1 - e * x ^ 2 / 2)]
  have hee : 0 < e * (e - 1) := by positivity
  set θ := δ * (e * Real.sinh x) / p with hθdef
  have hθp : δ * (e * Real.sinh x) = θ * p := by rw [hθdef, div_mul_cancel₀ _ hp.ne']
  have θ0 : 0 ≤ θ := by positivity
  have θ1 : θ ≤ 1 / (4 * (e * (e - 1))) := by
    rw [le_div_iff₀ (by positivity)]
    have h1 : θ * p ^ 2 = (x - N) * (2 * N) := by rw [← hm', ← hst]; linear_combination -p * hθp
    have h2 : θ * p ^ 2 ≤ x ^ 2 / 2 := by rw [h1]; nlinarith [sq_nonneg (x - 2 * N)]
    have h3 : θ * (4 * (e * (e - 1))) * p ^ 2 ≤ 1 * p ^ 2 := by nlinarith
    exact le_of_mul_le_mul_right h3 (by positivity)
  have δ1 : δ ≤ Real.sqrt (1 / (8 * (e * (e - 1)))) := by
    refine Real.le_sqrt_of_sq_le ?_
    rw [le_div_iff₀ (by positivity)]
    have h1 : δ * p ≤ x / 2 := by rw [hm']; nlinarith
    have h2 : (δ * p) ^ 2 ≤ (x / 2) ^ 2 := pow_le_pow_left₀ (by positivity) h1 2
    have h3 : δ ^ 2 * (8 * (e * (e - 1))) * p ^ 2 ≤ 1 * p ^ 2 := by nlinarith
    exact le_of_mul_le_mul_right h3 (by positivity)
  have E1 : Real.exp δ ≤ Real.exp (Real.sqrt (1 / (8 * (e * (e - 1))))) := Real.exp_le_exp.2 δ1
  have E0 : 1 ≤ Real.exp δ := Real.one_le_exp hδ0
  have hcosh : Real.cosh (x - -δ) ≤ Real.cosh x * Real.exp δ := by
    rw [sub_neg_eq_add, Real.cosh_add, ← Real.cosh_add_sinh]
    have := Real.sinh_lt_cosh x
    have := Real.sinh_nonneg_iff.2 hδ0
    nlinarith
  set m := max 1 (1 / (2 * (e * (e - 1))) - 1) with hmdef
  have hm1 : 1 ≤ m := le_max_left _ _
  have hnum : |1 + -δ * (e * Real.sinh x) * T| ≤ m := by
    rw [neg_mul, hθp, show 1 + -(θ * p) * T = 1 - θ * (T * p) by ring, abs_le]
    have h1 : θ * (T * p) ≤ 1 / (2 * (e * (e - 1))) := by
      have : 1 / (2 * (e * (e - 1))) = 1 / (4 * (e * (e - 1))) * 2 := by field_simp; norm_num
      rw [this]
      gcongr
    have h2 : 1 / (2 * (e * (e - 1))) - 1 ≤ m := le_max_right _ _
    have h3 : 0 ≤ θ * (T * p) := by positivity
    constructor <;> linarith
  have hslope : (e * Real.cosh (x - -δ) - 1) ≤ (e * Real.exp δ - 1) / (e - 1) * p := by
    rw [div_mul_eq_mul_div, le_div_iff₀ he1, hpdef]
    have h1 : (e * Real.cosh (x - -δ) - 1) * (e - 1) ≤ (e * (Real.cosh x * Real.exp δ) - 1) * (e - 1) := by gcongr
    have h2 : 0 ≤ e * ((Real.cosh x - 1) * (Real.exp δ - 1)) :=
      mul_nonneg (by linarith) (mul_nonneg (by linarith) (by linarith))
    nlinarith
  have hs0 : 0 ≤ e * Real.cosh (x - -δ) - 1 := by linarith [hypb_den_pos he (x - -δ)]
  rw [abs_div, abs_of_pos hp]
  refine le_trans ?_ (le_max_right _ _)
  calc |1 + -δ * (e * Real.sinh x) * T| / p * (e * Real.cosh (x - -δ) - 1)
      ≤ m / p * ((e * Real.exp δ - 1) / (e - 1) * p) := by gcongr
    _ = m * ((e * Real.exp δ - 1) / (e - 1)) := by field_simp
    _ ≤ m * ((e * Real.exp (Real.sqrt (1 / (8 * (e * (e - 1))))) - 1) / (e - 1)) := by gcongr

end step

/-! ## The iterates and their derivatives -/

section iter
variable {e : ℝ}

/-- The `k`-th iterate of the solver as a function of the mean anomaly. -/
noncomputable def hypbIter (e : ℝ) (k : ℕ) (N : ℝ) : ℝ := (newtonHypb N e)^[k] (hypbStart N e)

theorem hypbIter_succ (e : ℝ) (k : ℕ) (N : ℝ) :
    hypbIter e (k + 1) N = hypbIter e k N - hypbStep N e (hypbIter e k N) := by
  rw [hypbIter, Function.iterate_succ_apply', newtonHypb_step]; rfl

theorem hypbIter_neg (e : ℝ) (k : ℕ) (N : ℝ) : hypbIter e k (-N) = -hypbIter e k N := by
  have : hypbStart (-N) e = -hypbStart N e := by
    rw [hypbStart_eq, hypbStart_eq, ← Real.arsinh_neg]; congr 1; ring
  rw [hypbIter, this, hypb_iter_neg]; rfl

theorem hypbIter_hasDerivAt (he : 1 < e) (k : ℕ) (N : ℝ) :
    HasDerivAt (hypbIter e k)
      (Dual.dot ((newtonHypb (⟨N, some 1⟩ : Dual ℝ) (cst e))^[k] (hypbStart ⟨N, some 1⟩ (cst e)))) N :=
  (C63_hypb_iterate (N := fun s => s) (e := fun _ => e) (Tracks.var N) (Tracks.const e) he k).deriv

theorem hypbIter_deriv_neg (he : 1 < e) (k : ℕ) (N : ℝ) : deriv (hypbIter e k) (-N) = deriv (hypbIter e k) N := by
  have h1 := (hypbIter_hasDerivAt he k (-N)).differentiableAt.hasDerivAt
  have h2 := ((HasDerivAt.scomp N h1 (hasDerivAt_neg N)).fun_neg).deriv
  have h3 : (fun x => -(hypbIter e k ∘ Neg.neg) x) = hypbIter e k := by
    funext x; simp [hypbIter_neg]
  rw [h3] at h2
  rw [h2]; simp

theorem hypbIter_zero_deriv (he : 1 < e) (N : ℝ) :
    deriv (hypbIter e 0) N * (e * Real.cosh (hypbIter e 0 N)) = 2 := by
  have h1 := (hypbIter_hasDerivAt he 0 N).differentiableAt.hasDerivAt
  have h2 := (h1.sinh.const_mul e)
  have h3 : (fun x => e * Real.sinh (hypbIter e 0 x)) = fun x => 2 * x := by
    funext x; exact C52_hypb (by linarith)
  rw [h3] at h2
  have := h2.unique ((hasDerivAt_id' N).const_mul 2)
  linarith

theorem hypbIter_succ_deriv (he : 1 < e) (k : ℕ) (N : ℝ) :
    deriv (hypbIter e (k + 1)) N
      = (1 + hypbStep N e (hypbIter e k N) * (e * Real.sinh (hypbIter e k N)) * deriv (hypbIter e k) N)
        / (e * Real.cosh (hypbIter e k N) - 1) := by
  have h := (hypbIter_hasDerivAt he k N).differentiableAt.hasDerivAt
  have hp : e * Real.cosh (hypbIter e k N) - 1 ≠ 0 := by linarith [hypb_den_pos he (hypbIter e k N)]
  have h1 := h.fun_sub ((((h.sinh.const_mul e).fun_sub h).fun_sub (hasDerivAt_id' N)).fun_div
    ((h.cosh.const_mul e).sub_const 1) hp)
  have h2 : (fun x => hypbIter e k x - (e * Real.sinh (hypbIter e k x) - hypbIter e k x - x)
      / (e * Real.cosh (hypbIter e k x) - 1)) = hypbIter e (k + 1) := by
    funext x; rw [hypbIter_succ, hypbStep]
  rw [h2] at h1
  rw [h1.deriv, hypbStep]
  field_simp
  ring

/-- On the way the iterates stay non-negative, from the first step on beyond the root, and tangent times slope stays
below `hypbGrow e`. -/
theorem hypbIter_inv (he : 1 < e) {N : ℝ} (hN : 0 ≤ N) (k : ℕ) :
    0 ≤ hypbIter e k N ∧
    (1 ≤ k → 0 ≤ e * Real.sinh (hypbIter e k N) - hypbIter e k N - N) ∧
    |deriv (hypbIter e k) N| * (e * Real.cosh (hypbIter e k N) - 1) ≤ hypbGrow e ∧
    (k = 0 → e * Real.sinh (hypbIter e k N) = 2 * N ∧ 0 ≤ deriv (hypbIter e k) N * (e * Real.cosh (hypbIter e k N) - 1) ∧
      deriv (hypbIter e k) N * (e * Real.cosh (hypbIter e k N) - 1) ≤ 2) := by
  induction k with
  | zero =>
    have h0 : e * Real.sinh (hypbIter e 0 N) = 2 * N := C52_hypb (by linarith)
    have h1 : 0 ≤ hypbIter e 0 N := Real.sinh_nonneg_iff.1 (by nlinarith)
    have h2 := hypbIter_zero_deriv he N
    have h3 := hypb_den_pos he (hypbIter e 0 N)
    have h4 : 0 ≤ deriv (hypbIter e 0) N := by
      by_contra h; push Not at h; nlinarith
    have h5 : deriv (hypbIter e 0) N * (e * Real.cosh (hypbIter e 0 N) - 1) ≤ 2 := by linarith
    refine ⟨h1, fun h => by omega, ?_, fun _ => ⟨h0, mul_nonneg h4 (by linarith), h5⟩⟩
    rw [abs_of_nonneg h4]
    exact h5.trans (two_le_hypbGrow e)
  | succ k ih =>
    obtain ⟨i1, i2, i3, i4⟩ := ih
    rw [hypbIter_succ, hypbIter_succ_deriv he]
    refine ⟨hypb_next_nonneg he hN i1, fun _ => hypb_residual_nonneg he hN i1, ?_, fun h => by omega⟩
    rcases le_total 0 (e * Real.sinh (hypbIter e k N) - hypbIter e k N - N) with h | h
    · exact hypb_tangent_keep he hN i1 h (two_le_hypbGrow e) i3
    · rcases k with _ | k
      · obtain ⟨a, b, c⟩ := i4 rfl
        exact hypb_tangent_first he i1 a h b c
      · have h' := i2 (by omega)
        exact hypb_tangent_keep he hN i1 h' (two_le_hypbGrow e) i3

/-- For `e ≥ 2` the starting value is beyond the root and `2` will do. -/
theorem hypbIter_inv_two (he : 2 ≤ e) {N : ℝ} (hN : 0 ≤ N) (k : ℕ) :
    0 ≤ e * Real.sinh (hypbIter e k N) - hypbIter e k N - N ∧
    |deriv (hypbIter e k) N| * (e * Real.cosh (hypbIter e k N) - 1) ≤ 2 := by
  have he1 : 1 < e := by linarith
  induction k with
  | zero =>
    obtain ⟨i1, -, -, i4⟩ := hypbIter_inv he1 hN 0
    obtain ⟨a, b, c⟩ := i4 rfl
    have := Real.self_le_sinh_iff.2 i1
    have hp := hypb_den_pos he1 (hypbIter e 0 N)
    refine ⟨by nlinarith, ?_⟩
    rw [abs_of_nonneg (nonneg_of_mul_nonneg_left b (by linarith))]
    exact c
  | succ k ih =>
    have i1 := (hypbIter_inv he1 hN k).1
    rw [hypbIter_succ, hypbIter_succ_deriv he1]
    exact ⟨hypb_residual_nonneg he1 hN i1, hypb_tangent_keep he1 hN i1 ih.1 le_rfl ih.2⟩

/-- Bound on the relative error; `η` is a bound on the length of a step to the right, `6 tol ≤ η³`. -/
noncomputable def hypbTangentErr (e tol η : ℝ) : ℝ :=
  max ((hypbGrow e + 1) * hypbKappa e tol + hypbKappa e tol ^ 2 / 4)
    (2 * hypbKappa e tol + η ^ 2 * (e / (e - 1)) + 2 * hypbKappa e tol * (1 + 2 * hypbKappa e tol + η ^ 2 * (e / (e - 1))))

theorem hypbIter_error (he : 1 < e) {N : ℝ} (k : ℕ) {r tol η : ℝ} (hr : kepler_equ_hypb r e N = 0)
    (hres : |kepler_equ_hypb (hypbIter e (k + 1) N) e N| ≤ tol) (hη0 : 0 ≤ η) (hη : 6 * tol ≤ η ^ 3) (hη1 : η ≤ 1) :
    |deriv (hypbIter e (k + 1)) N * (e * Real.cosh r - 1) - 1| ≤ hypbTangentErr e tol η := by
  wlog hN : 0 ≤ N generalizing N r
  · have := this (N := -N) (r := -r) (by rw [kep_hypb_eq] at hr ⊢; rw [Real.sinh_neg]; linarith)
      (by
        rw [hypbIter_neg, kep_hypb_eq, Real.sinh_neg]
        rw [kep_hypb_eq, ← abs_neg] at hres
        convert hres using 2
        ring) (by linarith)
    rwa [Real.cosh_neg, hypbIter_deriv_neg he] at this
  rw [kep_hypb_eq] at hr
  have hr' : e * Real.sinh r - r = N := by linarith
  obtain ⟨i1, i2, i3, i4⟩ := hypbIter_inv he hN k
  rw [kep_hypb_eq, hypbIter_succ] at hres
  have hy := (le_abs_self _).trans hres
  rw [hypbIter_succ_deriv he]
  rcases le_total 0 (e * Real.sinh (hypbIter e k N) - hypbIter e k N - N) with h | h
  · exact (hypb_tangent_last he hN i1 h i3 hr' hy).trans (le_max_left _ _)
  · rcases k with _ | k
    · obtain ⟨a, b, c⟩ := i4 rfl
      have hp := hypb_den_pos he (hypbIter e 0 N)
      refine (hypb_tangent_last_right he hN i1 h ?_ hr' hy hη0 hη hη1).trans (le_max_right _ _)
      rwa [abs_of_nonneg (nonneg_of_mul_nonneg_left b (by linarith))]
    · exact (hypb_tangent_last he hN i1 (i2 (by omega)) i3 hr' hy).trans (le_max_left _ _)

theorem hypbIter_error_two (he : 2 ≤ e) {N : ℝ} (k : ℕ) {r tol : ℝ} (hr : kepler_equ_hypb r e N = 0)
    (hres : |kepler_equ_hypb (hypbIter e (k + 1) N) e N| ≤ tol) :
    |deriv (hypbIter e (k + 1)) N * (e * Real.cosh r - 1) - 1| ≤ 3 * hypbKappa e tol + hypbKappa e tol ^ 2 / 4 := by
  have he1 : 1 < e := by linarith
  wlog hN : 0 ≤ N generalizing N r
  · have := this (N := -N) (r := -r) (by rw [kep_hypb_eq] at hr ⊢; rw [Real.sinh_neg]; linarith)
      (by
        rw [hypbIter_neg, kep_hypb_eq, Real.sinh_neg]
        rw [kep_hypb_eq, ← abs_neg] at hres
        convert hres using 2
        ring) (by linarith)
    rwa [Real.cosh_neg, hypbIter_deriv_neg he1] at this
  rw [kep_hypb_eq] at hr
  have hr' : e * Real.sinh r - r = N := by linarith
  obtain ⟨i1, i2⟩ := hypbIter_inv_two he hN k
  rw [kep_hypb_eq, hypbIter_succ] at hres
  rw [hypbIter_succ_deriv he1]
  have := hypb_tangent_last he1 hN (hypbIter_inv he1 hN k).1 i1 i2 hr' ((le_abs_self _).trans hres)
  linarith

theorem hypb_run_iter (he : 1 < e) {N tol : ℝ} {n : ℕ} {d : Dual ℝ}
    (hd : solve_kepler_hypb ⟨N, some 1⟩ (cst e) (cst tol) n = some d)
    (hstart : tol < |kepler_equ_hypb (hypbStart N e) e N|) (hres : |kepler_equ_hypb d.val e N| ≤ tol) :
    ∃ k, d.val = hypbIter e (k + 1) N ∧ Dual.dot d = deriv (hypbIter e (k + 1)) N := by
  obtain ⟨k, hk, hr, -, -⟩ := hypb_dual (s := N) (N := fun s => s) (e := fun _ => e) (Tracks.var N).val
    (Tracks.const (s := N) e).val tol n
  have ht := C63_hypb_iterate (N := fun s => s) (e := fun _ => e) (Tracks.var N) (Tracks.const e) he k
  have h1 := Option.some.inj (hd.symm.trans hr)
  have hv : d.val = hypbIter e k N := by rw [h1]; exact ht.val
  rcases k with _ | k
  · rw [hv] at hres
    exact absurd hres (not_le.2 hstart)
  · exact ⟨k, hv, by rw [h1]; exact (hypbIter_hasDerivAt he (k + 1) N).deriv.symm⟩

theorem rel_of_slope {q D B : ℝ} (hq : 0 < q) (h : |D * q - 1| ≤ B) : |D - 1 / q| ≤ B * (1 / q) := by
  rw [show D - 1 / q = (D * q - 1) * (1 / q) by field_simp, abs_mul, abs_of_pos (by positivity : 0 < 1 / q)]
  gcongr

/-- C63 for the hyperbolic solver: whenever the loop makes a step and the result meets the tolerance, the tangent that comes
out is the derivative of the hyperbolic anomaly with respect to the mean anomaly up to a relative error `hypbTangentErr`,
of the order of the square root of the tolerance. For every `e > 1`, mean anomaly, tolerance and iteration limit. -/
theorem C63_hypb_stopped (he : 1 < e) {N tol η : ℝ} {n : ℕ} {d : Dual ℝ} {Hs : ℝ → ℝ}
    (hη0 : 0 ≤ η) (hη : 6 * tol ≤ η ^ 3) (hη1 : η ≤ 1)
    (hd : solve_kepler_hypb ⟨N, some 1⟩ (cst e) (cst tol) n = some d)
    (hstart : tol < |kepler_equ_hypb (hypbStart N e) e N|) (hres : |kepler_equ_hypb d.val e N| ≤ tol)
    (hroot : ∀ᶠ x in nhds N, kepler_equ_hypb (Hs x) e x = 0) :
    ∃ D, HasDerivAt Hs D N ∧ 0 < D ∧ |Dual.dot d - D| ≤ hypbTangentErr e tol η * D := by
  obtain ⟨k, hv, hdot⟩ := hypb_run_iter he hd hstart hres
  have hq : 0 < e * Real.cosh (Hs N) - 1 := by linarith [hypb_den_pos he (Hs N)]
  refine ⟨_, hypb_root_deriv he hroot, by positivity, ?_⟩
  rw [hv] at hres
  rw [hdot]
  exact rel_of_slope hq (hypbIter_error he k hroot.self_of_nhds hres hη0 hη hη1)

/-- The same for `e ≥ 2`, with a simpler bound. -/
theorem C63_hypb_stopped_two (he : 2 ≤ e) {N tol : ℝ} {n : ℕ} {d : Dual ℝ} {Hs : ℝ → ℝ}
    (hd : solve_kepler_hypb ⟨N, some 1⟩ (cst e) (cst tol) n = some d)
    (hstart : tol < |kepler_equ_hypb (hypbStart N e) e N|) (hres : |kepler_equ_hypb d.val e N| ≤ tol)
    (hroot : ∀ᶠ x in nhds N, kepler_equ_hypb (Hs x) e x = 0) :
    ∃ D, HasDerivAt Hs D N ∧ 0 < D ∧ |Dual.dot d - D| ≤ (3 * hypbKappa e tol + hypbKappa e tol ^ 2 / 4) * D := by
  have he1 : 1 < e := by linarith
  obtain ⟨k, hv, hdot⟩ := hypb_run_iter he1 hd hstart hres
  have hq : 0 < e * Real.cosh (Hs N) - 1 := by linarith [hypb_den_pos he1 (Hs N)]
  refine ⟨_, hypb_root_deriv he1 hroot, by positivity, ?_⟩
  rw [hv] at hres
  rw [hdot]
  exact rel_of_slope hq (hypbIter_error_two he k hroot.self_of_nhds hres)

theorem hypbKappa_le (he : 1 < e) {tol a b k : ℝ} (htol : 0 ≤ tol) (ha : e / (e - 1) ≤ a) (hb : 0 < b)
    (hb2 : b ^ 2 ≤ e ^ 2 - 1) (hk : 0 ≤ k) (h : 4 * tol * a ≤ k ^ 2 * b) : hypbKappa e tol ≤ k := by
  have he1 : 0 < e - 1 := by linarith
  have hs : b ≤ Real.sqrt (e ^ 2 - 1) := Real.le_sqrt_of_sq_le hb2
  have h0 : 0 ≤ e / (e - 1) := by positivity
  refine le_of_sq_le_sq ?_ hk
  have h1 := hypbKappa_sq he htol
  have h2 : e / ((e - 1) * Real.sqrt (e ^ 2 - 1)) ≤ a / b := by
    rw [← div_div]
    exact div_le_div₀ (h0.trans ha) ha hb hs
  have h3 : tol * (a / b) ≤ k ^ 2 / 4 := by
    rw [mul_div_assoc', div_le_iff₀ hb]; linarith
  have h4 := mul_le_mul_of_nonneg_left h2 htol
  linarith

theorem hypbGrow_le (he : 1 < e) {e₀ m E g c : ℝ} (h0 : 1 < e₀) (hle : e₀ ≤ e) (hm : 1 ≤ m)
    (hm2 : 1 / (2 * (e₀ * (e₀ - 1))) - 1 ≤ m) (hg0 : 0 ≤ g) (hg : 1 / (8 * (e₀ * (e₀ - 1))) ≤ g ^ 2) (hE : Real.exp g ≤ E)
    (hc : 2 ≤ c) (hcm : m * (E + (E - 1) / (e₀ - 1)) ≤ c) : hypbGrow e ≤ c := by
  have he1 : 0 < e - 1 := by linarith
  have h01 : 0 < e₀ - 1 := by linarith
  have hee : e₀ * (e₀ - 1) ≤ e * (e - 1) := by gcongr
  have hp : 0 < e₀ * (e₀ - 1) := by positivity
  have hmm : max 1 (1 / (2 * (e * (e - 1))) - 1) ≤ m := by
    refine max_le hm (le_trans ?_ hm2)
    gcongr
  have hs : Real.sqrt (1 / (8 * (e * (e - 1)))) ≤ g := by
    refine Real.sqrt_le_iff.2 ⟨hg0, le_trans ?_ hg⟩
    gcongr
  have hx : Real.exp (Real.sqrt (1 / (8 * (e * (e - 1))))) ≤ E := (Real.exp_le_exp.2 hs).trans hE
  set F := Real.exp (Real.sqrt (1 / (8 * (e * (e - 1)))))
  have hF1 : 1 ≤ F := Real.one_le_exp (Real.sqrt_nonneg _)
  have hq : (e * F - 1) / (e - 1) ≤ E + (E - 1) / (e₀ - 1) := by
    have : (e * F - 1) / (e - 1) = F + (F - 1) / (e - 1) := by field_simp; ring
    rw [this]
    have : (F - 1) / (e - 1) ≤ (E - 1) / (e₀ - 1) := div_le_div₀ (by linarith) (by linarith) h01 (by linarith)
    linarith
  refine max_le hc (le_trans ?_ hcm)
  have : 0 ≤ (e * F - 1) / (e - 1) := div_nonneg (by nlinarith) he1.le
  gcongr

theorem hypbTangentErr_le {tol η κ c K B : ℝ} (hκ : hypbKappa e tol ≤ κ) (hc : hypbGrow e ≤ c) (hK0 : 0 ≤ e / (e - 1))
    (hK : e / (e - 1) ≤ K) (h1 : (c + 1) * κ + κ ^ 2 / 4 ≤ B)
    (h2 : 2 * κ + η ^ 2 * K + 2 * κ * (1 + 2 * κ + η ^ 2 * K) ≤ B) : hypbTangentErr e tol η ≤ B := by
  have hk := hypbKappa_nonneg e tol
  have hg := two_le_hypbGrow e
  refine max_le (le_trans ?_ h1) (le_trans ?_ h2)
  · gcongr
    linarith
  · gcongr
    linarith

/-- With the default settings the loop ends with the residual within the tolerance (C18). -/
theorem hypb_default_run {N : ℝ} (he : 2001 / 2000 ≤ e) (hN : |N| ≤ 10 ^ 300) :
    ∃ d, solve_kepler_hypb (⟨N, some 1⟩ : Dual ℝ) (cst e) = some d ∧ |kepler_equ_hypb d.val e N| ≤ 1 / 10 ^ 6 := by
  obtain ⟨H, h1, h2⟩ := C18_hypb_default_low_partial he N hN 50 (by norm_num)
  have htol : (defaultTol : ℝ) = 1 / 1000000 := by norm_num [defaultTol]
  obtain ⟨k, hk, hd, h3, h4⟩ := hypb_dual (s := N) (N := fun s => s) (e := fun _ => e) (Tracks.var N).val
    (Tracks.const (s := N) e).val defaultTol 50
  have ht := C63_hypb_iterate (N := fun s => s) (e := fun _ => e) (Tracks.var N) (Tracks.const e) (by linarith) k
  refine ⟨_, hd, ?_⟩
  rw [ht.val]
  have h5 : solve_kepler_hypb N e defaultTol 50 = some ((newtonHypb N e)^[k] (hypbStart N e)) :=
    hypb_of_tests hk (fun j hj => by simpa using h3 j hj) (fun h => by simpa using h4 h)
  rw [h5] at h1
  rw [Option.some.inj h1]
  norm_num
  linarith

theorem hypb_default_error {N B : ℝ} (he : 2001 / 2000 ≤ e) (hN : |N| ≤ 10 ^ 300)
    (hB : ∀ d : Dual ℝ, ∀ Hs : ℝ → ℝ, solve_kepler_hypb (⟨N, some 1⟩ : Dual ℝ) (cst e) (cst defaultTol) 50 = some d →
      defaultTol < |kepler_equ_hypb (hypbStart N e) e N| → |kepler_equ_hypb d.val e N| ≤ defaultTol →
      (∀ᶠ x in nhds N, kepler_equ_hypb (Hs x) e x = 0) →
      ∃ D, HasDerivAt Hs D N ∧ 0 < D ∧ |Dual.dot d - D| ≤ B * D) :
    ∃ d, solve_kepler_hypb (⟨N, some 1⟩ : Dual ℝ) (cst e) = some d ∧ |kepler_equ_hypb d.val e N| ≤ 1 / 10 ^ 6 ∧
      (1 / 10 ^ 6 < |kepler_equ_hypb (hypbStart N e) e N| → ∀ Hs : ℝ → ℝ,
        (∀ᶠ x in nhds N, kepler_equ_hypb (Hs x) e x = 0) →
        ∃ D, HasDerivAt Hs D N ∧ 0 < D ∧ |Dual.dot d - D| ≤ B * D) := by
  obtain ⟨d, h1, h2⟩ := hypb_default_run he hN
  have htol : (defaultTol : ℝ) = 1 / 10 ^ 6 := by norm_num [defaultTol]
  exact ⟨d, h1, h2, fun hs Hs hHs => hB d Hs h1 (by rw [htol]; exact hs) (by rw [htol]; exact h2) hHs⟩

/-- C63, hyperbolic solver with the default settings and `e ≥ 2`: the result meets the tolerance, and if at least one step
was made, forward mode returns the derivative with respect to the mean anomaly up to a relative error of `1/150`. -/
theorem C63_hypb_default_2_partial {N : ℝ} (he : 2 ≤ e) (hN : |N| ≤ 10 ^ 300) :
    ∃ d, solve_kepler_hypb (⟨N, some 1⟩ : Dual ℝ) (cst e) = some d ∧ |kepler_equ_hypb d.val e N| ≤ 1 / 10 ^ 6 ∧
      (1 / 10 ^ 6 < |kepler_equ_hypb (hypbStart N e) e N| → ∀ Hs : ℝ → ℝ,
        (∀ᶠ x in nhds N, kepler_equ_hypb (Hs x) e x = 0) →
        ∃ D, HasDerivAt Hs D N ∧ 0 < D ∧ |Dual.dot d - D| ≤ 1 / 150 * D) := by
  have htol : (defaultTol : ℝ) = 1 / 10 ^ 6 := by norm_num [defaultTol]
  refine hypb_default_error (by linarith) hN fun d Hs h1 h2 h3 h4 => ?_
  obtain ⟨D, a, b, c⟩ := C63_hypb_stopped_two he h1 h2 h3 h4
  refine ⟨D, a, b, c.trans ?_⟩
  have hκ : hypbKappa e defaultTol ≤ 22 / 10 ^ 4 := by
    refine hypbKappa_le (a := 2) (b := 17 / 10) (by linarith) (by rw [htol]; norm_num) ?_ (by norm_num) (by nlinarith)
      (by norm_num) (by rw [htol]; norm_num)
    rw [div_le_iff₀ (by linarith)]; linarith
  have h0 := hypbKappa_nonneg e defaultTol
  gcongr
  nlinarith

/-- The same for `e ≥ 3/2`, with `1/40`. -/
theorem C63_hypb_default_15_partial {N : ℝ} (he : 3 / 2 ≤ e) (hN : |N| ≤ 10 ^ 300) :
    ∃ d, solve_kepler_hypb (⟨N, some 1⟩ : Dual ℝ) (cst e) = some d ∧ |kepler_equ_hypb d.val e N| ≤ 1 / 10 ^ 6 ∧
      (1 / 10 ^ 6 < |kepler_equ_hypb (hypbStart N e) e N| → ∀ Hs : ℝ → ℝ,
        (∀ᶠ x in nhds N, kepler_equ_hypb (Hs x) e x = 0) →
        ∃ D, HasDerivAt Hs D N ∧ 0 < D ∧ |Dual.dot d - D| ≤ 1 / 40 * D) := by
  have htol : (defaultTol : ℝ) = 1 / 10 ^ 6 := by norm_num [defaultTol]
  refine hypb_default_error (by linarith) hN fun d Hs h1 h2 h3 h4 => ?_
  obtain ⟨D, a, b, c⟩ := C63_hypb_stopped (η := 1 / 54) (by linarith) (by norm_num) (by rw [htol]; norm_num) (by norm_num)
    h1 h2 h3 h4
  refine ⟨D, a, b, c.trans ?_⟩
  have hK : e / (e - 1) ≤ 3 := by rw [div_le_iff₀ (by linarith)]; linarith
  have hκ : hypbKappa e defaultTol ≤ 33 / 10 ^ 4 :=
    hypbKappa_le (a := 3) (b := 111 / 100) (by linarith) (by rw [htol]; norm_num) hK (by norm_num) (by nlinarith)
      (by norm_num) (by rw [htol]; norm_num)
  have hE : Real.exp (41 / 100) ≤ 151 / 100 := by
    refine (Real.exp_bound' (n := 5) (by norm_num) (by norm_num) (by norm_num)).trans ?_
    norm_num [Finset.sum_range_succ, Nat.factorial]
  have hc : hypbGrow e ≤ 26 / 10 :=
    hypbGrow_le (e₀ := 3 / 2) (m := 1) (E := 151 / 100) (g := 41 / 100) (by linarith) (by norm_num) he le_rfl (by norm_num)
      (by norm_num) (by norm_num) hE (by norm_num) (by norm_num)
  gcongr
  exact hypbTangentErr_le hκ hc (div_nonneg (by linarith) (by linarith)) hK (by norm_num) (by norm_num)

/-- The same for `e ≥ 6/5`, with `3/50`. -/
theorem C63_hypb_default_12_partial {N : ℝ} (he : 6 / 5 ≤ e) (hN : |N| ≤ 10 ^ 300) :
    ∃ d, solve_kepler_hypb (⟨N, some 1⟩ : Dual ℝ) (cst e) = some d ∧ |kepler_equ_hypb d.val e N| ≤ 1 / 10 ^ 6 ∧
      (1 / 10 ^ 6 < |kepler_equ_hypb (hypbStart N e) e N| → ∀ Hs : ℝ → ℝ,
        (∀ᶠ x in nhds N, kepler_equ_hypb (Hs x) e x = 0) →
        ∃ D, HasDerivAt Hs D N ∧ 0 < D ∧ |Dual.dot d - D| ≤ 3 / 50 * D) := by
  have htol : (defaultTol : ℝ) = 1 / 10 ^ 6 := by norm_num [defaultTol]
  refine hypb_default_error (by linarith) hN fun d Hs h1 h2 h3 h4 => ?_
  obtain ⟨D, a, b, c⟩ := C63_hypb_stopped (η := 1 / 54) (by linarith) (by norm_num) (by rw [htol]; norm_num) (by norm_num)
    h1 h2 h3 h4
  refine ⟨D, a, b, c.trans ?_⟩
  have hK : e / (e - 1) ≤ 6 := by rw [div_le_iff₀ (by linarith)]; linarith
  have hκ : hypbKappa e defaultTol ≤ 61 / 10 ^ 4 :=
    hypbKappa_le (a := 6) (b := 66 / 100) (by linarith) (by rw [htol]; norm_num) hK (by norm_num) (by nlinarith)
      (by norm_num) (by rw [htol]; norm_num)
  have hE : Real.exp (723 / 1000) ≤ 207 / 100 := by
    refine (Real.exp_bound' (n := 6) (by norm_num) (by norm_num) (by norm_num)).trans ?_
    norm_num [Finset.sum_range_succ, Nat.factorial]
  have hc : hypbGrow e ≤ 82 / 10 :=
    hypbGrow_le (e₀ := 6 / 5) (m := 11 / 10) (E := 207 / 100) (g := 723 / 1000) (by linarith) (by norm_num) he (by norm_num)
      (by norm_num) (by norm_num) (by norm_num) hE (by norm_num) (by norm_num)
  gcongr
  exact hypbTangentErr_le hκ hc (div_nonneg (by linarith) (by linarith)) hK (by norm_num) (by norm_num)

/-- A case meeting the hypotheses: `e = 2`, `N = 4`. The starting value `H` has `sinh H = 4`, so its residual `4 - H` is well
above the tolerance and a step is made. -/
theorem hypb_step_made : 1 / 10 ^ 6 < |kepler_equ_hypb (hypbStart (4 : ℝ) 2) 2 4| := by
  have h := C52_hypb (N := 4) (e := 2) two_ne_zero
  have h1 : hypbStart (4 : ℝ) 2 ≤ 3 := by
    by_contra hc
    push Not at hc
    have : Real.sinh 3 < Real.sinh (hypbStart (4 : ℝ) 2) := Real.sinh_lt_sinh.2 hc
    have h3 : 3 + 3 ^ 3 / 6 ≤ Real.sinh 3 := by
      have := sinh_rem_right (x := 0) (d := 3) le_rfl (by norm_num)
      simp at this
      linarith
    linarith
  rw [kep_hypb_eq, h]
  exact lt_of_lt_of_le (by norm_num) (le_trans (by linarith : (1 : ℝ) ≤ _) (le_abs_self _))

example : ∃ Hs : ℝ → ℝ, (∀ x, kepler_equ_hypb (Hs x) 2 x = 0) ∧
    ∃ d D, solve_kepler_hypb (⟨4, some 1⟩ : Dual ℝ) (cst 2) = some d ∧ HasDerivAt Hs D 4 ∧ |Dual.dot d - D| ≤ 1 / 150 * D := by
  have h : ∀ x : ℝ, ∃ H : ℝ, kepler_equ_hypb H 2 x = 0 := fun x =>
    (existsUnique_root one_pos (fun H => hasDerivAt_hypb H 2 x)
      (fun H => by have := dH_ge (by norm_num : (0 : ℝ) ≤ 2) H; linarith) 0).exists
  choose Hs hHs using h
  obtain ⟨d, h1, -, h2⟩ := C63_hypb_default_2_partial (e := 2) (N := 4) le_rfl
    (by
      rw [abs_of_pos (by norm_num)]
      exact le_trans (by norm_num : (4 : ℝ) ≤ 10 ^ 1) (pow_le_pow_right₀ (by norm_num) (by norm_num)))
  obtain ⟨D, h3, -, h4⟩ := h2 hypb_step_made Hs (.of_forall hHs)
  exact ⟨Hs, hHs, d, D, h1, h3, h4⟩

end iter
end Adx
