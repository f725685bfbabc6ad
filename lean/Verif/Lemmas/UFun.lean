import Verif.Spec.UFun
import Mathlib.Analysis.SpecialFunctions.Trigonometric.Series
import Mathlib.Analysis.Calculus.SmoothSeries
import Mathlib.Analysis.Calculus.Deriv.Pow
import Mathlib.Analysis.Calculus.MeanValue
import Mathlib.Analysis.SpecialFunctions.Exponential
import Mathlib.Tactic.Ring
import Mathlib.Tactic.FieldSimp
import Mathlib.Tactic.Linarith
import Mathlib.Tactic.Positivity
import Mathlib.Tactic.LinearCombination

/-! # Facts about the universal-function series -/

namespace Adx.Spec
open Nat

theorem summable_stumpff (n : ℕ) (z : ℝ) : Summable fun k : ℕ => z ^ k / ((n + 2 * k)! : ℝ) := by
  refine Summable.of_norm_bounded (Real.summable_pow_div_factorial |z|) fun k => ?_
  rw [norm_div, norm_pow, Real.norm_eq_abs, Real.norm_eq_abs, Nat.abs_cast]
  gcongr
  omega

theorem stumpff_rec (n : ℕ) (z : ℝ) :
    stumpff n z = 1 / (n ! : ℝ) + z * stumpff (n + 2) z := by
  unfold stumpff
  rw [(summable_stumpff n z).tsum_eq_zero_add, ← tsum_mul_left]
  simp only [pow_zero, mul_zero, add_zero]
  congr 1
  refine tsum_congr fun k => ?_
  rw [show n + 2 * (k + 1) = n + 2 + 2 * k by ring]; ring

theorem stumpff_zero (n : ℕ) : stumpff n 0 = 1 / (n ! : ℝ) := by
  rw [stumpff_rec]; ring

/-- The derivative of the series. -/
theorem hasDerivAt_stumpff (n : ℕ) (z : ℝ) :
    HasDerivAt (stumpff n) ((stumpff (n + 1) z - n * stumpff (n + 2) z) / 2) z := by
  set R : ℝ := |z| + 1 with hR
  have hR0 : 0 < R := by positivity
  set u : ℕ → ℝ := fun k => (k : ℝ) * R ^ (k - 1) / ((n + 2 * k)! : ℝ) with hu
  have hsu : Summable u := by
    rw [← summable_nat_add_iff 1]
    refine Summable.of_nonneg_of_le (fun k => by simp only [hu]; positivity) (fun k => ?_)
      (Real.summable_pow_div_factorial R)
    simp only [hu, Nat.add_sub_cancel]
    rw [div_le_div_iff₀ (by positivity) (by positivity)]
    have h1 : ((k + 1 : ℕ) : ℝ) * (k ! : ℝ) ≤ ((n + 2 * (k + 1))! : ℝ) := by
      rw [← Nat.cast_mul, ← Nat.factorial_succ]
      exact_mod_cast Nat.factorial_le (by omega)
    calc ((k + 1 : ℕ) : ℝ) * R ^ k * (k ! : ℝ) = R ^ k * (((k + 1 : ℕ) : ℝ) * (k ! : ℝ)) := by ring
      _ ≤ R ^ k * ((n + 2 * (k + 1))! : ℝ) := by gcongr
  have key := hasDerivAt_tsum_of_isPreconnected (u := u) (t := Metric.ball (0 : ℝ) R)
    (g := fun k y => y ^ k / ((n + 2 * k)! : ℝ))
    (g' := fun k y => (k : ℝ) * y ^ (k - 1) / ((n + 2 * k)! : ℝ)) (y₀ := 0) (y := z)
    hsu Metric.isOpen_ball (convex_ball _ _).isPreconnected
    (fun k y _ => by simpa using (hasDerivAt_pow k y).div_const ((n + 2 * k)! : ℝ))
    (fun k y hy => by
      have hy' : |y| ≤ R := by
        have := Metric.mem_ball.1 hy
        rw [Real.dist_eq, sub_zero] at this; exact this.le
      rw [norm_div, norm_mul, norm_pow, Real.norm_eq_abs, Real.norm_eq_abs, Real.norm_eq_abs,
        Nat.abs_cast, Nat.abs_cast]
      simp only [hu]; gcongr)
    (by simpa using hR0) (summable_stumpff n 0)
    (by rw [Metric.mem_ball, Real.dist_eq, sub_zero, hR]; linarith)
  have hsum : ∑' k : ℕ, (k : ℝ) * z ^ (k - 1) / ((n + 2 * k)! : ℝ)
      = (stumpff (n + 1) z - n * stumpff (n + 2) z) / 2 := by
    have hs : Summable fun k : ℕ => (k : ℝ) * z ^ (k - 1) / ((n + 2 * k)! : ℝ) := by
      refine Summable.of_norm_bounded hsu fun k => ?_
      rw [norm_div, norm_mul, norm_pow, Real.norm_eq_abs, Real.norm_eq_abs, Real.norm_eq_abs,
        Nat.abs_cast, Nat.abs_cast]
      simp only [hu]; gcongr; rw [hR]; linarith
    rw [hs.tsum_eq_zero_add]
    simp only [Nat.cast_zero, zero_mul, zero_div, zero_add, Nat.add_sub_cancel]
    unfold stumpff
    rw [← tsum_mul_left, ← (summable_stumpff (n + 1) z).tsum_sub ((summable_stumpff (n + 2) z).mul_left _),
      ← tsum_div_const]
    refine tsum_congr fun k => ?_
    rw [show n + 2 * (k + 1) = (n + 1 + 2 * k) + 1 by ring, show n + 2 + 2 * k = (n + 1 + 2 * k) + 1 by ring,
      Nat.factorial_succ]
    have h0 : ((n + 1 + 2 * k)! : ℝ) ≠ 0 := by positivity
    have h1 : ((n : ℝ) + 1 + 2 * k + 1) ≠ 0 := by positivity
    push_cast
    field_simp
    ring
  rw [hsum] at key
  exact key

theorem stumpff_lower (n : ℕ) (z : ℝ) :
    (n + 1) * stumpff (n + 1) z + z * (stumpff (n + 2) z - (n + 1) * stumpff (n + 3) z)
      = stumpff n z := by
  have h1 := stumpff_rec n z
  have h2 := stumpff_rec (n + 1) z
  rw [Nat.factorial_succ] at h2
  rw [h1, h2]
  have h0 : (n ! : ℝ) ≠ 0 := by positivity
  have h3 : (n : ℝ) + 1 ≠ 0 := by positivity
  push_cast
  field_simp
  ring

theorem stumpff_cos (x : ℝ) : stumpff 0 (-x ^ 2) = Real.cos x := by
  rw [Real.cos_eq_tsum, stumpff]
  refine tsum_congr fun k => ?_
  rw [zero_add, neg_pow, ← pow_mul]

theorem stumpff_sin (x : ℝ) : x * stumpff 1 (-x ^ 2) = Real.sin x := by
  rw [Real.sin_eq_tsum, stumpff, ← tsum_mul_left]
  refine tsum_congr fun k => ?_
  rw [add_comm 1, neg_pow, ← pow_mul]; ring

theorem stumpff_cosh (x : ℝ) : stumpff 0 (x ^ 2) = Real.cosh x := by
  rw [Real.cosh_eq_tsum, stumpff]
  refine tsum_congr fun k => ?_
  rw [zero_add, ← pow_mul]

theorem stumpff_sinh (x : ℝ) : x * stumpff 1 (x ^ 2) = Real.sinh x := by
  rw [Real.sinh_eq_tsum, stumpff, ← tsum_mul_left]
  refine tsum_congr fun k => ?_
  rw [add_comm 1, ← pow_mul]; ring

/-! ### The `U` family -/

theorem U_rec (n : ℕ) (χ α : ℝ) : U n χ α + α * U (n + 2) χ α = χ ^ n / (n ! : ℝ) := by
  unfold U; rw [stumpff_rec n]; ring

theorem U_zero_right (n : ℕ) (χ : ℝ) : U n χ 0 = χ ^ n / (n ! : ℝ) := by
  have := U_rec n χ 0; simpa using this

/-- `U n` as a jointly differentiable function, along any curve. -/
theorem hasDerivAt_U_curve (n : ℕ) {f g : ℝ → ℝ} {f' g' s : ℝ} (hf : HasDerivAt f f' s)
    (hg : HasDerivAt g g' s) :
    HasDerivAt (fun s => U (n + 1) (f s) (g s))
      (U n (f s) (g s) * f'
        + ((n + 1) * U (n + 3) (f s) (g s) - f s * U (n + 2) (f s) (g s)) / 2 * g') s := by
  have hz : HasDerivAt (fun s => -(g s * f s ^ 2)) (-(g' * f s ^ 2 + g s * (2 * f s * f'))) s := by
    refine (hg.fun_mul (hf.fun_pow 2)).fun_neg.congr_deriv ?_
    push_cast; ring
  have h := (hf.fun_pow (n + 1)).fun_mul ((hasDerivAt_stumpff (n + 1) _).comp s hz)
  refine h.congr_deriv ?_
  simp only [U, Function.comp_apply, Nat.add_sub_cancel]
  have hl := stumpff_lower n (-(g s * f s ^ 2))
  rw [← hl]
  push_cast
  ring

theorem hasDerivAt_U0_curve {f g : ℝ → ℝ} {f' g' s : ℝ} (hf : HasDerivAt f f' s)
    (hg : HasDerivAt g g' s) :
    HasDerivAt (fun s => U 0 (f s) (g s))
      (-(g s * U 1 (f s) (g s)) * f' - f s * U 1 (f s) (g s) / 2 * g') s := by
  have hz : HasDerivAt (fun s => -(g s * f s ^ 2)) (-(g' * f s ^ 2 + g s * (2 * f s * f'))) s := by
    refine (hg.fun_mul (hf.fun_pow 2)).fun_neg.congr_deriv ?_
    push_cast; ring
  have h := ((hasDerivAt_stumpff 0 _).comp s hz)
  have hf0 : (fun s => U 0 (f s) (g s)) = stumpff 0 ∘ fun s => -(g s * f s ^ 2) := by
    funext s; simp [U]
  rw [hf0]
  refine h.congr_deriv ?_
  simp only [U]
  push_cast
  ring

theorem hasDerivAt_U_chi (n : ℕ) (χ α : ℝ) : HasDerivAt (fun x => U (n + 1) x α) (U n χ α) χ := by
  have := hasDerivAt_U_curve n (hasDerivAt_id χ) (hasDerivAt_const χ α)
  simpa using this

theorem hasDerivAt_U0_chi (χ α : ℝ) : HasDerivAt (fun x => U 0 x α) (-(α * U 1 χ α)) χ := by
  have := hasDerivAt_U0_curve (hasDerivAt_id χ) (hasDerivAt_const χ α)
  simpa using this

theorem U_neg_left (n : ℕ) (χ α : ℝ) : U n (-χ) α = (-1) ^ n * U n χ α := by
  unfold U; rw [neg_pow χ n, neg_sq]; ring

theorem U_scale (n : ℕ) {s : ℝ} (hs : s ≠ 0) (χ α : ℝ) : U n (s * χ) (α / s ^ 2) = s ^ n * U n χ α := by
  unfold U
  rw [show α / s ^ 2 * (s * χ) ^ 2 = α * χ ^ 2 by field_simp]; ring

theorem U_zero_left (n : ℕ) (α : ℝ) : U n 0 α = if n = 0 then 1 else 0 := by
  unfold U
  rcases n with _ | n
  · simp [stumpff_zero]
  · simp

/-- `U0² + α U1² = 1` -/
theorem U_pythagoras (χ α : ℝ) : U 0 χ α ^ 2 + α * U 1 χ α ^ 2 = 1 := by
  have hd : ∀ x, HasDerivAt (fun x => U 0 x α ^ 2 + α * U 1 x α ^ 2) 0 x := by
    intro x
    have h0 := (hasDerivAt_U0_chi x α).fun_pow 2
    have h1 := ((hasDerivAt_U_chi 0 x α).fun_pow 2).const_mul α
    refine (h0.fun_add h1).congr_deriv ?_
    norm_num; ring
  have hc := is_const_of_deriv_eq_zero (fun x => (hd x).differentiableAt) (fun x => (hd x).deriv) χ 0
  rw [hc, U_zero_left, U_zero_left]; norm_num

/-- Addition formulas in χ. -/
theorem U_add (χ ψ α : ℝ) :
    U 0 (χ + ψ) α = U 0 χ α * U 0 ψ α - α * U 1 χ α * U 1 ψ α ∧
    U 1 (χ + ψ) α = U 0 χ α * U 1 ψ α + U 1 χ α * U 0 ψ α := by
  -- f(x) = U(x) "times" U(χ+ψ-x) is constant
  have hsub : ∀ x, HasDerivAt (fun x : ℝ => χ + ψ - x) (-1) x := fun x => by
    simpa using (hasDerivAt_id x).const_sub (χ + ψ)
  have d0 : ∀ x, HasDerivAt (fun x => U 0 (χ + ψ - x) α) (α * U 1 (χ + ψ - x) α) x := fun x => by
    have := hasDerivAt_U0_curve (hsub x) (hasDerivAt_const x α)
    simpa using this
  have d1 : ∀ x, HasDerivAt (fun x => U 1 (χ + ψ - x) α) (-U 0 (χ + ψ - x) α) x := fun x => by
    have := hasDerivAt_U_curve 0 (hsub x) (hasDerivAt_const x α)
    simpa using this
  constructor
  · have hd : ∀ x, HasDerivAt (fun x => U 0 x α * U 0 (χ + ψ - x) α
        - α * (U 1 x α * U 1 (χ + ψ - x) α)) 0 x := by
      intro x
      refine (((hasDerivAt_U0_chi x α).fun_mul (d0 x)).fun_sub
        (((hasDerivAt_U_chi 0 x α).fun_mul (d1 x)).const_mul α)).congr_deriv ?_
      ring
    have hc := is_const_of_deriv_eq_zero (fun x => (hd x).differentiableAt) (fun x => (hd x).deriv) χ 0
    simp only [add_sub_cancel_left, sub_zero, U_zero_left] at hc
    norm_num at hc
    linarith
  · have hd : ∀ x, HasDerivAt (fun x => U 0 x α * U 1 (χ + ψ - x) α
        + U 1 x α * U 0 (χ + ψ - x) α) 0 x := by
      intro x
      refine (((hasDerivAt_U0_chi x α).fun_mul (d1 x)).fun_add
        ((hasDerivAt_U_chi 0 x α).fun_mul (d0 x))).congr_deriv ?_
      ring
    have hc := is_const_of_deriv_eq_zero (fun x => (hd x).differentiableAt) (fun x => (hd x).deriv) χ 0
    simp only [add_sub_cancel_left, sub_zero, U_zero_left] at hc
    norm_num at hc
    linarith

theorem U2_add (χ ψ α : ℝ) :
    U 2 (χ + ψ) α = U 2 χ α + U 1 χ α * U 1 ψ α + U 0 χ α * U 2 ψ α := by
  -- both sides agree at ψ = 0 and have the same derivative in ψ
  have hadd : ∀ x, HasDerivAt (fun x : ℝ => χ + x) 1 x := fun x => by
    simpa using (hasDerivAt_id x).const_add χ
  have hd : ∀ x, HasDerivAt (fun x => U 2 (χ + x) α
      - (U 2 χ α + U 1 χ α * U 1 x α + U 0 χ α * U 2 x α)) 0 x := by
    intro x
    have h2 := hasDerivAt_U_curve 1 (hadd x) (hasDerivAt_const x α)
    refine (h2.fun_sub ((((hasDerivAt_U_chi 0 x α).const_mul (U 1 χ α)).const_add (U 2 χ α)).fun_add
      ((hasDerivAt_U_chi 1 x α).const_mul (U 0 χ α)))).congr_deriv ?_
    rw [(U_add χ x α).2]; ring
  have hc := is_const_of_deriv_eq_zero (fun x => (hd x).differentiableAt) (fun x => (hd x).deriv) ψ 0
  simp only [add_zero, U_zero_left] at hc
  norm_num at hc
  linarith

theorem U3_add (χ ψ α : ℝ) :
    U 3 (χ + ψ) α = U 3 χ α + U 3 ψ α + U 2 χ α * U 1 ψ α + U 1 χ α * U 2 ψ α := by
  have hadd : ∀ x, HasDerivAt (fun x : ℝ => χ + x) 1 x := fun x => by
    simpa using (hasDerivAt_id x).const_add χ
  have hd : ∀ x, HasDerivAt (fun x => U 3 (χ + x) α
      - (U 3 χ α + U 3 x α + U 2 χ α * U 1 x α + U 1 χ α * U 2 x α)) 0 x := by
    intro x
    have h3 := hasDerivAt_U_curve 2 (hadd x) (hasDerivAt_const x α)
    refine (h3.fun_sub ((((hasDerivAt_U_chi 2 x α).const_add (U 3 χ α)).fun_add
      ((hasDerivAt_U_chi 0 x α).const_mul (U 2 χ α))).fun_add
      ((hasDerivAt_U_chi 1 x α).const_mul (U 1 χ α)))).congr_deriv ?_
    rw [U2_add χ x α]
    have hx := U_rec 0 x α
    have hχ := U_rec 0 χ α
    norm_num at hx hχ
    linear_combination U 2 x α * hχ - U 2 χ α * hx
  have hc := is_const_of_deriv_eq_zero (fun x => (hd x).differentiableAt) (fun x => (hd x).deriv) ψ 0
  simp only [add_zero, U_zero_left] at hc
  norm_num at hc
  linarith

theorem continuous_U (n : ℕ) : Continuous fun q : ℝ × ℝ => U n q.1 q.2 := by
  have h : Continuous (stumpff n) :=
    continuous_iff_continuousAt.2 fun z => (hasDerivAt_stumpff n z).continuousAt
  unfold U
  fun_prop

end Adx.Spec
