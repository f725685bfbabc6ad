import Verif.Props.C18g
import Verif.Props.C63d
import Mathlib.Analysis.Calculus.Deriv.MeanValue
import Mathlib.Analysis.Complex.ExponentialBounds

/-! # C18, continued: the default call on hyperbolas up to eccentricity 1.0000617

As in `C18g`, with the last steps, which are shorter than 1, followed one by one. -/

namespace Adx
open Set

theorem exp_ratio_le {p q : ℕ} {U : ℝ} (hq : 0 < q) (hU : 0 < U) (h : (2.7182818286 : ℝ) ^ p ≤ U ^ q) :
    Real.exp (p / q) ≤ U := by
  have hq' : (0 : ℝ) < q := by exact_mod_cast hq
  refine le_of_pow_le_pow_left₀ hq.ne' hU.le ?_
  rw [← Real.exp_nat_mul, mul_div_cancel₀ _ hq'.ne']
  rw [show (p : ℝ) = p * 1 by ring, Real.exp_nat_mul]
  exact (pow_le_pow_left₀ (Real.exp_pos 1).le Real.exp_one_lt_d9.le p).trans h

/-- A step from `a` or above leads to `b` or above. -/
theorem hypb_step_ge {N e a b H U : ℝ} (he : 1 < e) (hb : 0 ≤ b) (hab : b < a) (hab1 : a - b ≤ 1) (hU : Real.exp a ≤ U)
    (hg : 0 ≤ e / 2 * ((a - b - 1) * U + (a - b + 1) / U) + b + N) (hH : a ≤ H) : b ≤ newtonHypb N e H := by
  have hE := Real.exp_pos a
  have hG : ∀ x, HasDerivAt (fun x => (x - b) * (e * Real.cosh x - 1) - (e * Real.sinh x - x - N))
      ((x - b) * (e * Real.sinh x)) x := by
    intro x
    have h1 := ((hasDerivAt_id' x).sub_const b).fun_mul (((Real.hasDerivAt_cosh x).const_mul e).sub_const 1)
    have h2 := ((((Real.hasDerivAt_sinh x).const_mul e).fun_sub (hasDerivAt_id' x)).sub_const N)
    refine (h1.fun_sub h2).congr_deriv ?_
    ring
  have hmono : MonotoneOn (fun x => (x - b) * (e * Real.cosh x - 1) - (e * Real.sinh x - x - N)) (Ici a) := by
    refine monotoneOn_of_deriv_nonneg (convex_Ici a) (fun x _ => (hG x).continuousAt.continuousWithinAt)
      (fun x _ => (hG x).differentiableAt.differentiableWithinAt) fun x hx => ?_
    rw [interior_Ici, mem_Ioi] at hx
    rw [(hG x).deriv]
    have : 0 ≤ Real.sinh x := Real.sinh_nonneg_iff.2 (by linarith)
    exact mul_nonneg (by linarith) (mul_nonneg (by linarith) this)
  have ha : 0 ≤ (a - b) * (e * Real.cosh a - 1) - (e * Real.sinh a - a - N) := by
    have h1 : (a - b - 1) * U ≤ (a - b - 1) * Real.exp a := mul_le_mul_of_nonpos_left hU (by linarith)
    have h2 : (a - b + 1) / U ≤ (a - b + 1) * Real.exp (-a) := by
      rw [Real.exp_neg, ← div_eq_mul_inv]
      exact div_le_div_of_nonneg_left (by linarith) hE hU
    have h3 : e / 2 * ((a - b - 1) * U + (a - b + 1) / U)
        ≤ e / 2 * ((a - b - 1) * Real.exp a + (a - b + 1) * Real.exp (-a)) :=
      mul_le_mul_of_nonneg_left (by linarith) (by linarith)
    rw [Real.cosh_eq, Real.sinh_eq]
    nlinarith
  have hHG := hmono (mem_Ici.2 le_rfl) (mem_Ici.2 hH) hH
  simp only at hHG
  have hd : 0 < dH H e := by linarith [dH_ge (by linarith : 0 ≤ e) H]
  have : kepler_equ_hypb H e N / dH H e ≤ H - b := by
    rw [div_le_iff₀ hd, kep_hypb_eq, dH_eq]
    linarith
  rw [newtonHypb]; linarith

/-- The residual above 0.33 at `N = 1/180`. -/
theorem hypb_residual_033 {e H : ℝ} (he : 1 ≤ e) (hH : 33 / 100 ≤ H) :
    4 / 10000 ≤ kepler_equ_hypb H e (1 / 180) := by
  have hs := sinh_rem_right (x := 0) (d := H) le_rfl (by linarith)
  rw [Real.sinh_zero, Real.cosh_zero, zero_add] at hs
  have h3 : (33 / 100 : ℝ) ^ 3 ≤ H ^ 3 := pow_le_pow_left₀ (by norm_num) hH 3
  norm_num at h3
  rw [kep_hypb_eq]
  have : Real.sinh H ≤ e * Real.sinh H := by
    have : 0 ≤ Real.sinh H := Real.sinh_nonneg_iff.2 (by linarith)
    nlinarith
  linarith

section
variable {e : ℝ} (he : 1 < e) (he' : e ≤ 1 + 1 / 16200)
include he he'

theorem hypb_down_0 {H : ℝ} (hH : 59 / 10 ≤ H) : 123 / 25 ≤ newtonHypb (1 / 180) e H := by
  have hU : Real.exp ((59 : ℕ) / (10 : ℕ)) ≤ 365037833/1000000 := exp_ratio_le (by norm_num) (by norm_num) (by norm_num)
  refine hypb_step_ge (U := 365037833/1000000) he (by norm_num) (by norm_num) (by norm_num) (by exact_mod_cast hU) ?_ hH
  norm_num
  linarith

theorem hypb_down_1 {H : ℝ} (hH : 123 / 25 ≤ H) : 159 / 40 ≤ newtonHypb (1 / 180) e H := by
  have hU : Real.exp ((123 : ℕ) / (25 : ℕ)) ≤ 685013751/5000000 := exp_ratio_le (by norm_num) (by norm_num) (by norm_num)
  refine hypb_step_ge (U := 685013751/5000000) he (by norm_num) (by norm_num) (by norm_num) (by exact_mod_cast hU) ?_ hH
  norm_num
  linarith

theorem hypb_down_2 {H : ℝ} (hH : 159 / 40 ≤ H) : 77 / 25 ≤ newtonHypb (1 / 180) e H := by
  have hU : Real.exp ((159 : ℕ) / (40 : ℕ)) ≤ 266250851/5000000 := exp_ratio_le (by norm_num) (by norm_num) (by norm_num)
  refine hypb_step_ge (U := 266250851/5000000) he (by norm_num) (by norm_num) (by norm_num) (by exact_mod_cast hU) ?_ hH
  norm_num
  linarith

theorem hypb_down_3 {H : ℝ} (hH : 77 / 25 ≤ H) : 229 / 100 ≤ newtonHypb (1 / 180) e H := by
  have hU : Real.exp ((77 : ℕ) / (25 : ℕ)) ≤ 108792121/5000000 := exp_ratio_le (by norm_num) (by norm_num) (by norm_num)
  refine hypb_step_ge (U := 108792121/5000000) he (by norm_num) (by norm_num) (by norm_num) (by exact_mod_cast hU) ?_ hH
  norm_num
  linarith

theorem hypb_down_4 {H : ℝ} (hH : 229 / 100 ≤ H) : 41 / 25 ≤ newtonHypb (1 / 180) e H := by
  have hU : Real.exp ((229 : ℕ) / (100 : ℕ)) ≤ 24687369/2500000 := exp_ratio_le (by norm_num) (by norm_num) (by norm_num)
  refine hypb_step_ge (U := 24687369/2500000) he (by norm_num) (by norm_num) (by norm_num) (by exact_mod_cast hU) ?_ hH
  norm_num
  linarith

theorem hypb_down_5 {H : ℝ} (hH : 41 / 25 ≤ H) : 57 / 50 ≤ newtonHypb (1 / 180) e H := by
  have hU : Real.exp ((41 : ℕ) / (25 : ℕ)) ≤ 51551747/10000000 := exp_ratio_le (by norm_num) (by norm_num) (by norm_num)
  refine hypb_step_ge (U := 51551747/10000000) he (by norm_num) (by norm_num) (by norm_num) (by exact_mod_cast hU) ?_ hH
  norm_num
  linarith

theorem hypb_down_6 {H : ℝ} (hH : 57 / 50 ≤ H) : 39 / 50 ≤ newtonHypb (1 / 180) e H := by
  have hU : Real.exp ((57 : ℕ) / (50 : ℕ)) ≤ 6253543/2000000 := exp_ratio_le (by norm_num) (by norm_num) (by norm_num)
  refine hypb_step_ge (U := 6253543/2000000) he (by norm_num) (by norm_num) (by norm_num) (by exact_mod_cast hU) ?_ hH
  norm_num
  linarith

theorem hypb_down_7 {H : ℝ} (hH : 39 / 50 ≤ H) : 27 / 50 ≤ newtonHypb (1 / 180) e H := by
  have hU : Real.exp ((39 : ℕ) / (50 : ℕ)) ≤ 4362949/2000000 := exp_ratio_le (by norm_num) (by norm_num) (by norm_num)
  refine hypb_step_ge (U := 4362949/2000000) he (by norm_num) (by norm_num) (by norm_num) (by exact_mod_cast hU) ?_ hH
  norm_num
  linarith

theorem hypb_down_8 {H : ℝ} (hH : 27 / 50 ≤ H) : 39 / 100 ≤ newtonHypb (1 / 180) e H := by
  have hU : Real.exp ((27 : ℕ) / (50 : ℕ)) ≤ 8580043/5000000 := exp_ratio_le (by norm_num) (by norm_num) (by norm_num)
  refine hypb_step_ge (U := 8580043/5000000) he (by norm_num) (by norm_num) (by norm_num) (by exact_mod_cast hU) ?_ hH
  norm_num
  linarith

theorem hypb_down_9 {H : ℝ} (hH : 39 / 100 ≤ H) : 33 / 100 ≤ newtonHypb (1 / 180) e H := by
  have hU : Real.exp ((39 : ℕ) / (100 : ℕ)) ≤ 14769823/10000000 := exp_ratio_le (by norm_num) (by norm_num) (by norm_num)
  refine hypb_step_ge (U := 14769823/10000000) he (by norm_num) (by norm_num) (by norm_num) (by exact_mod_cast hU) ?_ hH
  norm_num
  linarith

end

/-- C18 refuted for the default call (tolerance 1e-6, 50 iterations): for every eccentricity in `(1, 1 + 1/16200]` it fails at
`N = 1/180`, with a residual of at least 4e-4. -/
theorem C18_hypb_default_wide_refuted {e : ℝ} (he : 1 < e) (he' : e ≤ 1 + 1 / 16200) :
    ∃ H, solve_kepler_hypb (1 / 180) e = some H ∧ 33 / 100 ≤ H ∧ 4 / 10000 ≤ e * Real.sinh H - H - 1 / 180 := by
  obtain ⟨hr, hf⟩ := hypb_first_far (N := 1 / 180) (by norm_num) (by norm_num) he (by norm_num; linarith)
  have hf' : 449 / 10 ≤ newtonHypb (1 / 180) e (hypbStart (1 / 180) e) := by norm_num at hf ⊢; linarith
  set x : ℕ → ℝ := fun j => (newtonHypb (1 / 180) e)^[j] (hypbStart (1 / 180) e) with hx
  have hsucc : ∀ j, x (j + 1) = newtonHypb (1 / 180) e (x j) := fun j => Function.iterate_succ_apply' _ _ _
  have hiter : ∀ j : ℕ, j ≤ 39 → 449 / 10 - (j : ℝ) ≤ x (j + 1) := by
    intro j
    induction j with
    | zero => intro _; rw [hsucc]; simpa [hx] using hf'
    | succ j ih =>
      intro hj
      have h2 := ih (by omega)
      have h3 : (j : ℝ) + 1 ≤ 39 := by exact_mod_cast hj
      have := hypb_newton_slow_one (N := 1 / 180) (e := e) (by norm_num) he.le (H := x (j + 1)) (by linarith)
      rw [hsucc]
      push_cast
      linarith
  have h40 : 59 / 10 ≤ x 40 := by have := hiter 39 le_rfl; norm_num at this; linarith
  have h41 : 123 / 25 ≤ x 41 := by rw [hsucc]; exact hypb_down_0 he he' h40
  have h42 : 159 / 40 ≤ x 42 := by rw [hsucc]; exact hypb_down_1 he he' h41
  have h43 : 77 / 25 ≤ x 43 := by rw [hsucc]; exact hypb_down_2 he he' h42
  have h44 : 229 / 100 ≤ x 44 := by rw [hsucc]; exact hypb_down_3 he he' h43
  have h45 : 41 / 25 ≤ x 45 := by rw [hsucc]; exact hypb_down_4 he he' h44
  have h46 : 57 / 50 ≤ x 46 := by rw [hsucc]; exact hypb_down_5 he he' h45
  have h47 : 39 / 50 ≤ x 47 := by rw [hsucc]; exact hypb_down_6 he he' h46
  have h48 : 27 / 50 ≤ x 48 := by rw [hsucc]; exact hypb_down_7 he he' h47
  have h49 : 39 / 100 ≤ x 49 := by rw [hsucc]; exact hypb_down_8 he he' h48
  have h50 : 33 / 100 ≤ x 50 := by rw [hsucc]; exact hypb_down_9 he he' h49
  have hlarge : ∀ j : ℕ, j + 1 ≤ 50 → 33 / 100 ≤ x (j + 1) := fun j hj => by
    by_cases h : j ≤ 39
    · have h3 : (j : ℝ) ≤ 39 := by exact_mod_cast h
      linarith [hiter j h]
    · obtain ⟨i, rfl⟩ : ∃ i, j = 40 + i := ⟨j - 40, by omega⟩
      have hi : i < 10 := by omega
      interval_cases i <;> norm_num <;> linarith
  obtain ⟨k, hk, -, hs, -, hstop⟩ := C13_hypb (1 / 180) e (defaultTol : ℝ) 50
  have hkn : k = 50 := by
    by_contra h
    have hst := hstop (lt_of_le_of_ne hk h)
    simp only [lt_real, abs_real, decide_eq_false_iff_not, not_lt] at hst
    have htol : (defaultTol : ℝ) < 1 / 10000 := by norm_num [defaultTol]
    rcases k with _ | k
    · have := (neg_le_abs _).trans hst
      simp only [Function.iterate_zero, id_eq] at this
      linarith
    · have h2 := (le_abs_self _).trans hst
      have h3 := hypb_residual_033 he.le (hlarge k (by omega))
      simp only [hx] at h3
      linarith
  rw [hkn] at hs
  refine ⟨_, hs, h50, ?_⟩
  have := hypb_residual_033 he.le h50
  rwa [kep_hypb_eq] at this

example : ∃ H, solve_kepler_hypb (1 / 180) (1.00006 : ℝ) = some H ∧ 4 / 10000 ≤ 1.00006 * Real.sinh H - H - 1 / 180 := by
  obtain ⟨H, h1, -, h2⟩ := C18_hypb_default_wide_refuted (e := 1.00006) (by norm_num) (by norm_num)
  exact ⟨H, h1, h2⟩

end Adx
